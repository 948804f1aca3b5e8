import Mathlib.LinearAlgebra.Matrix.Adjugate
import Verif.Spec.MatExpr
import Verif.Spec.FieldChange

/-!
How the indices of arrays transform under Lorentz transformations, and when the indices of an expression are contracted properly.
-/

namespace Lips

open Matrix

/-- What an index of an array runs over: nothing (one value), the two components of a spinor, or first one kind and then another (blocks).
A spinor index is of the angle or of the square kind, and of the kind of `|k⟩`, `|k]` (lower) or of the kind of `⟨k|`, `[k|` (upper), with
which the first is contracted. -/
inductive Idx where
  | one
  | lower (angle : Bool)
  | upper (angle : Bool)
  | sum (I J : Idx)
  deriving DecidableEq

/-- The number of values. -/
def Idx.dim : Idx → ℕ
  | .one => 1
  | .lower _ => 2
  | .upper _ => 2
  | .sum I J => I.dim + J.dim

/-- The index that is contracted with this one. -/
def Idx.dual : Idx → Idx
  | .one => .one
  | .lower b => .upper b
  | .upper b => .lower b
  | .sum I J => .sum I.dual J.dual

/-- Several kinds one after the other. -/
def sumIdx (I : Idx) : List Idx → Idx
  | [] => I
  | J :: Js => .sum I (sumIdx J Js)

variable {K : Type*} [Field K]

/-- Two matrices along the diagonal. -/
def blockMat {a b : ℕ} (A : Matrix (Fin a) (Fin a) K) (B : Matrix (Fin b) (Fin b) K) : Matrix (Fin (a + b)) (Fin (a + b)) K :=
  (fromBlocks A 0 0 B).submatrix finSumFinEquiv.symm finSumFinEquiv.symm

/-- What the transformation that takes `|k⟩` to `g|k⟩` and `[k|` to `[k|h` does with an index. -/
def Idx.mat (g h : M2 K) : (I : Idx) → Matrix (Fin I.dim) (Fin I.dim) K
  | .one => 1
  | .lower true => g
  | .lower false => h.adjugate
  | .upper true => g.adjugateᵀ
  | .upper false => hᵀ
  | .sum I J => blockMat (I.mat g h) (J.mat g h)

/-- From `lo` on, an index of kind `I` is one of kind `J`. -/
inductive Part : Idx → ℕ → Idx → Prop
  | whole (I : Idx) : Part I 0 I
  | left {I lo I'} (J : Idx) : Part I lo I' → Part (.sum I J) lo I'
  | right {J lo J'} (I : Idx) : Part J lo J' → Part (.sum I J) (I.dim + lo) J'
  | both {I lo I' J J'} : Part I lo I' → lo + I'.dim = I.dim → Part J 0 J' → Part (.sum I J) lo (.sum I' J')

/-- A number, or an array with these indices. -/
inductive ATy where
  | num
  | arr (I J : Idx)
  deriving DecidableEq

/-- Expressions in which only indices that fit are contracted, and only equal kinds added; `env` gives the kinds of the names. -/
inductive Typed (env : List Char → Option ATy) : Node → ATy → Prop
  | num (k : ℕ) : Typed env (.num k) .num
  | fraction (a b : ℕ) : Typed env (.fraction a b) .num
  | name (t : List Char) (τ : ATy) (h : env t = some τ) : Typed env (.oPs t) τ
  | epsLower (b : Bool) : Typed env (.name ['ϵ']) (.arr (.lower b) (.lower b))
  | epsUpper (b : Bool) : Typed env (.name ['ϵ']) (.arr (.upper b) (.upper b))
  | epsSpin : Typed env (.name ['ϵ']) (.arr (.sum .one .one) (.sum .one .one))
  | ofOne {a} : Typed env a (.arr .one .one) → Typed env a .num
  | neg {a τ} : Typed env a τ → Typed env (.neg a) τ
  | pos {a τ} : Typed env a τ → Typed env (.pos a) τ
  | opNum {a b} (o : Bin) : Typed env a .num → Typed env b .num → Typed env (.bin o a b) .num
  | addArr {a b I J} : Typed env a (.arr I J) → Typed env b (.arr I J) → Typed env (.bin .add a b) (.arr I J)
  | subArr {a b I J} : Typed env a (.arr I J) → Typed env b (.arr I J) → Typed env (.bin .sub a b) (.arr I J)
  | matmul {a b I J L} : Typed env a (.arr I J) → Typed env b (.arr J.dual L) → Typed env (.bin .matmul a b) (.arr I L)
  | numArr {a b I J} : Typed env a .num → Typed env b (.arr I J) → Typed env (.bin .mul a b) (.arr I J)
  | arrNum {a b I J} : Typed env a (.arr I J) → Typed env b .num → Typed env (.bin .mul a b) (.arr I J)
  | divNum {a b I J} : Typed env a (.arr I J) → Typed env b .num → Typed env (.bin .div a b) (.arr I J)
  | transpose {a I J} : Typed env a (.arr I J) → Typed env (.transpose a) (.arr J I)
  | beside {I J Js es} : es.length = (J :: Js).length → (∀ p ∈ es.zip (J :: Js), Typed env p.1 (.arr I p.2)) →
      Typed env (.block (.list es)) (.arr I (sumIdx J Js))
  | blocks {I Is J Js} {ess : List (List Node)} : ess.length = (I :: Is).length → (∀ es ∈ ess, es.length = (J :: Js).length) →
      (∀ q ∈ ess.zip (I :: Is), ∀ p ∈ q.1.zip (J :: Js), Typed env p.1 (.arr q.2 p.2)) →
      Typed env (.block (.list (ess.map .list))) (.arr (sumIdx I Is) (sumIdx J Js))
  | rows {a I J I' ix lo} : Typed env a (.arr I J) → Part I lo I' → Covers I.dim ix lo I'.dim → Typed env (.subscript a [ix]) (.arr I' J)
  | cut {a I J I' J' ix iy lo lo'} : Typed env a (.arr I J) → Part I lo I' → Covers I.dim ix lo I'.dim → Part J lo' J' →
      Covers J.dim iy lo' J'.dim → Typed env (.subscript a [ix, iy]) (.arr I' J')
  | entry {a I J} {i j : ℤ} {p q : ℕ} : Typed env a (.arr I J) → Part I p .one → i = p ∨ i = (p : ℤ) - I.dim → Part J q .one →
      j = q ∨ j = (q : ℤ) - J.dim → Typed env (.subscript a [.pos i, .pos j]) .num

/-- The second value is the first one transformed. (Values that are not followed stay so.) -/
inductive Moved (g h : M2 K) : ATy → PVal K → PVal K → Prop
  | other (τ : ATy) : Moved g h τ (.sc .other) (.sc .other)
  | sc (v : EVal K) : Moved g h .num (.sc v) (.sc v)
  | one (x : K) : Moved g h .num (.arr (.const x)) (.arr (.const x))
  | arr (I J : Idx) (M : Matrix (Fin I.dim) (Fin J.dim) K) :
      Moved g h (.arr I J) (.arr ⟨I.dim, J.dim, M⟩) (.arr ⟨I.dim, J.dim, I.mat g h * M * (J.mat g h)ᵀ⟩)

/-- The kind of indices an odd number of slots further. -/
def afterSlots (b : Bool) (k : ℕ) : Bool := if k % 2 = 0 then b else !b

/-- The indices of what a text of a form stands for. Traces with an odd number of slots and strings opened by `<` have no proper ones. -/
def Form.indices : Form → Option ATy
  | .tr es => if es.length % 2 = 0 then some .num else none
  | .string o _ ms _ c => if o ∈ ['⟨', '['] ∨ (c = '⟩' ↔ ms.length % 2 = 1) then some .num else none
  | .Au _ => some (.arr .one (.upper true))
  | .Ad _ => some (.arr (.lower true) .one)
  | .Su _ => some (.arr (.lower false) .one)
  | .Sd _ => some (.arr .one (.upper false))
  | .openEnd o _ ms => some (.arr .one (.upper (afterSlots (o = '⟨') ms.length)))
  | .openBegin ms _ c => if c = '⟩' ∨ c = ']' then some (.arr (.lower (afterSlots (c = '⟩') ms.length)) .one) else none
  | .doubleOpen ms => some (.arr (.lower true) (.upper (afterSlots true ms.length)))
  | .internalMass _ => none
  | .expression => none
  | _ => some .num

/-- The indices of a name; bold digits are plain ones. -/
def nameIndices (t : List Char) : Option ATy :=
  match rsubsDict t boldDigits with
  | .ok u => (classify u).indices
  | .error _ => none

end Lips

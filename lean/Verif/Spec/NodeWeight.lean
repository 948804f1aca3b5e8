import Verif.Spec.Weight
import Verif.Model.EvalArr

/-!
Weights of expressions with open indices by counting.
-/

namespace Lips

/-- The integer an exponent is, if it is written with integers. -/
def Node.int : Node → Option ℤ
  | .num k => some k
  | .pos a => a.int
  | .neg a => a.int.map (- ·)
  | .bin .add a b => a.int.bind fun m => b.int.map (m + ·)
  | .bin .sub a b => a.int.bind fun m => b.int.map (m - ·)
  | .bin .mul a b => a.int.bind fun m => b.int.map (m * ·)
  | _ => none

/-- Expressions with a weight, where `w` gives those of the names: what is added or put into one block has one weight, products of numbers and of
matrices add weights, quotients subtract them, powers multiply them. -/
inductive Weighs (w : List Char → Option ℤ) : Node → ℤ → Prop
  | num (k : ℕ) : Weighs w (.num k) 0
  | fraction (a b : ℕ) : Weighs w (.fraction a b) 0
  | name (t : List Char) (W : ℤ) (h : w t = some W) : Weighs w (.oPs t) W
  | eps : Weighs w (.name ['ϵ']) 0
  | neg {a W} : Weighs w a W → Weighs w (.neg a) W
  | pos {a W} : Weighs w a W → Weighs w (.pos a) W
  | add {a b W} : Weighs w a W → Weighs w b W → Weighs w (.bin .add a b) W
  | sub {a b W} : Weighs w a W → Weighs w b W → Weighs w (.bin .sub a b) W
  | mul {a b V W} : Weighs w a V → Weighs w b W → Weighs w (.bin .mul a b) (V + W)
  | matmul {a b V W} : Weighs w a V → Weighs w b W → Weighs w (.bin .matmul a b) (V + W)
  | div {a b V W} : Weighs w a V → Weighs w b W → Weighs w (.bin .div a b) (V - W)
  | pow {a b W m} : Weighs w a W → b.int = some m → Weighs w (.bin .pow a b) (m * W)
  | list {es W} : (∀ e ∈ es, Weighs w e W) → Weighs w (.list es) W
  | block {a W} : Weighs w a W → Weighs w (.block a) W
  | transpose {a W} : Weighs w a W → Weighs w (.transpose a) W
  | subscript {a W} (ix : List Ix) : Weighs w a W → Weighs w (.subscript a ix) W

variable {K : Type*} [Field K]

/-- The array with every entry multiplied by a number. -/
def Arr.scale (k : K) (A : Arr K) : Arr K := ⟨A.rows, A.cols, fun i j => k * A.get i j⟩

/-- The second number is the first one multiplied by `t ^ w`; integers and fractions, which have no weight, are the same. -/
def NumScaled (t : K) (w : ℤ) : EVal K → EVal K → Prop
  | .int a, .int b => a = b ∧ w = 0
  | .frac a, .frac b => a = b ∧ w = 0
  | .fld x, .fld y => y = t ^ w * x
  | .other, .other => True
  | _, _ => False

/-- The second value is the first one multiplied by `t ^ w`: every entry of an array, every element of a list. -/
inductive ValScaled (t : K) (w : ℤ) : PVal K → PVal K → Prop
  | sc {x y} : NumScaled t w x y → ValScaled t w (.sc x) (.sc y)
  | arr (A : Arr K) : ValScaled t w (.arr A) (.arr (A.scale (t ^ w)))
  | nil : ValScaled t w (.list []) (.list [])
  | cons {v v' vs vs'} : ValScaled t w v v' → ValScaled t w (.list vs) (.list vs') → ValScaled t w (.list (v :: vs)) (.list (v' :: vs'))

/-- The little-group weight of a name for particle `A`, also of spinors and open strings: angle ends that are `A` minus square ends. -/
def Form.openPhase {n : ℕ} (A : Fin n) : Form → Option ℤ
  | .Au a | .Ad a => some (isLabel A a)
  | .Su a | .Sd a => some (-isLabel A a)
  | .openEnd o a _ => some ((if o = '⟨' then 1 else -1) * isLabel A a)
  | .openBegin _ d c => some ((if c = '⟩' then 1 else -1) * isLabel A d)
  | .doubleOpen _ => some 0
  | f => f.phase A

/-- Twice the mass dimension: one for every spinor, two for every slot. -/
def Form.spinors : Form → Option ℤ
  | .Au _ | .Ad _ | .Su _ | .Sd _ => some 1
  | .openEnd _ _ ms | .openBegin ms _ _ => some (2 * ms.length + 1)
  | .doubleOpen ms => some (2 * ms.length)
  | f => f.dimension.map (2 * ·)

end Lips

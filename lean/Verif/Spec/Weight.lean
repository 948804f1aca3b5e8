import Verif.Model.Eval
import Verif.Model.Front
import Verif.Spec.Arith
import Verif.Props.EvalValue

/-!
Weights of invariants and of expressions by counting: little-group weights and mass dimensions.
-/

namespace Lips

/-- The weight of an expression, if it has one: sums have terms of one weight, products and quotients add and subtract weights, a power by an
integer multiplies them. Numbers have weight zero. -/
def Ast.weight (w : List Char → Option ℤ) : Ast EAtom → Option ℤ
  | .atom (.leaf i) => w i
  | .atom _ => some 0
  | .pos a => a.weight w
  | .neg a => a.weight w
  | .add a b => if a.weight w = b.weight w then a.weight w else none
  | .sub a b => if a.weight w = b.weight w then a.weight w else none
  | .mul a b => (a.weight w).bind fun x => (b.weight w).map (x + ·)
  | .div a b => (a.weight w).bind fun x => (b.weight w).map (x - ·)
  | .pow a b => match b.int atomInt with
    | some m => (a.weight w).map (m * ·)
    | none => none

/-- Is a text the label of particle `A`. -/
def isLabel {n : ℕ} (A : Fin n) (t : List Char) : ℤ := if Nat.ofDigitChars 10 t 0 = A + 1 then 1 else 0

/-- The little-group weight of an invariant for particle `A`: angle brackets that `A` is at the end of minus square brackets. -/
def Form.phase {n : ℕ} (A : Fin n) : Form → Option ℤ
  | .angle a b => some (isLabel A a + isLabel A b)
  | .square a b => some (-isLabel A a - isLabel A b)
  | .string o a _ d c => some ((if o = '⟨' then 1 else -1) * isLabel A a + (if c = '⟩' then 1 else -1) * isLabel A d)
  | .tr5 _ | .tr _ | .omega _ | .pi _ | .delta _ | .d5 | .massOf _ | .mandelstam _ => some 0
  | _ => none

/-- The mass dimension of an invariant. -/
def Form.dimension : Form → Option ℤ
  | .angle _ _ | .square _ _ => some 1
  | .string _ _ ms _ _ => some (ms.length + 1)
  | .tr5 _ => some 4
  | .tr es => some es.length
  | .omega _ => some 4
  | .pi _ => some 2
  | .delta [_] => some 4
  | .delta cs => some (2 * (cs.length - 1 : ℕ))
  | .d5 => some 8
  | .massOf _ | .mandelstam _ => some 2
  | _ => none

/-- The weight of the invariant a text is. -/
def nameWeight (w : Form → Option ℤ) (name : List Char) : Option ℤ :=
  match rsubsDict name boldDigits with
  | .ok u => w (classify u)
  | .error _ => none

end Lips

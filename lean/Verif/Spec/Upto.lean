import Verif.Spec.FieldChange
import Verif.Model.NodeText

/-!
What it means that evaluations of expressions over two fields correspond, when the second field has more zeros.
-/

namespace Lips

variable {K L : Type*} [Field K] [Field L]

/-- The second evaluation divides by zero, or both raise the same exception, or both give related values. -/
def Upto {α β : Type*} (T : α → β → Prop) (a : Except Err α) (b : Except Err β) : Prop := b = .error .zeroDivision ∨ ERel T a b

/-- Related numbers: the same integer or fraction, or related elements of the fields. -/
def NRel (T : K → L → Prop) : EVal K → EVal L → Prop
  | .int a, .int b => a = b
  | .frac a, .frac b => a = b
  | .fld x, .fld y => T x y
  | .other, .other => True
  | _, _ => False

/-- Related arrays: the same shape, related entries. -/
def ARel (T : K → L → Prop) (A : Arr K) (B : Arr L) : Prop :=
  A.rows = B.rows ∧ A.cols = B.cols ∧ ∀ i j (hi : i < A.rows) (hj : j < A.cols) (hi' : i < B.rows) (hj' : j < B.cols),
    T (A.get ⟨i, hi⟩ ⟨j, hj⟩) (B.get ⟨i, hi'⟩ ⟨j, hj'⟩)

/-- Related values of expressions. -/
inductive XRel (T : K → L → Prop) : PVal K → PVal L → Prop
  | sc {v w} : NRel T v w → XRel T (.sc v) (.sc w)
  | arr {A B} : ARel T A B → XRel T (.arr A) (.arr B)
  | list {vs ws} : List.Forall₂ (XRel T) vs ws → XRel T (.list vs) (.list ws)

end Lips

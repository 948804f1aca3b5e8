import Verif.Model.Eval

/-!
How the evaluator reads an expression that is not plain ordinary arithmetic: the quotients of two integer literals are
taken first, as if each were written in parentheses.
-/

namespace Lips

/-- The text in which every quotient of two integer literals is one number, from left to right, except where its
numerator is directly an exponent; `d` tells whether a power sign comes before. -/
def taken : Bool → List (Tok EAtom) → List (Tok EAtom)
  | d, .atom (.num a) :: .slash :: .atom (.num b) :: ts =>
    if d then .atom (.num a) :: .slash :: taken false (.atom (.num b) :: ts) else .atom (.rat a b) :: taken false ts
  | _, t :: ts => t :: taken (decide (t = .dstar)) ts
  | _, [] => []

/-- Some exponent is a literal of two digits or more that is divided by another literal. -/
def LongExponent (ts : List (Tok EAtom)) : Prop :=
  ∃ pre a b post, ts = pre ++ .dstar :: .atom (.num a) :: .slash :: .atom (.num b) :: post ∧ 10 ≤ a

end Lips

import Verif.Model.Front
import Verif.Model.Parse

/-!
Model of `compute` on expressions: the fall-through to `_eval` (lips/particles_compute.py:276), in which every `oPs('..')` is
`compute` again (lips/particles.py:86-87, lips/particles_eval.py:193-196 and 216).
-/

namespace Lips

variable {K : Type*} [Field K] {n : ℕ}

/-- What `oPs(name)` is in an expression. Simplification: only numbers are values; a spinor, a matrix, an internal mass or an
expression as `name` stands for an error. -/
def leafNum (ps : Point K n) (fuel : ℕ) (name : List Char) : Except Err K :=
  match computeText ps fuel name with
  | some (.ok (.num x)) => .ok x
  | some (.error e) => .error e
  | _ => .error .notImplemented

/-- `compute(text)`, particles_compute.py:76-276: a text no pattern matches, after bold digits have been replaced by plain ones, is
evaluated as an expression. -/
noncomputable def callText (ps : Point K n) (fuel : ℕ) (t : List Char) : Option (Except Err (Val K ⊕ EVal K)) :=
  match rsubsDict t boldDigits with
  | .error e => some (.error e)
  | .ok u =>
    if classify u = .expression then (evalChars (leafNum ps fuel) t).map fun r => match r with
      | .ok v => .ok (.inr v)
      | .error e => .error e
    else (evalForm ps fuel (classify u)).map fun r => match r with
      | .ok v => .ok (.inl v)
      | .error e => .error e

/-- `compute(text)` as a number; integers and fractions are numbers of the field once they meet one. -/
noncomputable def callNumber (ps : Point K n) (fuel : ℕ) (t : List Char) : Option (Except Err K) :=
  match callText ps fuel t with
  | some (.error e) => some (.error e)
  | some (.ok (.inl (.num v))) => some (.ok v)
  | some (.ok (.inr .other)) => none
  | some (.ok (.inr w)) => some w.toField
  | _ => none

end Lips

import Verif.Props.Parentheses
import Verif.Examples.Compute

/-! Concrete cases for the theorems on the text front end. -/

namespace Lips

/-- C85: `(1+2)-3` meets the hypotheses, `1-(2+3)` does not. -/
example : (SignedSum.minus (.plus (.label 1) (.label 2)) (.label 3)).InRange 6 ∧
    (SignedSum.minus (.plus (.label 1) (.label 2)) (.label 3)).NoGroupMinus ∧
    (SignedSum.plus (.label 1) (.plus (.label 2) (.label 3))).text = "1+(2+3)".toList := by
  refine ⟨by simp [SignedSum.InRange], by simp [SignedSum.NoGroupMinus], by decide⟩

example : ¬ (SignedSum.minus (.label 1) (.plus (.label 2) (.label 3))).NoGroupMinus := by
  simp [SignedSum.NoGroupMinus]

/-- C85: the difference `⟨1|3|4]` is not zero at the example point. -/
example : ∃ x : F13, x ≠ 0 ∧ computeNB pt5 '⟨' 0 [[(true, 2)]] 3 ']' = .ok x := by
  have := ((C17_expansion (f13 .symmetric) pt5 (fun k => (spin5 k).1) (fun k => (spin5 k).2) 0 3
    [[(true, 2)]] (pt5_massless 0).toHasSpinors (pt5_massless 3).toHasSpinors
    (fun k _ => pt5_massless k)).2 (by simp)).1
  exact ⟨_, by decide, this⟩

end Lips

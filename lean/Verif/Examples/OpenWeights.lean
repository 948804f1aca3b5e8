import Verif.Props.OpenWeights
import Verif.Examples.Weights
import Verif.Examples.Covariance

/-!
Concrete cases for C128.
-/

namespace Lips

open Matrix

/-- `pt6` with the spinors of the first particle rescaled by five. -/
noncomputable abbrev little6 : Point F13 6 :=
  Function.update pt6 0 (ofSpinors (f13 .symmetric) ((5 : F13) • (spin6 0).1) ((5 : F13)⁻¹ • (spin6 0).2)).st

theorem pt6_little : LittleGroup (f13 .symmetric) 0 5 pt6 little6 where
  t0 := by decide
  others := fun k hk => Function.update_of_ne hk _ _
  cons := (pt6_massless 0).cons
  cons' := by rw [little6, Function.update_self]; exact (ofSpinors_isMassless _ _ _).cons
  massless := (pt6_massless 0).massless
  spinors := by
    refine ⟨_, _, (pt6_massless 0).r_d, (pt6_massless 0).l_d, ?_, ?_⟩
    · rw [little6, Function.update_self]; exact (ofSpinors_isMassless _ _ _).r_d
    · rw [little6, Function.update_self]; exact (ofSpinors_isMassless _ _ _).l_d
  massless' := by rw [little6, Function.update_self]; exact (ofSpinors_isMassless _ _ _).massless

/-- `⟨1|2+3|` is a row of weight one for particle 1; it is not zero, and is multiplied by five. -/
example (fuel : ℕ) : ∃ v : Matrix (Fin 1) (Fin 2) F13, v ≠ (5 : F13) • v ∧ computeNode pt6 fuel (.oPs "⟨1|2+3|".toList) = .ok (.arr ⟨1, 2, v⟩) ∧
    computeNode little6 fuel (.oPs "⟨1|2+3|".toList) = .ok (.arr ⟨1, 2, (5 : F13) • v⟩) := by
  have hv : computeNode pt6 fuel (.oPs "⟨1|2+3|".toList) =
      .ok (.arr ⟨1, 2, fun _ j => vecMul (frontOf '⟨' (spin6 0).1 (spin6 0).2) (chain pt6 true [[(true, 1), (true, 2)]]) j⟩) := by
    rw [computeNode]
    simp only [evalArr, leaf_openEnd (f13 .symmetric) pt6 fuel (pt6_massless 0).toHasSpinors long6, asScalar]
    rfl
  have key := (C128_values (f13 .symmetric) 0 5 pt6 little6 pt6_little fuel (a := .oPs "⟨1|2+3|".toList) (W := 1) (.name _ _ (by decide +kernel))).1 1 2 _ hv
  rw [zpow_one] at key
  exact ⟨_, fun e => absurd (congrFun (congrFun e 0) 1) (by decide +kernel), hv, key⟩

/-- `⟨1|(|2|3| - |4|5|)|6⟩`. -/
abbrev sandwich6 : Node := .bin .matmul (.bin .matmul (.oPs "⟨1|".toList) (.bin .sub (.oPs "|2|3|".toList) (.oPs "|4|5|".toList))) (.oPs "|6⟩".toList)

/-- It has weight one for particle 1 and six spinors. -/
theorem sandwich_weighs : Weighs (nameWeight (Form.openPhase (0 : Fin 6))) sandwich6 (1 + 0 + 0) ∧ Weighs (nameWeight Form.spinors) sandwich6 (1 + 4 + 1) :=
  ⟨.matmul (.matmul (.name _ _ (by decide +kernel)) (.sub (.name _ _ (by decide +kernel)) (.name _ _ (by decide +kernel)))) (.name _ _ (by decide +kernel)),
    .matmul (.matmul (.name _ _ (by decide +kernel)) (.sub (.name _ _ (by decide +kernel)) (.name _ _ (by decide +kernel)))) (.name _ _ (by decide +kernel))⟩

/-- Multiplied by `[1|2]` it has weight zero for particle 1. -/
example : Weighs (nameWeight (Form.openPhase (0 : Fin 6))) (.bin .mul sandwich6 (.oPs "[1|2]".toList)) (1 + 0 + 0 + -1) :=
  .mul sandwich_weighs.1 (.name _ _ (by decide +kernel))

/-- The text `⟨1|@(|2|3|-|4|5|)@|6⟩` gives something multiplied by five. -/
example (fuel : ℕ) : ∃ r r', computeArr pt6 fuel "⟨1|@(|2|3|-|4|5|)@|6⟩".toList = some r ∧
    computeArr little6 fuel "⟨1|@(|2|3|-|4|5|)@|6⟩".toList = some r' ∧ ERel (ValScaled (5 : F13) 1) r r' := by
  have hs : nodeOf (parseText "⟨1|@(|2|3|-|4|5|)@|6⟩".toList) = some sandwich6 := isNode_eq (by decide +kernel)
  have hw : Weighs (nameWeight (Form.openPhase (0 : Fin 6))) sandwich6 1 := by
    have := sandwich_weighs.1
    rwa [add_zero, add_zero] at this
  exact (C128_text (f13 .symmetric) 0 5 pt6 little6 fuel hs 1).1 pt6_little hw

/-- The massive spinor `[1^|` has the dimension of a spinor, but as its components come from two particles no little-group weight for one of them. -/
example : Weighs (nameWeight Form.spinors) (highSquareRow "[1|".toList "[2|".toList) 1 :=
  .subscript _ (.matmul (V := 0) (W := 1) (.neg .eps) (.block (.list fun e he => by
    simp only [List.mem_cons, List.not_mem_nil, or_false] at he
    rcases he with rfl | rfl <;> exact .list fun e he => by
      rw [List.mem_singleton] at he
      subst he
      exact .name _ _ (by decide +kernel))))

end Lips

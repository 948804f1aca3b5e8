import Verif.Props.Covariance
import Verif.Examples.EvalArr

/-! Expressions with open indices whose indices fit, at a concrete point and its image, meeting the hypotheses of C125. -/

namespace Lips

open Matrix

/-- The transformation of the examples. -/
abbrev lg : M2 F13 := !![2, 1; 1, 1]
/-- See `lg`. -/
abbrev lh : M2 F13 := !![1, 5; 0, 1]
/-- The image of `pt6`. -/
noncomputable abbrev pt6' : Point F13 6 := fun k => (ofSpinors (f13 .symmetric) (lg.mulVec (spin6 k).1) (vecMul (spin6 k).2 lh)).st

theorem image6 : LorentzImage (f13 .symmetric) lg lh pt6 pt6' :=
  C20_images_exist _ _ _ (by decide) (by decide) _ (fun k => (spin6 k).1) (fun k => (spin6 k).2) pt6_massless

theorem spinors6 : SpinorsOrNone pt6 pt6' := fun k => .inl ⟨_, _, (pt6_massless k).r_d, (pt6_massless k).l_d⟩

theorem sandwich_typed : Typed nameIndices (.bin .matmul (.bin .matmul (.oPs "⟨1|".toList) (.bin .sub (.oPs "|2|3|".toList) (.oPs "|4|5|".toList)))
    (.oPs "|6⟩".toList)) .num :=
  .ofOne (.matmul (J := .upper true) (.matmul (J := .upper true) (.name _ _ (by decide +kernel))
    (.subArr (.name _ _ (by decide +kernel)) (.name _ _ (by decide +kernel)))) (.name _ _ (by decide +kernel)))

/-- `⟨1|(|2|3| - |4|5|)|6⟩` is invariant. -/
example (fuel : ℕ) : computeArr pt6' fuel "⟨1|@(|2|3|-|4|5|)@|6⟩".toList = computeArr pt6 fuel "⟨1|@(|2|3|-|4|5|)@|6⟩".toList :=
  C125_text image6 spinors6 fuel (isNode_eq (by decide +kernel)) sandwich_typed

/-- `[1^|2+3|4_⟩`, of three massive particles, is invariant. -/
example (fuel : ℕ) : computeArr pt6' fuel "[1^|2+3|4_⟩".toList = computeArr pt6 fuel "[1^|2+3|4_⟩".toList :=
  C125_text image6 spinors6 fuel (a := .bin .matmul (.bin .matmul (highSquareRow "[1|".toList "[2|".toList) (flipNode "|2+3|".toList))
      (lowAngleCol "|4⟩".toList "|5⟩".toList)) (isNode_eq (by decide +kernel)) <|
    .ofOne <| .matmul (J := .upper true) (.matmul (J := .upper false)
      ((C125_massive nameIndices (w := [])).2.2.1 (by decide +kernel) (by decide +kernel))
      ((C125_massive nameIndices (u := []) (v := [])).2.2.2.2 (by decide +kernel)))
      ((C125_massive nameIndices (w := [])).2.1 (by decide +kernel) (by decide +kernel))

/-- `⟨1_|2|3_⟩` has indices that do not fit: after one slot a `|3_]` is wanted. No such check is made, but the kinds of the spinors show it. -/
example : nameIndices "|2|".toList = some (.arr (.lower true) (.upper false)) ∧ nameIndices "|3⟩".toList = some (.arr (.lower true) .one) := by decide +kernel

/-- `⟨1|2+3|` is a row with an index of the square kind, and transforms so. -/
example (fuel : ℕ) : ∃ v : Matrix (Fin 1) (Fin 2) F13, v ≠ v * lh ∧ computeNode pt6 fuel (.oPs "⟨1|2+3|".toList) = .ok (.arr ⟨1, 2, v⟩) ∧
    computeNode pt6' fuel (.oPs "⟨1|2+3|".toList) = .ok (.arr ⟨1, 2, v * lh⟩) := by
  have hv : computeNode pt6 fuel (.oPs "⟨1|2+3|".toList) =
      .ok (.arr ⟨1, 2, fun _ j => vecMul (frontOf '⟨' (spin6 0).1 (spin6 0).2) (chain pt6 true [[(true, 1), (true, 2)]]) j⟩) := by
    rw [computeNode]
    simp only [evalArr, leaf_openEnd (f13 .symmetric) pt6 fuel (pt6_massless 0).toHasSpinors long6, asScalar]
    rfl
  refine ⟨_, ?_, hv, (C125_array image6 spinors6 fuel (a := .oPs "⟨1|2+3|".toList) (I := .one) (J := .upper false) (.name _ _ (by decide +kernel))
    (by decide) hv).trans ?_⟩
  · exact fun e => absurd (congrFun (congrFun e 0) 1) (by decide +kernel)
  · exact congrArg (fun M : Matrix (Fin 1) (Fin 2) F13 => Except.ok (PVal.arr ⟨1, 2, M⟩)) ((congrArg₂ (· * ·) (Matrix.one_mul _) (transpose_transpose lh)))

/-- A block of rows of both kinds of spinors, cut back to its first row: the kinds of its index stand next to each other. -/
example : Typed nameIndices (.subscript (.block (.list ([[.oPs "⟨1|".toList, .oPs "[2|".toList], [.oPs "⟨3|".toList, .oPs "[4|".toList]].map .list)))
    [.slice (some 0) (some 1)]) (.arr .one (.sum (.upper true) (.upper false))) := by
  refine .rows (I := sumIdx .one [.one]) (J := sumIdx (.upper true) [.upper false]) (lo := 0) (.blocks rfl (by simp) ?_) (.left _ (.whole .one)) ?_
  · simp only [List.zip_cons_cons, List.zip_nil_left, List.mem_cons, List.not_mem_nil, or_false]
    rintro q (rfl | rfl) p hp <;> simp at hp <;> rcases hp with rfl | rfl <;> exact .name _ _ (by decide +kernel)
  · exact .part 0 1 (by decide)

end Lips

import Verif.Props.RelabelText
import Verif.Props.Arcs
import Verif.Examples.Compute

/-! Property C35 fails for the three-label shorthands, whose remaining labels are filled in
cyclically. -/

namespace Lips

open Matrix

theorem shorthand_value : computeDeltaShort (moved pt6 (Equiv.swap 1 2)) [0] [1, 2, 3] ≠ computeDeltaShort pt6 [0, 1] [2, 3] := by
  have h := (C35_relabel pt6 (Equiv.swap 1 2)).2.2.2.2.2.2.2.1 [0] [2, 1, 3]
  have e1 : ([0] : List (Fin 6)).map (Equiv.swap 1 2) = [0] := by decide
  have e2 : ([2, 1, 3] : List (Fin 6)).map (Equiv.swap 1 2) = [1, 2, 3] := by decide
  rw [e1, e2] at h
  rw [h]
  have m1 : ∀ k, (pt6 k).r2 = outer (lDownUp (spin6 k).2) (rDownUp (spin6 k).1) :=
    fun k => ofSpinors_r2 _ _ _
  have m2 : ∀ k, (pt6 k).r2b = outer (spin6 k).1 (spin6 k).2 := fun k => (pt6_massless k).r2b
  have h2 : ∀ x : F13, x / 2 = 7 * x := by
    intro x
    rw [div_eq_iff (by decide)]
    revert x; decide
  have dt : ∀ M : M2 F13, pyDet 2 M = M 0 0 * M 1 1 - M 0 1 * M 1 0 :=
    fun M => (pyDet_eq_det 1 M).trans (det_fin_two M)
  simp only [computeDeltaShort, h2, dt, sumR2, sumR2b, List.map_cons, List.map_nil, List.sum_cons,
    List.sum_nil, m1, m2, add_zero, trace_fin_two]
  decide

/-- C35 (finding): the shorthand `Δ_135` on six particles means the corners `12`, `34`, `56`.
Exchanging labels 2 and 3 turns it into `Δ_125`, which means `1`, `234`, `56`: on the image of a
massless momentum-conserving point it has another value than `Δ_135` on the point itself. -/
theorem C35_shorthand_not_relabelled :
    arcs 6 6 1 3 5 = some ([1, 2], [3, 4], [5, 6]) ∧ arcs 6 6 1 2 5 = some ([1], [2, 3, 4], [5, 6]) ∧
    ∃ ps : Point F13 6, Conserves ps ∧ (∀ k, ∃ r l, IsMassless (f13 .symmetric) (ps k) r l) ∧
      computeDeltaShort (moved ps (Equiv.swap 1 2)) [0] [1, 2, 3] ≠ computeDeltaShort ps [0, 1] [2, 3] := by
  refine ⟨by decide, by decide, pt6, pt6_conserves, fun k => ⟨_, _, pt6_massless k⟩, shorthand_value⟩

/-- C126 (finding): renaming the labels in `Δ_135` does not give the name to compute on the image; nor does it for `δ5`, which has none. -/
theorem C126_shorthand : ∃ ps : Point F13 6, Conserves ps ∧ (∀ k, ∃ r l, IsMassless (f13 .symmetric) (ps k) r l) ∧
    relabelName (Equiv.swap (1 : Fin 6) 2) "Δ_135".toList = "Δ_125".toList ∧ relabelName (Equiv.swap (1 : Fin 6) 2) "δ5".toList = "δ5".toList ∧
    computeText (moved ps (Equiv.swap 1 2)) 6 "Δ_125".toList ≠ computeText ps 6 "Δ_135".toList ∧
    computeText (moved ps (Equiv.swap 1 2)) 6 "δ5".toList ≠ computeText ps 6 "δ5".toList := by
  have key : ∀ (ps : Point F13 6) (x : List Char) (A B C : List (Fin 6)), classify ('Δ' :: '_' :: x) = .delta [x] → shortCorners 6 6 x = some (.ok (A, B, C)) →
      (∀ c ∈ 'Δ' :: '_' :: x, c ∉ boldChars) → computeText ps 6 ('Δ' :: '_' :: x) = some (.ok (.num (computeDeltaShort ps A B))) := by
    intro ps x A B C h1 h2 h3
    rw [computeText_plain _ _ _ h3, h1, evalForm, h2]; rfl
  have five : ∀ ps : Point F13 6, computeText ps 6 "δ5".toList = some (.ok (.num (computeD5 ps 0 1 2 3 4))) := by
    intro ps
    rw [computeText_plain _ _ _ (by decide), show classify "δ5".toList = .d5 by decide +kernel, evalForm]; rfl
  refine ⟨pt6, pt6_conserves, fun k => ⟨_, _, pt6_massless k⟩, by decide +kernel, by decide +kernel, ?_, ?_⟩
  · rw [show "Δ_125".toList = 'Δ' :: '_' :: "125".toList from rfl, show "Δ_135".toList = 'Δ' :: '_' :: "135".toList from rfl,
      key _ "125".toList [0] [1, 2, 3] [4, 5] (by decide +kernel) (by rfl) (by decide),
      key _ "135".toList [0, 1] [2, 3] [4, 5] (by decide +kernel) (by rfl) (by decide)]
    intro e
    exact shorthand_value (by injection e with e; injection e with e; injection e)
  · rw [five, five]
    intro e
    have e' : computeD5 (moved pt6 (Equiv.swap 1 2)) 0 1 2 3 4 = computeD5 pt6 0 1 2 3 4 := by injection e with e; injection e with e; injection e
    have h := (C35_relabel pt6 (Equiv.swap 1 2)).2.2.2.2.2.2.2.2.2.2.1 0 2 1 3 4
    have e1 : Equiv.swap (1 : Fin 6) 2 0 = 0 ∧ Equiv.swap (1 : Fin 6) 2 2 = 1 ∧ Equiv.swap (1 : Fin 6) 2 1 = 2 ∧ Equiv.swap (1 : Fin 6) 2 3 = 3 ∧
      Equiv.swap (1 : Fin 6) 2 4 = 4 := by decide
    rw [e1.1, e1.2.1, e1.2.2.1, e1.2.2.2.1, e1.2.2.2.2] at h
    rw [h] at e'
    have m1 : ∀ k, (pt6 k).r2 = outer (lDownUp (spin6 k).2) (rDownUp (spin6 k).1) := fun k => ofSpinors_r2 _ _ _
    have dt : ∀ M : M2 F13, pyDet 2 M = M 0 0 * M 1 1 - M 0 1 * M 1 0 := fun M => (pyDet_eq_det 1 M).trans (det_fin_two M)
    revert e'
    simp only [computeD5, computeS, dt, sumR2, List.map_cons, List.map_nil, List.sum_cons, List.sum_nil, m1, add_zero]
    decide +kernel

end Lips

import Verif.Props.ThreeCorners
import Verif.Examples.Compute

/-!
`ijk_to_3Ks` on a six-point phase-space point.
-/

namespace Lips

open Matrix

example : threeCorners 6 6 [1, 3, 5] = some (.ok ([0, 1], [2, 3], [4, 5])) := by rfl
example : threeCorners 6 6 [5, 1, 3] = some (.ok ([4, 5], [0, 1], [2, 3])) := by rfl
example : threeCorners 6 6 [2, 6, 3, 9] = some (.ok ([1], [5, 0], [2, 3, 4])) := by rfl
example : threeCorners 6 6 [1, 3] = some (.error .indexError) := by rfl
/-- Labels that are not different: the lists overlap. -/
example : threeCorners 6 6 [1, 1, 3] = some (.ok ([0, 1], [0], [2, 3, 4, 5])) := by rfl

/-- The hypotheses are met by six massless particles. -/
example : ∃ qs : Point F13 3, threeKs (f13 .symmetric) pt6 6 [1, 3, 5] = some (.ok qs) ∧
    computeText pt6 6 "Δ_135".toList = computeText qs 6 "Δ_123".toList ∧
    threeKs (f13 .symmetric) pt6 6 [3, 1, 5] = some (.ok ![qs 1, qs 0, qs 2]) := by
  have h0 : ∀ a b, totalMom pt6 a b = 0 := by
    intro a b
    rw [totalMom, Matrix.sum_apply]
    exact pt6_conserves a b
  obtain ⟨qs, h1, h2, h3⟩ := C131_text (f13 .symmetric) rfl pt6 (fun l => (pt6_massless l).cons) h0 (by omega) (i := 0) (j := 2) (k := 4)
    (by decide) (by decide) (by decide) 6 le_rfl
  refine ⟨qs, h1, ?_, (C131_order _ _ (i := 0) (j := 2) (k := 4) (by decide) (by decide) (by decide) 6 le_rfl h1).1⟩
  rw [show "Δ_135".toList = "Δ_".toList ++ digitText [(0 : Fin 6), 2, 4] by decide, h2, h3]

end Lips

import Verif.Props.Cluster
import Verif.Examples.Compute

/-! Concrete cases meeting the hypotheses of C45, C46, C47. -/

namespace Lips

/-- Three two-particle corners of the six-point example. -/
def corners6 : Fin 3 → List (Fin 6) := ![[0, 1], [2, 3], [4, 5]]

theorem corners6_ne (k : Fin 3) : corners6 k ≠ [] := by fin_cases k <;> simp [corners6]

theorem corners6_disjoint : ∀ k k' : Fin 3, k ≠ k' → (corners6 k).Disjoint (corners6 k') := by
  unfold List.Disjoint; decide

/-- C45, C46, C47: the corners partition the labels, clustering succeeds, and the clustered legs are
massive (`⟨12⟩[21]` is not zero). -/
example : ((List.finRange 3).flatMap corners6).Perm (List.finRange 6) ∧
    ∃ qs, cluster (f13 .symmetric) pt6 corners6 = some qs ∧ computeS qs [0] ≠ 0 := by
  refine ⟨by decide, ?_⟩
  obtain ⟨qs, h⟩ := C45_succeeds (f13 .symmetric) rfl pt6 corners6 corners6_ne
  refine ⟨qs, h, ?_⟩
  obtain ⟨f, -, -, -, -, -, hs⟩ := C47_dirac (fun i => (pt6_massless i).cons) h 0 0 1 rfl
    (pt6_massless 0) (pt6_massless 1) .u
  rw [hs]
  decide

/-- C45: the second step of a two-step clustering. -/
example : (fun k => (![[0, 1], [2]] : Fin 2 → List (Fin 3)) k |>.flatMap corners6) =
    (![[0, 1, 2, 3], [4, 5]] : Fin 2 → List (Fin 6)) := by decide

/-- C46: the counterexample with twelve particles clusters. -/
example (ps : Point F13 12) : ∃ qs, cluster (f13 .symmetric) ps corners12 = some qs :=
  C45_succeeds (f13 .symmetric) rfl ps corners12 (by decide)

end Lips

import Verif.Props.BuildFrom
import Verif.Examples.Construct

/-! A concrete case for C132: four particles, two pairs back to back; a new point of one of each pair. -/

namespace Lips

def pairR : Fin 4 → V2 F13 := ![![1, 0], ![-1, 0], ![0, 1], ![0, -1]]
def pairL : Fin 4 → V2 F13 := ![![1, 0], ![1, 0], ![0, 1], ![0, 1]]

example : ∃ qs ps', buildFrom (f13 .symmetric) absF13 0 true false (randomParticles (f13 .symmetric) pairR pairL) (![0, 2] : Fin 2 → Fin 4) (1, 2) =
      .ok (qs, ps') ∧ Conserves qs ∧ ¬ Conserves ps' ∧ ∀ i, i ≠ 0 → i ≠ 2 → ps' i = randomParticles (f13 .symmetric) pairR pairL i := by
  have hs := random_spin (f13 .symmetric) pairR pairL
  have hs' : Spin (f13 .symmetric) (fun j => randomParticles (f13 .symmetric) pairR pairL ((![0, 2] : Fin 2 → Fin 4) j))
    (fun j => pairR ((![0, 2] : Fin 2 → Fin 4) j)) (fun j => pairL ((![0, 2] : Fin 2 → Fin 4) j)) := fun j => hs _
  refine C132_breaks absF13_iff hs (by decide) (hs.conserves_iff.mpr (by decide))
    (fun h => absurd (hs'.conserves_iff.mp h) (by decide)) (1, 2) (by decide) (by decide) (by decide) (by decide)

/-- The first pair alone conserves momentum, and the other point stays as it was. -/
example : buildFrom (f13 .symmetric) absF13 0 true false (randomParticles (f13 .symmetric) pairR pairL) (![0, 1] : Fin 2 → Fin 4) (1, 2) =
    .ok (fun j => randomParticles (f13 .symmetric) pairR pairL ((![0, 1] : Fin 2 → Fin 4) j), randomParticles (f13 .symmetric) pairR pairL) := by
  have hs := random_spin (f13 .symmetric) pairR pairL
  have hs' : Spin (f13 .symmetric) (fun j => randomParticles (f13 .symmetric) pairR pairL ((![0, 1] : Fin 2 → Fin 4) j))
    (fun j => pairR ((![0, 1] : Fin 2 → Fin 4) j)) (fun j => pairL ((![0, 1] : Fin 2 → Fin 4) j)) := fun j => hs _
  exact C132_unchanged_partial _ absF13_iff _ _ _ (by decide) _ (.inr (hs'.conserves_iff.mpr (by decide)))

end Lips

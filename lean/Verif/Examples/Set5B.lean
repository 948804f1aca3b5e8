import Verif.Props.Set5B
import Verif.Examples.Set

/-! Concrete cases for C91. -/

namespace Lips

/-- C91: `(⟨1|2|(3+4)|5|1]-⟨2|6|(3+4)|5|2])` to 7, at six points. -/
example : ∃ ps' u v, set5B (f13 .symmetric) pt6 0 1 2 3 4 5 7 true = .ok ps' ∧ GoodPoint (f13 .symmetric) ps' ∧
    (⟨'⟨', 0, [[1], [2, 3], [4]], 0, ']'⟩ : Str 6).value ps' = .ok u ∧
    (⟨'⟨', 1, [[5], [2, 3], [4]], 1, ']'⟩ : Str 6).value ps' = .ok v ∧ u - v = 7 := by
  obtain ⟨ps', u, v, h1, h2, h3, h4, h5, -⟩ := C91_set pt6_massless pt6_conserves (a := 0) (b := 1) (x := 2) (y := 3) (e := 4) (f := 5)
    (by decide) (by decide) (by decide) (by decide) 7 (by decide) (by decide)
  exact ⟨ps', u, v, h1, h2, h3, h4, h5⟩

end Lips

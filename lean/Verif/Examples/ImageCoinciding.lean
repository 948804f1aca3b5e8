import Verif.Props.ImageCoinciding
import Mathlib.Logic.Equiv.Fin.Rotate

/-!
Images of three particles, the first two of which coincide.
-/

namespace Lips

/-- Exchanging the coinciding particles, or moving both, is done right. -/
example : imageStr (fun x y => decide (x = y)) [7, 7, 8] (permString (Equiv.swap (0 : Fin 3) 1)) = .ok [7, 7, 8] ∧
    imageStr (fun x y => decide (x = y)) [7, 7, 8] "231".toList = .ok [8, 7, 7] := by
  have h1 : List.ofFn (![7, 7, 8] : Fin 3 → ℕ) = [7, 7, 8] := by decide
  have := C33_right_iff (fun x y : ℕ => decide (x = y)) ![7, 7, 8] (by omega) (by omega) (by simp) (by simp) (by simp) (Equiv.swap (0 : Fin 3) 1)
  have h2 := C33_right_iff (fun x y : ℕ => decide (x = y)) ![7, 7, 8] (by omega) (by omega) (by simp) (by simp) (by simp) (finRotate 3)
  rw [show permString (finRotate 3) = "231".toList by decide] at h2
  obtain ⟨r, e, -, h⟩ := this
  obtain ⟨r2, e2, -, h2⟩ := h2
  have f1 := h.2 (by decide)
  have f2 := h2.2 (by decide)
  simp only [decide_eq_true_eq, List.forall₂_eq_eq_eq] at f1 f2
  rw [h1] at e e2
  rw [e, e2, f1, f2]
  decide

/-- Moving one of them away is not. -/
example : ¬ ∀ i j k : Fin 3, decide ((![7, 7, 8] : Fin 3 → ℕ) i = ![7, 7, 8] j) = true → Equiv.swap (1 : Fin 3) 2 i < Equiv.swap (1 : Fin 3) 2 k →
    Equiv.swap (1 : Fin 3) 2 k < Equiv.swap (1 : Fin 3) 2 j → decide ((![7, 7, 8] : Fin 3 → ℕ) i = ![7, 7, 8] k) = true := by decide

end Lips

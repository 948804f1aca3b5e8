import Mathlib.LinearAlgebra.Matrix.Determinant.Basic
import Mathlib.Tactic.Ring

/-! The determinant of a 4×4 matrix, expanded. -/

namespace Lips

open Matrix

theorem det4 {R : Type*} [CommRing R] (A : Matrix (Fin 4) (Fin 4) R) : A.det =
  A 0 0 * (A 1 1 * (A 2 2 * A 3 3 - A 2 3 * A 3 2) - A 1 2 * (A 2 1 * A 3 3 - A 2 3 * A 3 1) + A 1 3 * (A 2 1 * A 3 2 - A 2 2 * A 3 1))
  - A 0 1 * (A 1 0 * (A 2 2 * A 3 3 - A 2 3 * A 3 2) - A 1 2 * (A 2 0 * A 3 3 - A 2 3 * A 3 0) + A 1 3 * (A 2 0 * A 3 2 - A 2 2 * A 3 0))
  + A 0 2 * (A 1 0 * (A 2 1 * A 3 3 - A 2 3 * A 3 1) - A 1 1 * (A 2 0 * A 3 3 - A 2 3 * A 3 0) + A 1 3 * (A 2 0 * A 3 1 - A 2 1 * A 3 0))
  - A 0 3 * (A 1 0 * (A 2 1 * A 3 2 - A 2 2 * A 3 1) - A 1 1 * (A 2 0 * A 3 2 - A 2 2 * A 3 0) + A 1 2 * (A 2 0 * A 3 1 - A 2 1 * A 3 0)) := by
  have e : ∀ (c : Fin 4) (i : Fin 3), (A.submatrix Fin.succ c.succAbove) i = fun j => A i.succ (c.succAbove j) := fun _ _ => rfl
  have f00 : (0:Fin 4).succAbove (0 : Fin 3) = 1 := rfl
  have f01 : (0:Fin 4).succAbove (1 : Fin 3) = 2 := rfl
  have f02 : (0:Fin 4).succAbove (2 : Fin 3) = 3 := rfl
  have f10 : (1:Fin 4).succAbove (0 : Fin 3) = 0 := rfl
  have f11 : (1:Fin 4).succAbove (1 : Fin 3) = 2 := rfl
  have f12 : (1:Fin 4).succAbove (2 : Fin 3) = 3 := rfl
  have f20 : (2:Fin 4).succAbove (0 : Fin 3) = 0 := rfl
  have f21 : (2:Fin 4).succAbove (1 : Fin 3) = 1 := rfl
  have f22 : (2:Fin 4).succAbove (2 : Fin 3) = 3 := rfl
  have f30 : (3:Fin 4).succAbove (0 : Fin 3) = 0 := rfl
  have f31 : (3:Fin 4).succAbove (1 : Fin 3) = 1 := rfl
  have f32 : (3:Fin 4).succAbove (2 : Fin 3) = 2 := rfl
  have s0 : (0:Fin 3).succ = (1 : Fin 4) := rfl
  have s1 : (1:Fin 3).succ = (2 : Fin 4) := rfl
  have s2 : (2:Fin 3).succ = (3 : Fin 4) := rfl
  have v2 : ((2:Fin 4):ℕ) = 2 := rfl
  have v3 : ((3:Fin 4):ℕ) = 3 := rfl
  rw [det_succ_row_zero, Fin.sum_univ_four]
  simp only [det_fin_three, e, f00, f01, f02, f10, f11, f12, f20, f21, f22, f30, f31, f32, s0, s1, s2,
    Fin.val_zero, Fin.val_one, v2, v3]
  ring

end Lips

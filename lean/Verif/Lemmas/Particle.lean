import Verif.Model.Particle
import Mathlib.LinearAlgebra.Matrix.Adjugate
import Mathlib.Tactic.Ring
import Mathlib.Tactic.FieldSimp
import Mathlib.Tactic.LinearCombination
import Mathlib.Tactic.FinCases

/-! Component forms of the conversions in `Verif.Model.Particle`. -/

namespace Lips

open Matrix

variable {K : Type*} [Field K]

theorem rDownUp_eq (s : V2 K) : rDownUp s = ![s 1, -s 0] := by
  funext j; fin_cases j <;> simp [rDownUp, eps, mulVec, dotProduct]

theorem lDownUp_eq (s : V2 K) : lDownUp s = ![s 1, -s 0] := by
  funext j; fin_cases j <;> simp [lDownUp, eps, vecMul, dotProduct]

theorem rUpDown_eq (s : V2 K) : rUpDown s = ![-s 1, s 0] := by
  funext j; fin_cases j <;> simp [rUpDown, eps, vecMul, dotProduct]

theorem lUpDown_eq (s : V2 K) : lUpDown s = ![-s 1, s 0] := by
  funext j; fin_cases j <;> simp [lUpDown, eps, mulVec, dotProduct]

omit [Field K] in
theorem V2.eta (s : V2 K) : ![s 0, s 1] = s := by
  funext j; fin_cases j <;> rfl

theorem flip2_eq (m : M2 K) : flip2 m = !![m 1 1, -m 0 1; -m 1 0, m 0 0] := by
  ext a b; fin_cases a <;> fin_cases b <;>
    simp [flip2, eps, vecMul, dotProduct, Matrix.mul_apply]

theorem flip2_eq_adjugate (m : M2 K) : flip2 m = adjugate m := by
  rw [flip2_eq, adjugate_fin_two]

theorem flip2_flip2 (m : M2 K) : flip2 (flip2 m) = m := by
  rw [flip2_eq (flip2 m), flip2_eq]
  ext a b; fin_cases a <;> fin_cases b <;> simp

theorem momFlip_eq (v : V4 K) : momFlip v = ![v 0, -v 1, -v 2, -v 3] := by
  funext j; fin_cases j <;> simp [momFlip, eta, etaDiag, mulVec_diagonal]

theorem momFlip_momFlip (v : V4 K) : momFlip (momFlip v) = v := by
  rw [momFlip_eq (momFlip v), momFlip_eq]; funext j; fin_cases j <;> simp

theorem momdToR2_eq (i : K) (v : V4 K) :
    momdToR2 i v = !![v 0 + v 3, v 1 - i * v 2; v 1 + i * v 2, v 0 - v 3] := by
  ext a b; fin_cases a <;> fin_cases b <;>
    simp [momdToR2, pauli, Fin.sum_univ_four, Matrix.add_apply] <;> ring

theorem momdToR2b_eq (i : K) (v : V4 K) :
    momdToR2b i v = !![v 0 - v 3, -v 1 + i * v 2; -v 1 - i * v 2, v 0 + v 3] := by
  ext a b; fin_cases a <;> fin_cases b <;>
    simp [momdToR2b, pauliBar, Fin.sum_univ_four, Matrix.add_apply] <;> ring

theorem r2ToMom_eq (i : K) (m : M2 K) :
    r2ToMom i m = ![(m 0 0 + m 1 1) / 2, -(m 0 1 + m 1 0) / 2,
      i * (m 1 0 - m 0 1) / 2, (m 1 1 - m 0 0) / 2] := by
  funext j; fin_cases j <;>
    simp [r2ToMom, pauliBar, trace_fin_two, vecMul, dotProduct] <;> ring

theorem r2bToMom_eq (i : K) (m : M2 K) :
    r2bToMom i m = ![(m 0 0 + m 1 1) / 2, (m 0 1 + m 1 0) / 2,
      i * (m 0 1 - m 1 0) / 2, (m 0 0 - m 1 1) / 2] := by
  funext j; fin_cases j <;>
    simp [r2bToMom, pauli, trace_fin_two, vecMul, dotProduct] <;> ring

theorem r2bToMom_flip2 (i : K) (m : M2 K) : r2bToMom i (flip2 m) = r2ToMom i m := by
  rw [r2bToMom_eq, r2ToMom_eq, flip2_eq]
  funext j; fin_cases j <;> simp <;> ring

theorem r2ToMom_flip2 (i : K) (m : M2 K) : r2ToMom i (flip2 m) = r2bToMom i m := by
  rw [← r2bToMom_flip2, flip2_flip2]

theorem outer_apply (s t : V2 K) (a b : Fin 2) : outer s t a b = s a * t b := by
  simp [outer, vecMulVec_apply]

/-- Upper bispinor of two spinors is the flip of the lower one. -/
theorem outer_up (r l : V2 K) : outer (lDownUp l) (rDownUp r) = flip2 (outer r l) := by
  rw [flip2_eq, lDownUp_eq, rDownUp_eq]
  ext a b; fin_cases a <;> fin_cases b <;> simp [outer_apply] <;> ring

theorem det_flip2 (m : M2 K) : (flip2 m).det = m.det := by
  rw [flip2_eq, det_fin_two, det_fin_two]; simp; ring

theorem det_outer (s t : V2 K) : (outer s t).det = 0 := by
  rw [det_fin_two]; simp [outer_apply]; ring

theorem momdToR2b_eq_flip2 (i : K) (v : V4 K) : momdToR2b i v = flip2 (momdToR2 i v) := by
  rw [flip2_eq, momdToR2_eq, momdToR2b_eq]
  ext a b; fin_cases a <;> fin_cases b <;> simp <;> ring

end Lips

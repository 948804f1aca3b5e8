import Verif.Props.FieldChange
import Verif.Examples.Compute

/-!
Concrete cases for C118.
-/

namespace Lips

open Matrix

instance prime_seven : Fact (Nat.Prime 7) := ⟨by norm_num⟩

/-- Two opposite momenta over the 7-adic numbers. -/
noncomputable def padicSpinors : Fin 2 → V2 ℚ_[7] × V2 ℚ_[7] := ![(![1, 2], ![3, 4]), (![1, 2], ![-3, -4])]

/-- The reduction modulo 7 of the two opposite momenta conserves momentum. -/
example (c : Ctx ℚ_[7]) (c' : Ctx (ZMod 7)) : ∃ qs, reducePoint residue c' (spinPoint c padicSpinors) = .ok qs ∧ Conserves qs := by
  have int : ∀ z : ℤ, ‖(z : ℚ_[7])‖ ≤ 1 := Padic.norm_int_le_one
  obtain ⟨qs, h1, h2, -⟩ := C118_padic (by norm_num) c' (spinPoint_isMassless c padicSpinors)
    (fun k i => by
      fin_cases k <;> fin_cases i
      · simp [padicSpinors]
      · simpa [padicSpinors] using int 2
      · simp [padicSpinors]
      · simpa [padicSpinors] using int 2)
    (fun k i => by
      fin_cases k <;> fin_cases i
      · simpa [padicSpinors] using int 3
      · simpa [padicSpinors] using int 4
      · simpa [padicSpinors] using int (-3)
      · simpa [padicSpinors] using int (-4))
  refine ⟨qs, h1, h2 (spinPoint_conserves c _ ?_)⟩
  rw [Fin.sum_univ_two]
  ext i j
  fin_cases i <;> fin_cases j <;> simp [padicSpinors, outer, lDownUp, rDownUp, eps, vecMulVec_apply, Matrix.vecMul, dotProduct, Fin.sum_univ_two]

end Lips

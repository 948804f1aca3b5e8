import Verif.Props.SpinorIdeal
import Verif.Examples.Ideal
import Mathlib.RingTheory.Polynomial.Basic

/-! Concrete cases for C103. -/

namespace Lips

open Matrix MvPolynomial

/-- Denominators can be cleared. -/
theorem clear_denominators {σ : Type*} (P : MvPolynomial σ ℚ) : ∃ (d : ℤ) (P' : MvPolynomial σ ℤ), d ≠ 0 ∧
    P'.map (Int.castRingHom ℚ) = C (d : ℚ) * P := by
  induction P using MvPolynomial.induction_on with
  | C a =>
    refine ⟨a.den, C a.num, by exact_mod_cast a.den_nz, ?_⟩
    rw [map_C, ← C_mul]
    congr 1
    rw [mul_comm]
    exact_mod_cast (Rat.mul_den_eq_num a).symm
  | add p q hp hq =>
    obtain ⟨d, p', hd, ep⟩ := hp
    obtain ⟨e, q', he, eq⟩ := hq
    refine ⟨d * e, C e * p' + C d * q', mul_ne_zero hd he, ?_⟩
    rw [map_add, map_mul, map_mul, ep, eq, map_C, map_C]
    push_cast
    simp only [C_mul, eq_intCast]
    ring
  | mul_X p i hp =>
    obtain ⟨d, p', hd, ep⟩ := hp
    exact ⟨d, p' * X i, hd, by rw [map_mul, ep, map_X]; ring⟩

/-- Every ideal over the rational numbers has finitely many generators with integer coefficients. -/
theorem exists_gens {σ : Type*} [Finite σ] (I : Ideal (MvPolynomial σ ℚ)) : ∃ G : List (MvPolynomial σ ℤ), SpecIdeal G = I := by
  classical
  obtain ⟨S, hS⟩ := (isNoetherian_def.mp (inferInstance : IsNoetherian (MvPolynomial σ ℚ) (MvPolynomial σ ℚ)) I : I.FG)
  choose d P' hd hP using fun P : MvPolynomial σ ℚ => clear_denominators P
  refine ⟨S.toList.map P', le_antisymm ?_ ?_⟩
  · refine Ideal.span_le.mpr ?_
    rintro Q ⟨P, hm, rfl⟩
    obtain ⟨R, hR, rfl⟩ := List.mem_map.mp hm
    rw [hP]
    rw [← hS]
    exact Ideal.mul_mem_left _ _ (Ideal.subset_span (Finset.mem_toList.mp hR))
  · rw [← hS]
    refine Ideal.span_le.mpr fun R hR => ?_
    have h1 : (P' R).map (Int.castRingHom ℚ) ∈ SpecIdeal (S.toList.map P') :=
      Ideal.subset_span ⟨_, List.mem_map_of_mem (Finset.mem_toList.mpr hR), rfl⟩
    rw [hP] at h1
    have h2 := Ideal.mul_mem_left _ (C ((d R : ℚ)⁻¹)) h1
    rw [← mul_assoc, ← C_mul, inv_mul_cancel₀ (by exact_mod_cast hd R), C_1, one_mul] at h2
    exact h2

/-- Elimination is possible. -/
theorem exists_eliminates (n : ℕ) : ∃ elim : List (MvPolynomial (Mixed n) ℤ) → List (MvPolynomial (BrkVar n) ℤ), Eliminates elim := by
  choose elim h using fun G : List (MvPolynomial (Mixed n) ℤ) => exists_gens ((SpecIdeal G).comap (rename (R := ℚ) Sum.inr).toRingHom)
  exact ⟨elim, fun G Q => by rw [h]; exact Ideal.mem_comap⟩

/-- `SpinorIdeal(2, ('⟨1|2⟩',))` contains `A1`: at two points the brackets vanish wherever the invariant does. -/
example : ∃ elim J, Eliminates elim ∧ spinorGens symCtx sym2 symPoint elim [.scal (.two true 0 1)] true = .ok J ∧
    ∀ t, X (true, t) ∈ SpecIdeal J := by
  obtain ⟨elim, he⟩ := exists_eliminates 2
  obtain ⟨G, hG⟩ := gens2
  have hJ : spinorGens symCtx sym2 symPoint elim [.scal (.two true 0 1)] true =
      .ok (elim (((((List.finRange _).map fun t => (true, t)) ++ (List.finRange _).map fun t => (false, t)).map convPoly) ++ G.map (rename Sum.inl))) := by
    rw [spinorGens, conversionGens_eq sym2_indep symPoint_spin, hG]; rfl
  refine ⟨elim, _, he, hJ, fun t => ?_⟩
  obtain ⟨L, hL, hm⟩ := spinorGens_inv sym2_indep symPoint_spin he hJ
  obtain ⟨Gs, hGs, rfl⟩ := lipsGens_inv sym2_indep symPoint_spin hL
  rw [hm]
  have hij : pairFst t = (0 : Fin 2) ∧ pairSnd t = (1 : Fin 2) := by
    have hlt : pairFst t < pairSnd t := (pairAt_exists t).choose_spec.choose_spec.2
    generalize pairFst t = a at hlt ⊢
    generalize pairSnd t = b at hlt ⊢
    revert a b; decide
  rw [specVar_subst (.inl ⟨t, pair_spec t, rfl⟩), hij.1, hij.2]
  obtain ⟨Ps, Gs', h1, -, rfl⟩ := List.forall₂_cons_left_iff.mp hGs
  have h4 : Ps = [4 * brkPoly true 0 1] := by
    have : (Cov.scal (.two true (0 : Fin 2) 1)).over4 genR genL = .ok [4 * brkPoly true 0 1] := by
      simp [Cov.over4, Scal.over, Except.map, genR, brkPoly]
    rw [this] at h1
    exact (Except.ok.inj h1).symm
  have hin : (4 * brkPoly true (0 : Fin 2) 1).map (Int.castRingHom ℚ) ∈
      SpecIdeal ((Ps :: Gs').flatten ++ if true then rMom genR genL else []) :=
    Ideal.subset_span ⟨_, List.mem_append_left _ (by rw [h4]; simp), rfl⟩
  have h5 := Ideal.mul_mem_left _ (C ((4 : ℚ)⁻¹)) hin
  have e : C ((4 : ℚ)⁻¹) * (4 * brkPoly true (0 : Fin 2) 1).map (Int.castRingHom ℚ) = (brkPoly true (0 : Fin 2) 1).map (Int.castRingHom ℚ) := by
    rw [map_mul, map_ofNat, ← mul_assoc]
    have : C ((4 : ℚ)⁻¹) * (4 : MvPolynomial (Comp 2) ℚ) = 1 := by
      rw [show (4 : MvPolynomial (Comp 2) ℚ) = C 4 from (map_ofNat C 4).symm, ← C_mul, inv_mul_cancel₀ (by norm_num), C_1]
    rw [this, one_mul]
  rw [e] at h5
  exact h5

end Lips

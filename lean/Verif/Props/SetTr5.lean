import Verif.Model.SetTr5
import Verif.Props.SetPoly

/-! Property C67: setting tr5. -/

namespace Lips

open Matrix

variable {K : Type*} [Field K] {n : ℕ}

/-! ### The polynomials of the five-point branch -/

/-- Sum of the products of spinors of the particles two to four. -/
def sum3 (r l : Fin 5 → V2 K) (i j : Fin 2) : K := r 1 i * l 1 j + r 2 i * l 2 j + r 3 i * l 3 j

/-- tr5 of a vector and the momenta two to four. -/
def tr5With (r l : Fin 5 → V2 K) (m : M2 K) : K :=
  SpecTr5 ![m, momOf (r 1 0) (r 1 1) (l 1 0) (l 1 1), momOf (r 2 0) (r 2 1) (l 2 0) (l 2 1),
    momOf (r 3 0) (r 3 1) (l 3 0) (l 3 1)]

theorem tr5D1_eq (r l : Fin 5 → V2 K) :
    tr5D1 (l 0 0) (l 0 1) (r 1 0) (r 1 1) (l 1 0) (l 1 1) (r 2 0) (r 2 1) (l 2 0) (l 2 1) (r 3 0) (r 3 1) (l 3 0) (l 3 1) =
      -((l 0 0 * sum3 r l 1 1 - l 0 1 * sum3 r l 1 0) * tr5With r l (momOf 0 1 (l 0 0) (l 0 1)) +
        (l 0 0 * sum3 r l 0 1 - l 0 1 * sum3 r l 0 0) * tr5With r l (momOf 1 0 (l 0 0) (l 0 1))) := by
  simp only [tr5D1_1, tr5D1_2, tr5D1_3, tr5D1_4, tr5D1_5, tr5D1, tr5With, sum3, specTr5_expand, momOf, outer_apply,
    Matrix.cons_val_zero, Matrix.cons_val_one]
  ring

theorem tr5D2_eq (r l : Fin 5 → V2 K) :
    tr5D2 (r 1 0) (r 1 1) (l 1 0) (l 1 1) (r 2 0) (r 2 1) (l 2 0) (l 2 1) (r 3 0) (r 3 1) (l 3 0) (l 3 1) =
      sum3 r l 1 1 * tr5With r l (momOf 1 0 0 1) + sum3 r l 1 0 * tr5With r l (momOf 1 0 1 0) := by
  simp only [tr5D2_1, tr5D2_2, tr5D2, tr5With, sum3, specTr5_expand, momOf, outer_apply,
    Matrix.cons_val_zero, Matrix.cons_val_one]
  ring

theorem tr5N1_eq (r l : Fin 5 → V2 K) (h2 : (2 : K) ≠ 0) (X : K) :
    tr5N1 (l 0 0) (l 0 1) (r 1 0) (r 1 1) (l 1 0) (l 1 1) (r 2 0) (r 2 1) (l 2 0) (l 2 1) (r 3 0) (r 3 1) (l 3 0) (l 3 1)
        (4 * X) =
      -((l 0 0 * sum3 r l 1 1 - l 0 1 * sum3 r l 1 0) * X +
        tr5With r l (momOf 1 0 (l 0 0) (l 0 1)) *
          (sum3 r l 0 0 * sum3 r l 1 1 - sum3 r l 0 1 * sum3 r l 1 0)) := by
  have hz : (4 : K) * 4⁻¹ = 1 := mul_inv_cancel₀ (by
    rw [show (4 : K) = 2 * 2 by norm_num]; exact mul_ne_zero h2 h2)
  simp only [tr5N1_1, tr5N1_2, tr5N1_3, tr5N1_4, tr5N1_5, tr5N1_6, tr5N1_7, tr5N1_8, tr5N1, tr5With, sum3,
    specTr5_expand, momOf, outer_apply, Matrix.cons_val_zero, Matrix.cons_val_one, div_eq_mul_inv]
  generalize (4 : K)⁻¹ = z at hz
  linear_combination (-(l 0 0 * (r 1 1 * l 1 1 + r 2 1 * l 2 1 + r 3 1 * l 3 1) -
    l 0 1 * (r 1 1 * l 1 0 + r 2 1 * l 2 0 + r 3 1 * l 3 0)) * X) * hz

theorem tr5N2_eq (r l : Fin 5 → V2 K) (h2 : (2 : K) ≠ 0) (b1 X : K) :
    tr5N2 b1 (l 0 0) (l 0 1) (r 1 0) (r 1 1) (l 1 0) (l 1 1) (r 2 0) (r 2 1) (l 2 0) (l 2 1) (r 3 0) (r 3 1) (l 3 0)
        (l 3 1) (4 * X) =
      sum3 r l 1 1 * X + tr5With r l (momOf 1 0 1 0) *
          (sum3 r l 0 0 * sum3 r l 1 1 - sum3 r l 0 1 * sum3 r l 1 0) -
        b1 * (sum3 r l 1 1 * tr5With r l (momOf 0 1 (l 0 0) (l 0 1)) +
          tr5With r l (momOf 1 0 1 0) * (l 0 0 * sum3 r l 0 1 - l 0 1 * sum3 r l 0 0)) := by
  have hz : (4 : K) * 4⁻¹ = 1 := mul_inv_cancel₀ (by
    rw [show (4 : K) = 2 * 2 by norm_num]; exact mul_ne_zero h2 h2)
  simp only [tr5N2_1, tr5N2_2, tr5N2_3, tr5N2_4, tr5N2_5, tr5N2_6, tr5N2_7, tr5N2, tr5With, sum3,
    specTr5_expand, momOf, outer_apply, Matrix.cons_val_zero, Matrix.cons_val_one, div_eq_mul_inv]
  generalize (4 : K)⁻¹ = z at hz
  linear_combination ((r 1 1 * l 1 1 + r 2 1 * l 2 1 + r 3 1 * l 3 1) * X) * hz

theorem tr5N3_eq (r l : Fin 5 → V2 K) (X : K) :
    tr5N3 (l 0 0) (l 0 1) (r 1 0) (r 1 1) (l 1 0) (l 1 1) (r 2 0) (r 2 1) (l 2 0) (l 2 1) (r 3 0) (r 3 1) (l 3 0)
        (l 3 1) (4 * X) =
      4 * (l 0 0 * X + sum3 r l 1 0 * tr5With r l (momOf 0 1 (l 0 0) (l 0 1)) +
        sum3 r l 0 0 * tr5With r l (momOf 1 0 (l 0 0) (l 0 1))) := by
  simp only [tr5N3_1, tr5N3_2, tr5N3_3, tr5N3_4, tr5N3, tr5With, sum3,
    specTr5_expand, momOf, outer_apply, Matrix.cons_val_zero, Matrix.cons_val_one]
  ring

theorem tr5D3_eq (r l : Fin 5 → V2 K) (X : K) :
    tr5D3 (l 0 0) (l 0 1) (r 1 0) (r 1 1) (l 1 0) (l 1 1) (r 2 0) (r 2 1) (l 2 0) (l 2 1) (r 3 0) (r 3 1) (l 3 0)
        (l 3 1) (4 * X) =
      4 * (l 0 1 * X + sum3 r l 1 1 * tr5With r l (momOf 0 1 (l 0 0) (l 0 1)) +
        sum3 r l 0 1 * tr5With r l (momOf 1 0 (l 0 0) (l 0 1))) := by
  simp only [tr5D3_1, tr5D3_2, tr5D3_3, tr5D3_4, tr5D3, tr5With, sum3,
    specTr5_expand, momOf, outer_apply, Matrix.cons_val_zero, Matrix.cons_val_one]
  ring

/-- tr5 is linear in the spinors of the first momentum. -/
theorem tr5With_linear (r l : Fin 5 → V2 K) (a b c d : K) :
    tr5With r l (momOf a b c d) = a * tr5With r l (momOf 1 0 c d) + b * tr5With r l (momOf 0 1 c d) ∧
    tr5With r l (momOf 1 0 c d) = c * tr5With r l (momOf 1 0 1 0) + d * tr5With r l (momOf 1 0 0 1) := by
  constructor <;>
  · simp only [tr5With, specTr5_expand, momOf, outer_apply, Matrix.cons_val_zero, Matrix.cons_val_one]
    ring

theorem pyDiv_iff {a b x : K} (h : pyDiv a b = .ok x) : b ≠ 0 ∧ b * x = a := by
  unfold pyDiv at h
  split_ifs at h with hb
  injection h with h
  exact ⟨hb, by rw [← h]; field_simp⟩

/-- The algebra of the five-point branch: given the solved components, tr5 has the requested value and
the five momenta add up to zero. -/
theorem tr5Solve_spec (r l : Fin 5 → V2 K) (h2 : (2 : K) ≠ 0) (X : K) {r1 r5 l5 : V2 K}
    (h : tr5Solve r l X = .ok (r1, r5, l5)) :
    tr5With r l (momOf (r1 0) (r1 1) (l 0 0) (l 0 1)) = X ∧
    ∀ i j, r1 i * l 0 j + sum3 r l i j + r5 i * l5 j = 0 := by
  unfold tr5Solve at h
  simp only [tr5D1_eq, tr5D2_eq, tr5N1_eq r l h2, tr5N2_eq r l h2, tr5N3_eq, tr5D3_eq] at h
  have h4 : (4 : K) ≠ 0 := by rw [show (4 : K) = 2 * 2 by norm_num]; exact mul_ne_zero h2 h2
  have hl := (tr5With_linear r l 0 0 (l 0 0) (l 0 1)).2
  have hlin := fun a b => (tr5With_linear r l a b (l 0 0) (l 0 1)).1
  set T0 := tr5With r l (momOf 1 0 (l 0 0) (l 0 1))
  set T1 := tr5With r l (momOf 0 1 (l 0 0) (l 0 1))
  set T00 := tr5With r l (momOf 1 0 1 0)
  set T01 := tr5With r l (momOf 1 0 0 1)
  have q00 : sum3 r l 0 0 = r 1 0 * l 1 0 + r 2 0 * l 2 0 + r 3 0 * l 3 0 := rfl
  have q01 : sum3 r l 0 1 = r 1 0 * l 1 1 + r 2 0 * l 2 1 + r 3 0 * l 3 1 := rfl
  have q10 : sum3 r l 1 0 = r 1 1 * l 1 0 + r 2 1 * l 2 0 + r 3 1 * l 3 0 := rfl
  have q11 : sum3 r l 1 1 = r 1 1 * l 1 1 + r 2 1 * l 2 1 + r 3 1 * l 3 1 := rfl
  set c := l 0 0
  set d := l 0 1
  set Q00 := sum3 r l 0 0
  set Q01 := sum3 r l 0 1
  set Q10 := sum3 r l 1 0
  set Q11 := sum3 r l 1 1
  split at h
  · cases h
  rename_i b1 e1
  split at h
  · cases h
  rename_i a1 e2
  split at h
  · cases h
  rename_i c5 e3
  split at h
  · cases h
  rename_i b5 e4
  split at h
  · cases h
  rename_i a5 e5
  simp only [Except.ok.injEq, Prod.mk.injEq] at h
  obtain ⟨rfl, rfl, rfl⟩ := h
  obtain ⟨g1, f1⟩ := pyDiv_iff e1
  obtain ⟨g2, f2⟩ := pyDiv_iff e2
  obtain ⟨g3, f3⟩ := pyDiv_iff e3
  obtain ⟨g4, f4⟩ := pyDiv_iff e4
  obtain ⟨g5, f5⟩ := pyDiv_iff e5
  have hu : r 1 1 * c * l 1 1 - r 1 1 * l 1 0 * d + r 2 1 * c * l 2 1 - r 2 1 * l 2 0 * d + r 3 1 * c * l 3 1 -
      r 3 1 * l 3 0 * d = c * Q11 - d * Q10 := by rw [q11, q10]; ring
  have hv : r 1 0 * c * l 1 1 - r 1 0 * l 1 0 * d + r 2 0 * c * l 2 1 - r 2 0 * l 2 0 * d + r 3 0 * c * l 3 1 -
      r 3 0 * l 3 0 * d = c * Q01 - d * Q00 := by rw [q01, q00]; ring
  have hb : -b1 * d - r 1 1 * l 1 1 - r 2 1 * l 2 1 - r 3 1 * l 3 1 = -(b1 * d + Q11) := by rw [q11]; ring
  rw [hu] at g5 f5
  rw [hv] at f5
  rw [hb] at f4
  have hd : d ≠ 0 := left_ne_zero_of_mul g2
  -- the two equations
  have E1 : a1 * (c * Q11 - d * Q10) - b1 * (c * Q01 - d * Q00) + (Q00 * Q11 - Q01 * Q10) = 0 := by
    refine (mul_eq_zero.mp ?_).resolve_left g2
    linear_combination (c * Q11 - d * Q10) * f2 + Q11 * f1 -
      (Q00 * Q11 - Q01 * Q10 - b1 * (c * Q01 - d * Q00)) * Q11 * hl
  have E2 : a1 * T0 + b1 * T1 = X := by
    refine sub_eq_zero.mp ((mul_eq_zero.mp ?_).resolve_left g2)
    linear_combination T0 * f2 + T00 * f1 - (b1 * T1 - X) * Q11 * hl
  -- the components of the fifth particle
  have E3 : l 4 1 * (b1 * c + Q10) = c5 * (b1 * d + Q11) := by
    refine sub_eq_zero.mp ((mul_eq_zero.mp ?_).resolve_left g3)
    linear_combination -4 * l 4 1 * f1 - (b1 * d + Q11) * f3
  have E4 : a5 * l 4 1 = -(a1 * d + Q01) := by
    refine sub_eq_zero.mp ((mul_eq_zero.mp ?_).resolve_left g5)
    linear_combination l 4 1 * f5 + (c * Q01 - d * Q00) * f4 + d * E1
  have E6 : b5 * c5 = -(b1 * c + Q10) := by
    refine sub_eq_zero.mp ((mul_eq_zero.mp ?_).resolve_left g4)
    linear_combination c5 * f4 + E3
  have E5 : a5 * c5 = -(a1 * c + Q00) := by
    refine sub_eq_zero.mp ((mul_eq_zero.mp ?_).resolve_left g5)
    linear_combination c5 * f5 + (c * Q01 - d * Q00) * E6 + c * E1
  refine ⟨by rw [show (![a1, b1] : V2 K) 0 = a1 from rfl, show (![a1, b1] : V2 K) 1 = b1 from rfl, hlin]; exact E2, ?_⟩
  intro i j
  fin_cases i <;> fin_cases j
  · show a1 * c + Q00 + a5 * c5 = 0
    linear_combination E5
  · show a1 * d + Q01 + a5 * l 4 1 = 0
    linear_combination E4
  · show b1 * c + Q10 + b5 * c5 = 0
    linear_combination E6
  · show b1 * d + Q11 + b5 * l 4 1 = 0
    linear_combination f4

/-! ### The five-point branch -/

theorem storeBoth_spin [NeZero (2 : K)] {c : Ctx K} {ps : Point K n} {r l : Fin n → V2 K} (h : Spin c ps r l)
    (k : Fin n) (u w : V2 K) :
    ∃ ps', storeBoth c ps k u w = .ok ps' ∧ Spin c ps' (Function.update r k u) (Function.update l k w) := by
  obtain ⟨q, e1, hq⟩ := setRd_massless (h k) u
  obtain ⟨ps1, e2, h1, -⟩ := store_r h k e1 hq
  obtain ⟨q', e3, hq'⟩ := setLd_massless (h1 k) w
  obtain ⟨ps2, e4, h2, -⟩ := store_l h1 k e3 hq'
  exact ⟨ps2, by simp only [storeBoth, e2, e4], h2⟩

theorem specTr5_swap (m : Fin 5 → M2 K) (h : m 0 + m 1 + m 2 + m 3 + m 4 = 0) (i j : Fin 5) (hij : i ≠ j) :
    SpecTr5 ![m (Equiv.swap i j 0), m (Equiv.swap i j 1), m (Equiv.swap i j 2), m (Equiv.swap i j 3)] =
      -SpecTr5 ![m 0, m 1, m 2, m 3] := by
  have e : ∀ a b, m 4 a b = -(m 0 a b + m 1 a b + m 2 a b + m 3 a b) := by
    intro a b
    have := congrFun (congrFun h a) b
    simp only [Matrix.add_apply, Matrix.zero_apply] at this
    linear_combination this
  fin_cases i <;> fin_cases j <;> first | exact absurd rfl hij | skip
  all_goals
    simp only [specTr5_expand]
    simp [Equiv.swap_apply_def, e]
    try ring

/-- With five momenta adding up to zero, tr5 of any four of them, in any order, is the same up to the sign
of the permutation. -/
theorem specTr5_perm (m : Fin 5 → M2 K) (h : ∑ i, m i = 0) (σ : Equiv.Perm (Fin 5)) :
    SpecTr5 ![m (σ 0), m (σ 1), m (σ 2), m (σ 3)] = (Equiv.Perm.sign σ : ℤ) * SpecTr5 ![m 0, m 1, m 2, m 3] := by
  induction σ using Equiv.Perm.swap_induction_on' with
  | one => simp
  | mul_swap f x y hxy ih =>
    have h' : ∑ i, m (f i) = 0 := (Equiv.sum_comp f m).trans h
    have := specTr5_swap (fun i => m (f i)) (by rw [← h']; simp [Fin.sum_univ_five]) x y hxy
    simp only [Equiv.Perm.mul_apply] at this ⊢
    rw [this, ih, Equiv.Perm.sign_mul, Equiv.Perm.sign_swap hxy]
    simp

theorem fiveSpinors_eq {c : Ctx K} {ps : Point K 5} {r l : Fin 5 → V2 K} (h : Spin c ps r l) :
    fiveSpinors ps = .ok (r, l) := by
  simp only [fiveSpinors, spinorsOf_eq h]
  congr 2 <;> ext i <;> fin_cases i <;> rfl

/-- The five-point branch in one piece. -/
theorem setTr5Five_spec [NeZero (2 : K)] {c : Ctx K} {ps : Point K 5} {r l : Fin 5 → V2 K} (h : Spin c ps r l)
    {X : K} {r1 r5 l5 : V2 K} (hs : tr5Solve r l X = .ok (r1, r5, l5)) :
    ∃ ps', setTr5Five c ps X = .ok ps' ∧
      Spin c ps' (Function.update (Function.update r 0 r1) 4 r5) (Function.update l 4 l5) := by
  obtain ⟨ps0, e0, h0⟩ := storeBoth_spin h 0 r1 (l 0)
  obtain ⟨ps1, e1, h1⟩ := storeBoth_spin h0 1 (r 1) (l 1)
  obtain ⟨ps2, e2, h2⟩ := storeBoth_spin h1 2 (r 2) (l 2)
  obtain ⟨ps3, e3, h3⟩ := storeBoth_spin h2 3 (r 3) (l 3)
  obtain ⟨ps4, e4, h4⟩ := storeBoth_spin h3 4 r5 l5
  refine ⟨ps4, by simp only [setTr5Five, fiveSpinors_eq h, hs, e0, e1, e2, e3, e4], ?_⟩
  convert h4 using 1
  · ext i : 1; fin_cases i <;> simp [Function.update]
  · ext i : 1; fin_cases i <;> simp [Function.update]

/-- Value and conservation after the five-point branch. -/
theorem tr5Five_value [NeZero (2 : K)] {c : Ctx K} {ps : Point K 5} {r l : Fin 5 → V2 K}
    {X : K} {r1 r5 l5 : V2 K} (hs : tr5Solve r l X = .ok (r1, r5, l5))
    (h : Spin c ps (Function.update (Function.update r 0 r1) 4 r5) (Function.update l 4 l5)) :
    GoodPoint c ps ∧ ∀ σ : Equiv.Perm (Fin 5),
      computeTr5 ps (single (σ 0)) (single (σ 1)) (single (σ 2)) (single (σ 3)) = .ok ((Equiv.Perm.sign σ : ℤ) * X) := by
  obtain ⟨hv, hc⟩ := tr5Solve_spec r l (NeZero.ne 2) X hs
  have e0 : (ps 0).r2 = momOf (r1 0) (r1 1) (l 0 0) (l 0 1) := by rw [momOf_r2 (h 0)]; simp [Function.update]
  have e1 : (ps 1).r2 = momOf (r 1 0) (r 1 1) (l 1 0) (l 1 1) := by rw [momOf_r2 (h 1)]; simp [Function.update]
  have e2 : (ps 2).r2 = momOf (r 2 0) (r 2 1) (l 2 0) (l 2 1) := by rw [momOf_r2 (h 2)]; simp [Function.update]
  have e3 : (ps 3).r2 = momOf (r 3 0) (r 3 1) (l 3 0) (l 3 1) := by rw [momOf_r2 (h 3)]; simp [Function.update]
  have e4 : (ps 4).r2 = momOf (r5 0) (r5 1) (l5 0) (l5 1) := by rw [momOf_r2 (h 4)]; simp [Function.update]
  have hsum : ∑ i, (ps i).r2 = 0 := by
    rw [Fin.sum_univ_five, e0, e1, e2, e3, e4]
    have c00 := hc 0 0
    have c01 := hc 0 1
    have c10 := hc 1 0
    have c11 := hc 1 1
    simp only [sum3] at c00 c01 c10 c11
    ext i j
    fin_cases i <;> fin_cases j <;> simp [momOf, outer_apply]
    · linear_combination c11
    · linear_combination -c01
    · linear_combination -c10
    · linear_combination c00
  refine ⟨h.good ((conserves_iff ps).mpr hsum), fun σ => ?_⟩
  have ok : ∀ k, SlotOk c ps (single k) := by
    intro k b' k' hk
    simp only [single, List.mem_singleton, Prod.mk.injEq] at hk
    rw [hk.2]; exact (h k).cons
  rw [show single (σ 0) = [(true, σ 0)] from rfl, tr5_value c ps (h (σ 0)) (by omega) _ _ _ (ok _) (ok _) (ok _),
    slotMom_single, slotMom_single, slotMom_single, specTr5_perm (fun i => (ps i).r2) hsum, e0, e1, e2, e3]
  congr 2

/-- C67 at five points: whatever four labels are given, in whatever order, if the method returns then the
momenta are massless and conserved, only particles one and five change, and tr5 of the labels has the
requested value up to the sign of the permutation. -/
theorem C67_five_points_partial [NeZero (2 : K)] (c : Ctx K) (ps : Point K 5) (r l : Fin 5 → V2 K)
    (h : ∀ k, IsMassless c (ps k) (r k) (l k)) (σ : Equiv.Perm (Fin 5)) (X : K) (fix : Bool) (ps' : Point K 5)
    (hret : setTr5All c ps (single (σ 0)) (single (σ 1)) (single (σ 2)) (single (σ 3)) X fix = .ok ps') :
    computeTr5 ps' (single (σ 0)) (single (σ 1)) (single (σ 2)) (single (σ 3)) = .ok ((Equiv.Perm.sign σ : ℤ) * X) ∧
      GoodPoint c ps' ∧ (∀ k, k ≠ 0 → k ≠ 4 → (ps' k).r_d = (ps k).r_d ∧ (ps' k).l_d = (ps k).l_d) := by
  have one : ∀ k : Fin 5, oneChar (single k) = true := by intro k; simp only [single, oneChar, decide_eq_true_eq]; omega
  have e : setTr5All c ps (single (σ 0)) (single (σ 1)) (single (σ 2)) (single (σ 3)) X fix = setTr5Five c ps X := by
    simp only [setTr5All, tr5Rotate, one, if_true]
  rw [e] at hret
  rcases hs : tr5Solve r l X with er | ⟨r1, r5, l5⟩
  · rw [setTr5Five, fiveSpinors_eq (h : Spin c ps r l)] at hret
    simp only [hs] at hret
    cases hret
  · obtain ⟨ps2, e2, h2⟩ := setTr5Five_spec (h : Spin c ps r l) hs
    rw [e2] at hret
    injection hret with hret
    subst hret
    obtain ⟨hg, hv⟩ := tr5Five_value hs h2
    refine ⟨hv σ, hg, fun k h0 h4 => ?_⟩
    rw [(h2 k).r_d, (h2 k).l_d, (h k).r_d, (h k).l_d, Function.update_of_ne h4, Function.update_of_ne h0,
      Function.update_of_ne h4]
    exact ⟨rfl, rfl⟩

/-- C67 at five points for the even orderings: tr5 is set. -/
theorem C67_five_points_even [NeZero (2 : K)] (c : Ctx K) (ps : Point K 5) (r l : Fin 5 → V2 K)
    (h : ∀ k, IsMassless c (ps k) (r k) (l k)) (σ : Equiv.Perm (Fin 5)) (hσ : Equiv.Perm.sign σ = 1) (X : K)
    (fix : Bool) (ps' : Point K 5)
    (hret : setTr5All c ps (single (σ 0)) (single (σ 1)) (single (σ 2)) (single (σ 3)) X fix = .ok ps') :
    computeTr5 ps' (single (σ 0)) (single (σ 1)) (single (σ 2)) (single (σ 3)) = .ok X := by
  rw [(C67_five_points_partial c ps r l h σ X fix ps' hret).1, hσ]; simp

/-- C67 fails at five points for the odd orderings: tr5 is set to the opposite value. -/
theorem C67_five_points_odd_wrong [NeZero (2 : K)] (c : Ctx K) (ps : Point K 5) (r l : Fin 5 → V2 K)
    (h : ∀ k, IsMassless c (ps k) (r k) (l k)) (σ : Equiv.Perm (Fin 5)) (hσ : Equiv.Perm.sign σ = -1) (X : K)
    (hX : X ≠ 0) (fix : Bool) (ps' : Point K 5)
    (hret : setTr5All c ps (single (σ 0)) (single (σ 1)) (single (σ 2)) (single (σ 3)) X fix = .ok ps') :
    computeTr5 ps' (single (σ 0)) (single (σ 1)) (single (σ 2)) (single (σ 3)) ≠ .ok X := by
  rw [(C67_five_points_partial c ps r l h σ X fix ps' hret).1, hσ]
  intro e
  simp only [Units.val_neg, Units.val_one, Int.cast_neg, Int.cast_one, neg_mul, one_mul, Except.ok.injEq] at e
  have : (2 : K) * X = 0 := by linear_combination -e
  exact hX ((mul_eq_zero.mp this).resolve_left (NeZero.ne 2))

/-- C67 at five points: the method returns when its denominators are nonzero. -/
theorem C67_five_points_returns [NeZero (2 : K)] (c : Ctx K) (ps : Point K 5) (r l : Fin 5 → V2 K)
    (h : ∀ k, IsMassless c (ps k) (r k) (l k)) (a b d e : Fin 5) (X : K) (fix : Bool)
    (g1 : (l 0 0 * sum3 r l 1 1 - l 0 1 * sum3 r l 1 0) * tr5With r l (momOf 0 1 (l 0 0) (l 0 1)) +
        (l 0 0 * sum3 r l 0 1 - l 0 1 * sum3 r l 0 0) * tr5With r l (momOf 1 0 (l 0 0) (l 0 1)) ≠ 0)
    (g2 : sum3 r l 1 1 * tr5With r l (momOf 1 0 0 1) + sum3 r l 1 0 * tr5With r l (momOf 1 0 1 0) ≠ 0)
    (g3 : l 0 1 * X + sum3 r l 1 1 * tr5With r l (momOf 0 1 (l 0 0) (l 0 1)) +
        sum3 r l 0 1 * tr5With r l (momOf 1 0 (l 0 0) (l 0 1)) ≠ 0)
    (g4 : l 0 0 * sum3 r l 1 1 - l 0 1 * sum3 r l 1 0 ≠ 0) (h0 : l 0 1 ≠ 0) (h4 : l 4 1 ≠ 0) :
    ∃ ps', setTr5All c ps (single a) (single b) (single d) (single e) X fix = .ok ps' := by
  have h2 : (2 : K) ≠ 0 := NeZero.ne 2
  have h22 : (4 : K) ≠ 0 := by rw [show (4 : K) = 2 * 2 by norm_num]; exact mul_ne_zero h2 h2
  have one : ∀ k : Fin 5, oneChar (single k) = true := by intro k; simp only [single, oneChar, decide_eq_true_eq]; omega
  have hu : r 1 1 * l 0 0 * l 1 1 - r 1 1 * l 1 0 * l 0 1 + r 2 1 * l 0 0 * l 2 1 - r 2 1 * l 2 0 * l 0 1 +
      r 3 1 * l 0 0 * l 3 1 - r 3 1 * l 3 0 * l 0 1 = l 0 0 * sum3 r l 1 1 - l 0 1 * sum3 r l 1 0 := by
    simp only [sum3]; ring
  have hs : ∃ o, tr5Solve r l X = .ok o := by
    unfold tr5Solve
    simp only [tr5D1_eq, tr5D2_eq, tr5D3_eq, hu, pyDiv_ok (neg_ne_zero.mpr g1), pyDiv_ok (mul_ne_zero h0 g2),
      pyDiv_ok (mul_ne_zero h22 g3), pyDiv_ok h4, pyDiv_ok g4]
    exact ⟨_, rfl⟩
  obtain ⟨⟨r1, r5, l5⟩, hs⟩ := hs
  obtain ⟨ps', e', -⟩ := setTr5Five_spec (h : Spin c ps r l) hs
  exact ⟨ps', by simp only [setTr5All, tr5Rotate, one, if_true, e']⟩

/-- C67: with fewer than five particles the method always raises. -/
theorem C67_few_points (c : Ctx K) (ps : Point K n) (hn : n < 5) (a b d e : Slot n) (X : K) (fix : Bool) :
    ∃ er, setTr5All c ps a b d e X fix = .error er := by
  match n, hn with
  | 0, _ | 1, _ | 2, _ | 3, _ | 4, _ =>
    rcases hr : tr5Rotate 4 (a, b, d, e) with _ | o <;> simp only [setTr5All, hr] <;> exact ⟨_, rfl⟩

/-! ### Six points and above -/

theorem tr5_open {c : Ctx K} {ps : Point K n} {a : Fin n} {r l : V2 K} (ha : IsMassless c (ps a) r l) (x y z : Slot n)
    (_hx : SlotOk c ps x) (hy : SlotOk c ps y) (_hz : SlotOk c ps z) :
    ∃ u v, computeOpenEnd ps '[' a [x, y, z] = .ok u ∧ computeOpenEnd ps '[' a [z, y, x] = .ok v ∧
      ∀ s : V2 K, (u 0 - v 0) * s 0 + (u 1 - v 1) * s 1 =
        SpecTr5 ![momOf (s 0) (s 1) (l 0) (l 1), slotMom ps x, slotMom ps y, slotMom ps z] := by
  refine ⟨vecMul l (chain ps false [x, y, z]), vecMul l (chain ps false [z, y, x]), ?_, ?_, ?_⟩
  · simp [computeOpenEnd, need, ha.l_d]
  · simp [computeOpenEnd, need, ha.l_d]
  · intro s
    rw [specTr5_expand]
    simp only [chain, mul_one, slot_bar hy]
    simp only [show ∀ w, slotMat Particle.r2 ps w = slotMom ps w from fun _ => rfl, flip2_eq, Matrix.vecMul,
      dotProduct, Fin.sum_univ_two, Matrix.mul_apply, Matrix.of_apply, Matrix.cons_val_zero, Matrix.cons_val_one,
      momOf, outer_apply]
    ring

/-- C67 at six points and above: for any four slots such that, after the rotation that the code makes, the
first is a single label `a` that is in none of the others, tr5 is set to `X`, momentum is conserved, and
only `a` and the first two free labels change. The guards: tr5 depends on the first component of the
spinor of `a`, and `[p|q]` is nonzero. -/
theorem C67_six_points [NeZero (2 : K)] {m : ℕ} (c : Ctx K) (ps : Point K (m + 6)) (r l : Fin (m + 6) → V2 K)
    (h : ∀ k, IsMassless c (ps k) (r k) (l k)) (s₁ s₂ s₃ s₄ x y z : Slot (m + 6)) (a p q : Fin (m + 6))
    (hrot : tr5Rotate 4 (s₁, s₂, s₃, s₄) = some (single a, x, y, z))
    (ha : a ∉ (x ++ y ++ z).map Prod.snd) (X : K)
    (hpq : FirstTwoFree (a :: (x ++ y ++ z).map Prod.snd) p q)
    (hA : SpecTr5 ![momOf 1 0 (l a 0) (l a 1), slotMom ps x, slotMom ps y, slotMom ps z] ≠ 0)
    (hd : SpecSquare (l p) (l q) ≠ 0) :
    ∃ ps', setTr5All c ps s₁ s₂ s₃ s₄ X true = .ok ps' ∧ computeTr5 ps' s₁ s₂ s₃ s₄ = .ok X ∧ GoodPoint c ps' ∧
      (∀ k, k ≠ a → k ≠ p → k ≠ q → ps' k = ps k) := by
  have ok : ∀ w, SlotOk c ps w := fun w b k _ => (h k).cons
  obtain ⟨u, v, e1, e2, huv⟩ := tr5_open (h a) x y z (ok x) (ok y) (ok z)
  have hu0 : u 0 - v 0 ≠ 0 := by
    have := huv ![1, 0]
    simp only [Matrix.cons_val_zero, Matrix.cons_val_one, mul_one, mul_zero, add_zero] at this
    rw [this]; exact hA
  obtain ⟨o, f1, ho⟩ := setRd_massless (h a) ![(X - (u 1 - v 1) * r a 1) / (u 0 - v 0), r a 1]
  obtain ⟨ps1, f2, h1, o1⟩ := store_r (h : Spin c ps r l) a f1 ho
  obtain ⟨ps2, r2, f3, hc, h2, o2⟩ := fixAxis1_spin h1 (ne_of_lt hpq.2.2.1) hd
  have hno := fun k hk => firstTwoFree_ne hpq (k := k) hk
  have keep : ∀ k, k ∈ (x ++ y ++ z).map Prod.snd → ps2 k = ps k := by
    intro k hk
    have hka : k ≠ a := fun e => ha (e ▸ hk)
    obtain ⟨n1, n2⟩ := hno k (List.mem_cons_of_mem _ hk)
    rw [(o2 k n1 n2).1, o1 k hka]
  have keepS : ∀ w : Slot (m + 6), (∀ t, t ∈ w → t ∈ x ++ y ++ z) → slotMom ps2 w = slotMom ps w := by
    intro w hw
    exact slotMat_congr' _ fun b k hk => keep k (List.mem_map.mpr ⟨(b, k), hw _ hk, rfl⟩)
  have kx := keepS x (by simp +contextual)
  have ky := keepS y (by simp +contextual)
  have kz := keepS z (by simp +contextual)
  obtain ⟨na, nb⟩ := hno a (by simp)
  refine ⟨ps2, ?_, ?_, h2.good hc, fun k a1 a2 a3 => (o2 k a2 a3).1.trans (o1 k a1)⟩
  · simp only [setTr5All, setTr5, hrot, single, e1, e2, (h a).r_d, need, pyDiv_ok hu0, f2, fixIf, if_true]
    rw [fixFirstTwo_eq c ps1 hpq]
    simpa using f3
  · have hm : SpecTr5 ![(ps2 a).r2, slotMom ps2 x, slotMom ps2 y, slotMom ps2 z] = X := by
      rw [kx, ky, kz, (o2 a na nb).1, momOf_r2 (h1 a), Function.update_self, ← huv]
      simp only [Matrix.cons_val_zero, Matrix.cons_val_one]
      field_simp
      ring
    obtain ⟨w1, w2, g1, g2, g3⟩ := tr5_core c ps2 (h2 a) x y z (fun b k _ => (h2 k).cons) (fun b k _ => (h2 k).cons)
      (fun b k _ => (h2 k).cons)
    simp only [computeTr5, hrot, single, g1, g2, g3, hm]

end Lips

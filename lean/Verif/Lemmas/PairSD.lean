import Verif.Lemmas.PairDelta
import Verif.Lemmas.PairSDA
import Verif.Lemmas.PairSDB
import Verif.Lemmas.PairSDC
import Verif.Model.PairSD

/-! The formulas for a Mandelstam invariant and a Gram determinant. -/

namespace Lips

set_option linter.unusedSectionVars false

variable {K Γ : Type*} [Field K] [LinearOrder Γ] {n : ℕ}

/-- The square of the momentum of the first corner. -/
def SD.det1 (z : SD K) (a e : K) : K :=
  (a * z.c + e * z.g) * (z.b * z.d + z.f * z.h) - (a * z.d + e * z.h) * (z.b * z.c + z.f * z.g)

/-- What the formulas give solves two equations. -/
theorem SD.solve_spec [NeZero (2 : K)] {root : K → Option K} (hroot : ∀ x y, root x = some y → y * y = x) (z : SD K)
    (h1 : z.den ≠ 0) (h2 : z.x1 ≠ 0) :
    (∃ D, root D = none ∧ z.solve root = .error .typeError) ∨
    ∃ a e, z.solve root = .ok (a, e) ∧ a * z.den = z.num0 + e * z.num1 ∧
      (a * z.pa + e * z.pe + z.p0) ^ 2 - 4 * z.det1 a e * z.det = 4 * z.X := by
  have hA : sdA z ≠ 0 := by rw [sdA_eq]; exact neg_ne_zero.mpr (pow_ne_zero 2 h2)
  have hA2 : 2 * sdA z ≠ 0 := mul_ne_zero (NeZero.ne 2) hA
  have d1 : z.d * z.f * z.g - z.c * z.f * z.h + z.d * z.j * z.k - z.c * z.j * z.l ≠ 0 := h1
  rcases hq : root (sdB z ^ 2 - 4 * sdA z * sdC z) with _ | q
  · exact .inl ⟨_, hq, by simp only [SD.solve, pyDiv_ok d1, hq]⟩
  right
  have hqq := hroot _ _ hq
  simp only [SD.solve, pyDiv_ok d1, hq, pyDiv_ok hA2]
  set e := (-sdB z - q) / (2 * sdA z) with he
  have he' : 2 * sdA z * e = -sdB z - q := by rw [he, mul_comm, div_mul_cancel₀ _ hA2]
  have quad : sdA z * e ^ 2 + sdB z * e + sdC z = 0 := by
    have : 4 * sdA z * (sdA z * e ^ 2 + sdB z * e + sdC z) = 0 := by
      have h3 : (2 * sdA z * e + sdB z) ^ 2 = q * q := by rw [he']; ring
      rw [hqq] at h3
      linear_combination h3
    rcases mul_eq_zero.mp this with h4 | h4
    · exact absurd h4 (by
        have : (4 : K) * sdA z = 2 * (2 * sdA z) := by ring
        rw [this]; exact mul_ne_zero (NeZero.ne 2) hA2)
    · exact h4
  refine ⟨_, e, rfl, ?_, ?_⟩
  · simp only [mul_div_assoc, ← he]
    rw [show z.d * z.f * z.g - z.c * z.f * z.h + z.d * z.j * z.k - z.c * z.j * z.l = z.den from rfl, mul_comm, ← mul_assoc,
      mul_one_div_cancel h1]
    unfold SD.num0 SD.num1
    ring
  · simp only [mul_div_assoc, ← he]
    rw [show z.d * z.f * z.g - z.c * z.f * z.h + z.d * z.j * z.k - z.c * z.j * z.l = z.den from rfl]
    generalize ha : 1 / z.den * (z.b * z.d * z.i * z.k + z.f * z.h * z.i * z.k - z.b * z.c * z.i * z.l - z.f * z.g * z.i * z.l -
      z.Y + z.b * z.d * z.g * e - z.b * z.c * z.h * e - z.h * z.j * z.k * e + z.g * z.j * z.l * e) = a
    have haD : a * z.den = z.num0 + e * z.num1 := by
      rw [← ha, mul_comm, ← mul_assoc, mul_one_div_cancel h1]
      unfold SD.num0 SD.num1
      ring
    have hx : (a * z.pa + e * z.pe + z.p0) * z.den = z.x0 + e * z.x1 := by
      unfold SD.x0 SD.x1
      linear_combination z.pa * haD
    have hd : z.det1 a e * z.den = (z.num0 + e * z.num1) * (z.c * z.f * z.h - z.d * z.f * z.g) +
        z.den * e * (z.b * z.d * z.g - z.b * z.c * z.h) := by
      unfold SD.det1
      linear_combination (z.c * z.f * z.h - z.d * z.f * z.g) * haD
    rw [sdA_eq, sdB_eq, sdC_eq] at quad
    refine mul_right_cancel₀ (pow_ne_zero 2 h1) ?_
    have h3 : ((a * z.pa + e * z.pe + z.p0) ^ 2 - 4 * z.det1 a e * z.det) * z.den ^ 2 =
        ((a * z.pa + e * z.pe + z.p0) * z.den) ^ 2 - 4 * (z.det1 a e * z.den) * z.det * z.den := by ring
    rw [h3, hx, hd]
    linear_combination -quad

/-- The components of four particles and the two values. -/
def sdOf (r l : Fin n → V2 K) (A B C D : Fin n) (v w : K) : SD K :=
  ⟨r A 1, l A 0, l A 1, r B 1, l B 0, l B 1, r C 0, r C 1, l C 0, l C 1, r D 0, r D 1, l D 0, l D 1, v, w⟩

/-- Setting the two spinors and restoring momentum conservation. -/
theorem runSD_spec [NeZero (2 : K)] {c : Ctx K} {root : K → Option K} (hroot : ∀ x y, root x = some y → y * y = x)
    {ps : Point K n} {r l : Fin n → V2 K} (h : Spin c ps r l) {A B C D E F : Fin n} (hnd : [A, B, C, D, E, F].Nodup) (v w : K)
    (h1 : (sdOf r l A B C D v w).den ≠ 0) (h2 : (sdOf r l A B C D v w).x1 ≠ 0) (h3 : SpecSquare (l E) (l F) ≠ 0) :
    (∃ X, root X = none ∧ runSD c root ps A B C D E F v w = .error .typeError) ∨
    ∃ ps' r', runSD c root ps A B C D E F v w = .ok ps' ∧ Spin c ps' r' l ∧ Conserves ps' ∧ computeS ps' [A, B, C] = v ∧
      SpecDot (sumR2 ps' [A, B]) (sumR2 ps' [C, D]) ^ 2 - SpecSq (sumR2 ps' [A, B]) * SpecSq (sumR2 ps' [C, D]) = w ∧
      ∀ k, k ≠ A → k ≠ B → k ≠ E → k ≠ F → ps' k = ps k := by
  simp only [List.nodup_cons, List.mem_cons, List.not_mem_nil, or_false, not_or, not_false_eq_true, and_true,
    List.nodup_nil] at hnd
  obtain ⟨⟨hAB, hAC, hAD, hAE, hAF⟩, ⟨hBC, hBD, hBE, hBF⟩, ⟨hCD, hCE, hCF⟩, ⟨hDE, hDF⟩, hEF⟩ := hnd
  have sp : ∀ k, bothSpinors (ps k) = .ok (r k, l k) := fun k => by
    simp [bothSpinors, (h k).r_d, (h k).l_d, need_some]
  rcases SD.solve_spec hroot (sdOf r l A B C D v w) h1 h2 with ⟨X, e1, e2⟩ | ⟨a, e, e1, g1, g2⟩
  · refine .inl ⟨X, e1, ?_⟩
    unfold runSD
    rw [sp, sp, sp, sp]
    simp only
    rw [show SD.solve root ⟨r A 1, l A 0, l A 1, r B 1, l B 0, l B 1, r C 0, r C 1, l C 0, l C 1, r D 0, r D 1, l D 0, l D 1, v, w⟩ =
      .error .typeError from e2]
  right
  obtain ⟨q1, s1, t1⟩ := setRd_massless (h A) ![a, r A 1]
  obtain ⟨ps1, u1, h', o1⟩ := store_r h A s1 t1
  obtain ⟨q2, s2, t2⟩ := setRd_massless (h' B) ![e, r B 1]
  obtain ⟨ps2, u2, h'', o2⟩ := store_r h' B s2 t2
  obtain ⟨ps3, r3, u3, hc, h3', o3⟩ := fixAxis1_spin h'' hEF h3
  have rA : r3 A = ![a, r A 1] := by
    rw [(o3 A hAE hAF).2, Function.update_of_ne hAB, Function.update_self]
  have rB : r3 B = ![e, r B 1] := by rw [(o3 B hBE hBF).2, Function.update_self]
  have rC : r3 C = r C := by
    rw [(o3 C hCE hCF).2, Function.update_of_ne (Ne.symm hBC), Function.update_of_ne (Ne.symm hAC)]
  have rD : r3 D = r D := by
    rw [(o3 D hDE hDF).2, Function.update_of_ne (Ne.symm hBD), Function.update_of_ne (Ne.symm hAD)]
  refine ⟨ps3, r3, ?_, h3', hc, ?_, ?_, fun k kA kB kE kF => ?_⟩
  · unfold runSD
    rw [sp, sp, sp, sp]
    simp only
    rw [show SD.solve root ⟨r A 1, l A 0, l A 1, r B 1, l B 0, l B 1, r C 0, r C 1, l C 0, l C 1, r D 0, r D 1, l D 0, l D 1, v, w⟩ =
      .ok (a, e) from e1]
    simp only [u1, u2, andThen, u3]
  · rw [computeS_eq]
    simp only [sumR2_cons, SpecSq, Matrix.add_apply, (h3' _).r2, outer_apply, rA, rB, rC]
    simp only [sumR2, List.map_nil, List.sum_nil, Matrix.zero_apply, Matrix.cons_val_zero, Matrix.cons_val_one]
    simp only [SD.den, SD.num0, SD.num1, sdOf] at g1
    linear_combination -g1
  · simp only [sumR2_cons, SpecSq, SpecDot, Matrix.add_apply, (h3' _).r2, outer_apply, rA, rB, rC, rD]
    simp only [sumR2, List.map_nil, List.sum_nil, Matrix.zero_apply, Matrix.cons_val_zero, Matrix.cons_val_one]
    simp only [SD.det1, SD.det, SD.pa, SD.pe, SD.p0, SD.k00, SD.k01, SD.k10, SD.k11, sdOf] at g2
    have h4 : (4 : K) ≠ 0 := by
      have : (4 : K) = 2 * 2 := by norm_num
      rw [this]; exact mul_ne_zero (NeZero.ne 2) (NeZero.ne 2)
    refine mul_left_cancel₀ h4 ?_
    rw [← g2]
    have half : ∀ x y : K, 4 * ((x / 2) ^ 2 - y) = x ^ 2 - 4 * y := by
      intro x y
      have : (2 : K) ≠ 0 := NeZero.ne 2
      field_simp
      ring
    rw [half]
    ring
  · rw [(o3 k kE kF).1, o2 k kB, o1 k kA]

end Lips

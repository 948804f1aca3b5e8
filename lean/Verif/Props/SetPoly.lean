import Verif.Model.SetPoly
import Verif.Props.SetMandelstam

/-! Property C66: setting Ω and Π at six points. -/

namespace Lips

open Matrix

variable {K : Type*} [Field K] {n : ℕ}

/-- The bispinor of a massless momentum. -/
def momOf (a b c d : K) : M2 K := outer ![d, -c] ![b, -a]

theorem momOf_r2 {c : Ctx K} {p : Particle K} {r l : V2 K} (h : IsMassless c p r l) :
    p.r2 = momOf (r 0) (r 1) (l 0) (l 1) := h.r2

/-- The polynomials of the code are the coefficients of Ω in the first component of the spinor of `A`. -/
theorem omega_identity (a b c d e f g h i j k l m n o p X : K) :
    omegaQA c d f g h j k l n o p * a ^ 2 + omegaQB b c d e f g h i j k l m n o p * a +
        omegaQC b c d e f g h i j k l m n o p X =
      2 * SpecSq (momOf a b c d + momOf e f g h) *
        SpecSq (momOf a b c d + momOf e f g h + (momOf i j k l + momOf m n o p)) -
      (SpecSq (momOf a b c d + momOf e f g h) +
        SpecSq (momOf a b c d + momOf e f g h + (momOf i j k l + momOf m n o p)) -
        SpecSq (momOf i j k l + momOf m n o p)) *
        SpecSq (momOf a b c d + momOf e f g h + momOf i j k l) - X := by
  simp only [omegaQA, omegaQB, omegaQC, SpecSq, momOf, Matrix.add_apply, outer_apply, Matrix.cons_val_zero,
    Matrix.cons_val_one]
  ring

theorem pi_identity (a b c d e f g h i j k l m n o p X : K) :
    piNum b c d e f g h i j k l m n o p X - piDen c d j k l n o p * a =
      SpecSq (momOf a b c d + momOf e f g h + momOf i j k l) -
        SpecSq (momOf a b c d + momOf e f g h + momOf m n o p) - X := by
  simp only [piNum, piDen, SpecSq, momOf, Matrix.add_apply, outer_apply, Matrix.cons_val_zero, Matrix.cons_val_one]
  ring

theorem spinorsOf_eq {c : Ctx K} {ps : Point K n} {r l : Fin n → V2 K} (h : Spin c ps r l) (k : Fin n) :
    spinorsOf ps k = .ok (r k, l k) := by
  simp [spinorsOf, need, (h k).r_d, (h k).l_d]

/-- After the spinor of `A` is changed and momentum fixed with `E` and `F`. -/
theorem sixPoint [NeZero (2 : K)] {c : Ctx K} {ps : Point K n} {r l : Fin n → V2 K} (h : Spin c ps r l)
    {A B C D E F : Fin n} (hperm : ([C, D] ++ [E, F] ++ [A, B]).Perm (List.finRange n)) (a : K)
    (hd : SpecSquare (l E) (l F) ≠ 0) :
    ∃ ps1 ps' : Point K n, store ps A (setRd c (ps A) ![a, r A 1]) = .ok ps1 ∧ fixAxis1 c ps1 E F = .ok ps' ∧
      GoodPoint c ps' ∧ (∀ k, k ≠ A → k ≠ E → k ≠ F → ps' k = ps k) ∧
      sumR2 ps' [A, B] = momOf a (r A 1) (l A 0) (l A 1) + momOf (r B 0) (r B 1) (l B 0) (l B 1) ∧
      sumR2 ps' [C, D] = momOf (r C 0) (r C 1) (l C 0) (l C 1) + momOf (r D 0) (r D 1) (l D 0) (l D 1) ∧
      sumR2 ps' [E, F] = -(sumR2 ps' [A, B] + sumR2 ps' [C, D]) ∧
      (ps' C).r2 = momOf (r C 0) (r C 1) (l C 0) (l C 1) ∧ (ps' D).r2 = momOf (r D 0) (r D 1) (l D 0) (l D 1) := by
  have hnd : ([C, D] ++ [E, F] ++ [A, B]).Nodup := hperm.nodup_iff.mpr (List.nodup_finRange n)
  simp only [List.cons_append, List.nil_append, List.nodup_cons, List.mem_cons, List.not_mem_nil, or_false,
    not_or, List.nodup_nil, and_true, not_false_eq_true] at hnd
  obtain ⟨⟨hCD, hCE, hCF, hCA, hCB⟩, ⟨hDE, hDF, hDA, hDB⟩, ⟨hEF, hEA, hEB⟩, ⟨hFA, hFB⟩, hAB⟩ := hnd
  obtain ⟨q, e1, hq⟩ := setRd_massless (h A) ![a, r A 1]
  obtain ⟨ps1, e2, h1, o1⟩ := store_r h A e1 hq
  obtain ⟨ps2, r2, e3, hc, h2, o2⟩ := fixAxis1_spin h1 hEF hd
  have gA : (ps2 A).r2 = momOf a (r A 1) (l A 0) (l A 1) := by
    rw [(o2 A (Ne.symm hEA) (Ne.symm hFA)).1, momOf_r2 (h1 A), Function.update_self]; rfl
  have g : ∀ k, k ≠ A → k ≠ E → k ≠ F → (ps2 k).r2 = momOf (r k 0) (r k 1) (l k 0) (l k 1) := by
    intro k a b d
    rw [(o2 k b d).1, o1 k a, momOf_r2 (h k)]
  refine ⟨ps1, ps2, e2, e3, h2.good hc, fun k a b d => (o2 k b d).1.trans (o1 k a), ?_, ?_, ?_, ?_, ?_⟩
  · simp [sumR2, gA, g B (Ne.symm hAB) (Ne.symm hEB) (Ne.symm hFB)]
  · simp [sumR2, g C hCA hCE hCF, g D hDA hDE hDF]
  · have h0 := (conserves_iff ps2).mp hc
    rw [← sumR2_finRange, ← sumR2_perm ps2 hperm, sumR2_append, sumR2_append] at h0
    rw [eq_neg_iff_add_eq_zero, ← h0]; abel
  · exact g C hCA hCE hCF
  · exact g D hDA hDE hDF

/-- C66: Ω with three corners of two labels each that are all the labels: Ω is set to `X`, momentum is
conserved, and only `A`, `E` and `F` change; whichever root the field returns. If the field has no
root of the discriminant the method raises. The guards: the coefficient of the square and `[E|F]` are
nonzero. -/
theorem C66_set_omega [NeZero (2 : K)] (c : Ctx K) (ps : Point K n) (r l : Fin n → V2 K)
    (h : ∀ k, IsMassless c (ps k) (r k) (l k)) (A B C D E F : Fin n)
    (hperm : ([C, D] ++ [E, F] ++ [A, B]).Perm (List.finRange n)) (X : K)
    (hQA : omegaQA (l A 0) (l A 1) (r B 1) (l B 0) (l B 1) (r C 1) (l C 0) (l C 1) (r D 1) (l D 0) (l D 1) ≠ 0)
    (hd : SpecSquare (l E) (l F) ≠ 0) :
    (∃ x, c.sqrt x = none ∧ setO c ps [C, D] [E, F] [A, B] X = .error .valueError) ∨
    ∃ ps', setO c ps [C, D] [E, F] [A, B] X = .ok ps' ∧ computeOmega ps' [C, D] [E, F] [A, B] = .ok X ∧
      GoodPoint c ps' ∧ (∀ k, k ≠ A → k ≠ E → k ≠ F → ps' k = ps k) := by
  have h2 : (2 : K) ≠ 0 := NeZero.ne 2
  set QA := omegaQA (l A 0) (l A 1) (r B 1) (l B 0) (l B 1) (r C 1) (l C 0) (l C 1) (r D 1) (l D 0) (l D 1) with eA
  set QB := omegaQB (r A 1) (l A 0) (l A 1) (r B 0) (r B 1) (l B 0) (l B 1) (r C 0) (r C 1) (l C 0) (l C 1) (r D 0)
    (r D 1) (l D 0) (l D 1) with eB
  set QC := omegaQC (r A 1) (l A 0) (l A 1) (r B 0) (r B 1) (l B 0) (l B 1) (r C 0) (r C 1) (l C 0) (l C 1) (r D 0)
    (r D 1) (l D 0) (l D 1) X with eC
  rcases hy : c.sqrt (QB ^ 2 - 4 * QA * QC) with _ | y
  · refine Or.inl ⟨_, hy, ?_⟩
    simp only [setO, spinorsOf_eq (h : Spin c ps r l), ← eA, ← eB, ← eC, hy]
  · right
    have hsq := c.sqrt_sq _ _ hy
    have hden : 2 * QA ≠ 0 := mul_ne_zero h2 hQA
    obtain ⟨ps1, ps', e1, e2, hg, ho, sAB, sCD, sEF, gC, -⟩ := sixPoint (h : Spin c ps r l) hperm ((-QB - y) / (2 * QA)) hd
    refine ⟨ps', ?_, ?_, hg, ho⟩
    · simp only [setO, spinorsOf_eq (h : Spin c ps r l), ← eA, ← eB, ← eC, hy, pyDiv_ok hden, e1, e2]
    · simp only [computeOmega, computeS_eq, sEF, specSq_neg, sumR2_append, sAB, sCD]
      rw [show sumR2 ps' [C] = (ps' C).r2 by simp [sumR2], gC]
      congr 1
      have hid := omega_identity ((-QB - y) / (2 * QA)) (r A 1) (l A 0) (l A 1) (r B 0) (r B 1) (l B 0) (l B 1) (r C 0) (r C 1)
        (l C 0) (l C 1) (r D 0) (r D 1) (l D 0) (l D 1) X
      rw [← eA, ← eB, ← eC] at hid
      have hz : QA * ((-QB - y) / (2 * QA)) ^ 2 + QB * ((-QB - y) / (2 * QA)) + QC = 0 := by
        field_simp
        linear_combination hsq
      rw [hz] at hid
      linear_combination -hid

/-- C66: Π, likewise; the equation is linear. -/
theorem C66_set_pi [NeZero (2 : K)] (c : Ctx K) (ps : Point K n) (r l : Fin n → V2 K)
    (h : ∀ k, IsMassless c (ps k) (r k) (l k)) (A B C D E F : Fin n)
    (hperm : ([C, D] ++ [E, F] ++ [A, B]).Perm (List.finRange n)) (X : K)
    (hden : piDen (l A 0) (l A 1) (r C 1) (l C 0) (l C 1) (r D 1) (l D 0) (l D 1) ≠ 0)
    (hd : SpecSquare (l E) (l F) ≠ 0) :
    ∃ ps', setP c ps [C, D] [E, F] [A, B] X = .ok ps' ∧ computePi ps' [C, D] [A, B] = .ok X ∧
      GoodPoint c ps' ∧ (∀ k, k ≠ A → k ≠ E → k ≠ F → ps' k = ps k) := by
  set N := piNum (r A 1) (l A 0) (l A 1) (r B 0) (r B 1) (l B 0) (l B 1) (r C 0) (r C 1) (l C 0) (l C 1) (r D 0)
    (r D 1) (l D 0) (l D 1) X with eN
  set Q := piDen (l A 0) (l A 1) (r C 1) (l C 0) (l C 1) (r D 1) (l D 0) (l D 1) with eQ
  obtain ⟨ps1, ps', e1, e2, hg, ho, sAB, -, -, gC, gD⟩ := sixPoint (h : Spin c ps r l) hperm (N / Q) hd
  refine ⟨ps', ?_, ?_, hg, ho⟩
  · simp only [setP, spinorsOf_eq (h : Spin c ps r l), ← eN, ← eQ, pyDiv_ok hden, e1, e2]
  · simp only [computePi, computeS_eq, sumR2_append, sAB]
    rw [show sumR2 ps' [C] = (ps' C).r2 by simp [sumR2], show sumR2 ps' [D] = (ps' D).r2 by simp [sumR2], gC, gD]
    congr 1
    have hid := pi_identity (N / Q) (r A 1) (l A 0) (l A 1) (r B 0) (r B 1) (l B 0) (l B 1) (r C 0) (r C 1)
      (l C 0) (l C 1) (r D 0) (r D 1) (l D 0) (l D 1) X
    rw [← eN, ← eQ, mul_div_cancel₀ N hden, sub_self] at hid
    linear_combination -hid

end Lips

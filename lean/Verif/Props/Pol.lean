import Verif.Props.Gram

/-!
Properties C30 and C31: contractions of polarisation vectors.
-/

namespace Lips

open Matrix

set_option linter.unusedSimpArgs false
set_option linter.unusedSectionVars false

variable {K : Type*} [Field K] {n : ℕ}

/-- Specification of the polarisation vectors as bispinors: `ε⁺ = √2 |q⟩[i| / ⟨q i⟩`,
`ε⁻ = √2 |i⟩[q| / [i q]`. -/
def SpecPol (r2 : K) (positive : Bool) (ri li rq lq : V2 K) : M2 K :=
  if positive then (r2 / SpecAngle rq ri) • outer rq li else (r2 / SpecSquare li lq) • outer ri lq

/-- The denominator of `SpecPol`. -/
def SpecPolDen (positive : Bool) (ri li rq lq : V2 K) : K :=
  if positive then SpecAngle rq ri else SpecSquare li lq

theorem isMinus_eq (h : Hel) : h.isMinus = !h.isPlus := by cases h <;> rfl

theorem bil_raise (r l : V2 K) (M : M2 K) [NeZero (2 : K)] :
    bil ![r 1, -r 0] M ![l 1, -l 0] = 2 * SpecDot (outer r l) M := by
  have h2 : (2 : K) ≠ 0 := NeZero.ne 2
  rw [SpecDot, mul_div_cancel₀ _ h2]
  simp [bil_eq, outer_apply]; ring

theorem specDot_smul (k : K) (x y : M2 K) : SpecDot (k • x) y = k * SpecDot x y := by
  simp only [SpecDot, Matrix.smul_apply, smul_eq_mul]; ring

theorem specDot_comm (x y : M2 K) : SpecDot x y = SpecDot y x := by simp only [SpecDot]; ring

theorem specDot_outer (a b c d : V2 K) :
    SpecDot (outer a b) (outer c d) = SpecAngle a c * SpecSquare d b / 2 := by
  simp only [SpecDot, outer_apply, SpecAngle, SpecSquare]; ring

/-- C30: `ep(i, j)` is the Minkowski product of the polarisation vector of `i` with the momentum
of `j`, which may be massive. -/
theorem C30_ep_is_contraction [NeZero (2 : K)] (c : Ctx K) (r2 : K) (hr2 : r2 * r2 = 2)
    (hel : Fin n → Hel) (ps : Point K n) (q : Particle K) (i j : Fin n) {ri li rq lq : V2 K}
    (hi : HasSpinors c (ps i) ri li) (hq : HasSpinors c q rq lq)
    (hd : SpecPolDen (hel i).isPlus ri li rq lq ≠ 0) :
    ep r2 hel ps q i j = .ok (SpecDot (SpecPol r2 (hel i).isPlus ri li rq lq) (ps j).r2b) ∧
    pe r2 hel ps q j i = ep r2 hel ps q i j := by
  refine ⟨?_, rfl⟩
  have h2 : (2 : K) ≠ 0 := NeZero.ne 2
  have hr0 : r2 ≠ 0 := by rintro rfl; rw [mul_zero] at hr2; exact h2 hr2.symm
  unfold ep
  cases hp : (hel i).isPlus
  · simp only [hp, SpecPolDen, Bool.false_eq_true, if_false] at hd
    have d : dot2 li ![lq 1, -lq 0] = SpecSquare li lq := dot2_square _ _
    simp only [Bool.false_eq_true, if_false, hi.r_u, hi.l_d, hq.l_u, need_some, bind, Except.bind, d, pyDiv,
      mul_ne_zero hr0 hd, SpecPol, specDot_smul]
    have := bil_raise ri lq (ps j).r2b
    rw [bil] at this
    rw [this]
    congr 1
    field_simp
    linear_combination (-SpecDot (outer ri lq) (ps j).r2b) * hr2
  · simp only [hp, SpecPolDen, if_true] at hd
    have d : dot2 ![rq 1, -rq 0] ri = SpecAngle rq ri := dot2_angle _ _
    simp only [if_true, hq.r_u, hi.r_d, hi.l_u, need_some, bind, Except.bind, d, pyDiv,
      mul_ne_zero hr0 hd, if_false, SpecPol, specDot_smul]
    have := bil_raise rq li (ps j).r2b
    rw [bil] at this
    rw [this]
    congr 1
    field_simp
    linear_combination (-SpecDot (outer rq li) (ps j).r2b) * hr2

/-- C30: a reference vector with vanishing bracket raises ZeroDivisionError. -/
theorem C30_ep_bad_reference (c : Ctx K) (r2 : K) (hel : Fin n → Hel) (ps : Point K n)
    (q : Particle K) (i j : Fin n) {ri li rq lq : V2 K}
    (hi : HasSpinors c (ps i) ri li) (hq : HasSpinors c q rq lq)
    (hd : SpecPolDen (hel i).isPlus ri li rq lq = 0) :
    ep r2 hel ps q i j = .error .zeroDivision := by
  unfold ep
  cases hp : (hel i).isPlus
  · simp only [hp, SpecPolDen, Bool.false_eq_true, if_false] at hd
    simp [hi.r_u, hi.l_d, hq.l_u, need_some, bind, Except.bind, pyDiv, dot2_square, hd]
  · simp only [hp, SpecPolDen, if_true] at hd
    simp [hq.r_u, hi.r_d, hi.l_u, need_some, bind, Except.bind, pyDiv, dot2_angle, hd]

/-- C30: transversality `ε_i.p_i = 0`, and `ε_i.q = 0`. -/
theorem C30_transverse [NeZero (2 : K)] (c : Ctx K) (r2 : K) (hr2 : r2 * r2 = 2)
    (hel : Fin n → Hel) (ps : Point K n) (q : Particle K) (i : Fin n) {ri li rq lq : V2 K}
    (hi : IsMassless c (ps i) ri li) (hq : IsMassless c q rq lq)
    (hd : SpecPolDen (hel i).isPlus ri li rq lq ≠ 0) :
    ep r2 hel ps q i i = .ok 0 ∧ (∀ j, (ps j).r2b = q.r2b → ep r2 hel ps q i j = .ok 0) := by
  have self : ∀ x : V2 K, SpecAngle x x = 0 ∧ SpecSquare x x = 0 := by
    intro x; simp only [SpecAngle, SpecSquare]; constructor <;> ring
  constructor
  · rw [(C30_ep_is_contraction c r2 hr2 hel ps q i i hi.toHasSpinors hq.toHasSpinors hd).1, hi.r2b, SpecPol]
    congr 1
    cases (hel i).isPlus <;> simp [specDot_smul, specDot_outer, self]
  · intro j hj
    rw [(C30_ep_is_contraction c r2 hr2 hel ps q i j hi.toHasSpinors hq.toHasSpinors hd).1, hj, hq.r2b, SpecPol]
    congr 1
    cases (hel i).isPlus <;> simp [specDot_smul, specDot_outer, self]

/-- C30: on momentum-conserving points the contractions of one polarisation with all momenta add up
to zero. -/
theorem C30_momentum_conservation [NeZero (2 : K)] (c : Ctx K) (r2 : K) (hr2 : r2 * r2 = 2)
    (hel : Fin n → Hel) (ps : Point K n) (hps : ∀ k, Consistent c (ps k)) (hc : Conserves ps)
    (q : Particle K) (i : Fin n) {ri li rq lq : V2 K}
    (hi : HasSpinors c (ps i) ri li) (hq : HasSpinors c q rq lq)
    (hd : SpecPolDen (hel i).isPlus ri li rq lq ≠ 0) :
    ∃ x : Fin n → K, (∀ j, ep r2 hel ps q i j = .ok (x j)) ∧ ∑ j, x j = 0 := by
  refine ⟨fun j => SpecDot (SpecPol r2 (hel i).isPlus ri li rq lq) (ps j).r2b, fun j =>
    (C30_ep_is_contraction c r2 hr2 hel ps q i j hi hq hd).1, ?_⟩
  have hsum : ∑ j, (ps j).r2b = 0 := by
    have := (conserves_iff ps).mp hc
    have e : ∑ j, (ps j).r2b = flip2 (totalMom ps) := by
      rw [← sumR2_finRange, ← sumR2b_eq ps _ (fun l _ => hps l), sumR2b, ← List.sum_ofFn, List.ofFn_eq_map]
    rw [e, this, flip2_zero]
  have ent : ∀ a b, ∑ j, (ps j).r2b a b = 0 := by
    intro a b; rw [← Matrix.sum_apply, hsum]; rfl
  generalize SpecPol r2 (hel i).isPlus ri li rq lq = E
  simp only [SpecDot, div_eq_mul_inv, ← Finset.sum_mul, Finset.sum_sub_distrib, Finset.sum_add_distrib,
    ← Finset.mul_sum, ent]
  ring

/-- C30: changing the reference vector shifts `ε_i.p_j` by a factor, the same for all `j`, times
`p_i.p_j`. -/
theorem C30_gauge_shift [NeZero (2 : K)] (c : Ctx K) (r2 : K) (hr2 : r2 * r2 = 2)
    (hel : Fin n → Hel) (ps : Point K n) (q q' : Particle K) (i : Fin n) {ri li rq lq rq' lq' : V2 K}
    (hi : IsMassless c (ps i) ri li) (hq : HasSpinors c q rq lq) (hq' : HasSpinors c q' rq' lq')
    (hd : SpecPolDen (hel i).isPlus ri li rq lq ≠ 0) (hd' : SpecPolDen (hel i).isPlus ri li rq' lq' ≠ 0) :
    ∃ (x y : Fin n → K) (κ : K), (∀ j, ep r2 hel ps q i j = .ok (x j)) ∧
      (∀ j, ep r2 hel ps q' i j = .ok (y j)) ∧
      ∀ j, y j = x j + κ * SpecDot (ps i).r2b (ps j).r2b := by
  refine ⟨_, _, if (hel i).isPlus then r2 * SpecAngle rq rq' / (SpecAngle rq ri * SpecAngle rq' ri)
      else r2 * SpecSquare lq' lq / (SpecSquare li lq * SpecSquare li lq'),
    fun j => (C30_ep_is_contraction c r2 hr2 hel ps q i j hi.toHasSpinors hq hd).1,
    fun j => (C30_ep_is_contraction c r2 hr2 hel ps q' i j hi.toHasSpinors hq' hd').1, fun j => ?_⟩
  rw [hi.r2b]
  cases hp : (hel i).isPlus
  · simp only [hp, SpecPolDen, Bool.false_eq_true, if_false] at hd hd'
    simp only [SpecPol, Bool.false_eq_true, if_false, specDot_smul]
    field_simp
    simp only [SpecDot, outer_apply, SpecSquare, div_eq_mul_inv]; ring
  · simp only [hp, SpecPolDen, if_true] at hd hd'
    simp only [SpecPol, if_true, specDot_smul]
    field_simp
    simp only [SpecDot, outer_apply, SpecAngle, div_eq_mul_inv]; ring

/-- C30: for opposite helicities `ee` is the Minkowski product of the two polarisation vectors, in
either order; for equally written helicities it is zero, which is their product too. -/
theorem C30_ee_is_contraction [NeZero (2 : K)] (c : Ctx K) (r2 : K) (hr2 : r2 * r2 = 2)
    (hel : Fin n → Hel) (ps : Point K n) (q : Particle K) (i j : Fin n) {ri li rj lj rq lq : V2 K}
    (hi : HasSpinors c (ps i) ri li) (hj : HasSpinors c (ps j) rj lj) (hq : IsMassless c q rq lq)
    (hdi : SpecPolDen (hel i).isPlus ri li rq lq ≠ 0) (hdj : SpecPolDen (hel j).isPlus rj lj rq lq ≠ 0)
    (h : hel i = hel j ∨ (hel i).isPlus ≠ (hel j).isPlus) (fuel : ℕ) :
    ee hel ps q (fuel + 2) i j = some (.ok (SpecDot (SpecPol r2 (hel i).isPlus ri li rq lq)
      (SpecPol r2 (hel j).isPlus rj lj rq lq))) := by
  have h2 : (2 : K) ≠ 0 := NeZero.ne 2
  have self : ∀ x : V2 K, SpecAngle x x = 0 ∧ SpecSquare x x = 0 := by
    intro x; simp only [SpecAngle, SpecSquare]; constructor <;> ring
  have anti : ∀ x y : V2 K, SpecAngle y x = -SpecAngle x y ∧ SpecSquare y x = -SpecSquare x y := by
    intro x y; simp only [SpecAngle, SpecSquare]; constructor <;> ring
  rcases h with h | h
  · rw [ee, if_pos h, h, SpecPol, SpecPol]
    congr 2
    cases (hel j).isPlus
    · simp [specDot_smul, specDot_comm (outer ri lq), specDot_outer, self]
    · simp [specDot_smul, specDot_comm (outer rq li), specDot_outer, self]
  · -- the negative one first
    have core : ∀ (i j : Fin n) (ri li rj lj : V2 K), HasSpinors c (ps i) ri li → HasSpinors c (ps j) rj lj →
        (hel i).isPlus = false → (hel j).isPlus = true → SpecSquare li lq ≠ 0 → SpecAngle rq rj ≠ 0 →
        ∀ fuel, ee hel ps q (fuel + 1) i j = some (.ok (SpecDot ((r2 / SpecSquare li lq) • outer ri lq)
          ((r2 / SpecAngle rq rj) • outer rq lj))) := by
      intro i j ri li rj lj hi hj pi pj di dj fuel
      have hne : hel i ≠ hel j := by intro e; rw [e, pj] at pi; cases pi
      have hm : (hel i).isMinus = true := by rw [isMinus_eq, pi]; rfl
      rw [ee, if_neg hne, if_pos hm]
      have n1 : dot2 (vecMul ![ri 1, -ri 0] q.r2b) ![lj 1, -lj 0] = SpecAngle ri rq * SpecSquare lq lj := by
        rw [hq.r2b]; exact (bil_outer _ _ _ _).trans (by rw [dot2_angle, dot2_square])
      have n2 : dot2 (vecMul ![rj 1, -rj 0] q.r2b) ![li 1, -li 0] = SpecAngle rj rq * SpecSquare lq li := by
        rw [hq.r2b]; exact (bil_outer _ _ _ _).trans (by rw [dot2_angle, dot2_square])
      have nz : SpecAngle rj rq * SpecSquare lq li ≠ 0 := by
        rw [(anti rq rj).1, (anti li lq).2, neg_mul_neg]; exact mul_ne_zero dj di
      simp only [hi.r_u, hj.r_u, hi.l_u, hj.l_u, need_some, bind, Except.bind, pure, Except.pure, n1, n2, pyDiv,
        nz, if_false]
      congr 2
      rw [specDot_smul, specDot_comm, specDot_smul, specDot_outer, (anti rq rj).1, (anti li lq).2,
        (anti ri rq).1]
      field_simp
      linear_combination SpecAngle ri rq * SpecSquare lq lj * hr2
    rcases hpi : (hel i).isPlus with _ | _
    · rcases hpj : (hel j).isPlus with _ | _
      · rw [hpi, hpj] at h; exact absurd rfl h
      · simp only [hpi, hpj, SpecPolDen, Bool.false_eq_true, if_false, if_true] at hdi hdj
        simp only [SpecPol, Bool.false_eq_true, if_false, if_true]
        exact core i j ri li rj lj hi hj hpi hpj hdi hdj (fuel + 1)
    · rcases hpj : (hel j).isPlus with _ | _
      · simp only [hpi, hpj, SpecPolDen, Bool.false_eq_true, if_false, if_true] at hdi hdj
        have hne : hel i ≠ hel j := by intro e; rw [e, hpj] at hpi; cases hpi
        have hm : (hel i).isMinus = false := by rw [isMinus_eq, hpi]; rfl
        rw [ee, if_neg hne, hm, if_neg Bool.false_ne_true, core j i rj lj ri li hj hi hpj hpi hdj hdi fuel, specDot_comm]
        simp [SpecPol]
      · rw [hpi, hpj] at h; exact absurd rfl h

/-- Two levels of recursion suffice when any does. -/
theorem ee_two (hel : Fin n → Hel) (ps : Point K n) (q : Particle K) (i j : Fin n)
    (h : ¬((hel i).isPlus = true ∧ (hel j).isPlus = true ∧ hel i ≠ hel j)) :
    (ee hel ps q 2 i j).isSome := by
  by_cases he : hel i = hel j
  · rw [ee, if_pos he]; rfl
  · rw [ee, if_neg he]
    cases hpi : (hel i).isPlus
    · rw [isMinus_eq, hpi]; rfl
    · have hpj : (hel j).isPlus = false := by
        cases hpj : (hel j).isPlus
        · rfl
        · exact absurd ⟨hpi, hpj, he⟩ h
      have hmi : (hel i).isMinus = false := by rw [isMinus_eq, hpi]; rfl
      have hmj : (hel j).isMinus = true := by rw [isMinus_eq, hpj]; rfl
      rw [hmi, if_neg Bool.false_ne_true, ee, if_neg (Ne.symm he), hmj, if_pos rfl]; rfl

/-- C31 (finding): `ee` returns exactly when the helicities are not the two spellings `+` and `p` of
the positive one; on those the mutual recursion never ends. -/
theorem C31_ee_terminates_iff (hel : Fin n → Hel) (ps : Point K n) (q : Particle K) (i j : Fin n) :
    (∃ fuel, (ee hel ps q fuel i j).isSome) ↔
      ¬((hel i).isPlus = true ∧ (hel j).isPlus = true ∧ hel i ≠ hel j) := by
  constructor
  · rintro ⟨fuel, hf⟩ ⟨pi, pj, hne⟩
    have : ∀ fuel (i j : Fin n), (hel i).isPlus = true → (hel j).isPlus = true → hel i ≠ hel j →
        ee hel ps q fuel i j = none := by
      intro fuel
      induction fuel with
      | zero => intros; rfl
      | succ k ih =>
        intro i j pi pj hne
        have hm : (hel i).isMinus = false := by rw [isMinus_eq, pi]; rfl
        rw [ee, if_neg hne, hm, if_neg Bool.false_ne_true]
        exact ih j i pj pi (Ne.symm hne)
    rw [this fuel i j pi pj hne] at hf; cases hf
  · exact fun h => ⟨2, ee_two hel ps q i j h⟩

/-- C31: with one spelling of each helicity `ee` always returns, after at most one recursive
call. -/
theorem C31_terminates_partial (hel : Fin n → Hel) (ps : Point K n) (q : Particle K)
    (h : (∀ k, hel k = .plus ∨ hel k = .minus) ∨ (∀ k, hel k = .p ∨ hel k = .m)) (i j : Fin n) :
    (ee hel ps q 2 i j).isSome := by
  have : ¬((hel i).isPlus = true ∧ (hel j).isPlus = true ∧ hel i ≠ hel j) := by
    rintro ⟨pi, pj, hne⟩
    rcases h with h | h <;> rcases h i with hi | hi <;> rcases h j with hj | hj <;>
      simp [hi, hj, Hel.isPlus] at pi pj hne
  exact ee_two hel ps q i j this

/-- C30 (finding): the two spellings `-` and `m` of the negative helicity are taken for opposite
ones: instead of the product of the polarisations, which is zero, the formula for opposite
helicities is returned, and it is not symmetric. -/
theorem C30_mixed_minus_spelling (c : Ctx K) (hel : Fin n → Hel) (ps : Point K n) (q : Particle K)
    (i j : Fin n) {ri li rj lj rq lq : V2 K} (hi : HasSpinors c (ps i) ri li)
    (hj : HasSpinors c (ps j) rj lj) (hq : IsMassless c q rq lq) (mi : (hel i).isMinus = true)
    (mj : (hel j).isMinus = true) (hne : hel i ≠ hel j) (h1 : SpecAngle ri rq ≠ 0)
    (h2 : SpecSquare lq lj ≠ 0) (h3 : SpecAngle rj rq ≠ 0) (h4 : SpecSquare lq li ≠ 0) (fuel : ℕ) :
    ∃ x, x ≠ 0 ∧ ee hel ps q (fuel + 1) i j = some (.ok x) ∧
      ee hel ps q (fuel + 1) j i = some (.ok x⁻¹) := by
  have core : ∀ (i j : Fin n) (ri li rj lj : V2 K), HasSpinors c (ps i) ri li → HasSpinors c (ps j) rj lj →
      (hel i).isMinus = true → hel i ≠ hel j → SpecAngle rj rq * SpecSquare lq li ≠ 0 →
      ee hel ps q (fuel + 1) i j = some (.ok (-(SpecAngle ri rq * SpecSquare lq lj /
        (SpecAngle rj rq * SpecSquare lq li)))) := by
    intro i j ri li rj lj hi hj hm hne nz
    rw [ee, if_neg hne, if_pos hm]
    have n1 : dot2 (vecMul ![ri 1, -ri 0] q.r2b) ![lj 1, -lj 0] = SpecAngle ri rq * SpecSquare lq lj := by
      rw [hq.r2b]; exact (bil_outer _ _ _ _).trans (by rw [dot2_angle, dot2_square])
    have n2 : dot2 (vecMul ![rj 1, -rj 0] q.r2b) ![li 1, -li 0] = SpecAngle rj rq * SpecSquare lq li := by
      rw [hq.r2b]; exact (bil_outer _ _ _ _).trans (by rw [dot2_angle, dot2_square])
    simp only [hi.r_u, hj.r_u, hi.l_u, hj.l_u, need_some, bind, Except.bind, pure, Except.pure, n1, n2, pyDiv,
      nz, if_false]
  refine ⟨_, ?_, core i j ri li rj lj hi hj mi hne (mul_ne_zero h3 h4), ?_⟩
  · exact neg_ne_zero.mpr (div_ne_zero (mul_ne_zero h1 h2) (mul_ne_zero h3 h4))
  · rw [core j i rj lj ri li hj hi mj (Ne.symm hne) (mul_ne_zero h1 h2), inv_neg, inv_div]

end Lips

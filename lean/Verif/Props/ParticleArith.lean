import Verif.Props.Particle
import Mathlib.Algebra.BigOperators.Group.List.Basic

/-!
Properties C06, C07: arithmetic, equality and hashing of particles.
-/

namespace Lips

open Matrix

variable {K : Type*} [Field K]

theorem setR2_r2 (c : Ctx K) (p : Particle K) (m : M2 K) : (setR2 c p m).st.r2 = m :=
  (C02_assign_then_read c p).2.2.2.2.1 m

/-- In the symmetric convention deriving spinors never raises. -/
theorem deriveSpinors_symmetric_ok (c : Ctx K) (hc : c.conv = .symmetric) (p : Particle K)
    (a b d : K) : (deriveSpinors c p a b d).err = none := by
  unfold deriveSpinors deriveR deriveL
  simp only [hc]
  by_cases h : c.small a = true
  · simp [h]
  · simp only [h]; cases c.sqrt a <;> simp

/-- In the symmetric convention assigning a rank-two spinor never raises. -/
theorem setR2_symmetric_ok (c : Ctx K) (hc : c.conv = .symmetric) (p : Particle K) (m : M2 K) :
    (setR2 c p m).err = none := deriveSpinors_symmetric_ok c hc _ _ _ _

/-! ### C06 -/

/-- C06: the five arithmetic operations act on the momentum as vector operations (and on
nothing else: they return a new object). -/
theorem C06_arithmetic (c : Ctx K) (p q rnd : Particle K) (k : K) (a b : Fin 2) :
    (pAdd c p q).st.r2 a b = p.r2 a b + q.r2 a b ∧
    (pSub c p q).st.r2 a b = p.r2 a b - q.r2 a b ∧
    (pNeg c rnd p).st.r2 a b = -p.r2 a b ∧
    (pMul c p k).st.r2 a b = p.r2 a b * k ∧
    (k ≠ 0 → (pDiv c p k).st.r2 a b = p.r2 a b / k) ∧ (pDiv c p 0).err = some .zeroDivision := by
  refine ⟨?_, ?_, ?_, ?_, fun hk => ?_, by simp [pDiv]⟩
  · simp [pAdd, ofR2, setR2_r2]
  · simp [pSub, ofR2, setR2_r2]
  · simp [pNeg, setR2_r2]
  · simp [pMul, ofR2, setR2_r2, mul_comm]
  · simp [pDiv, hk, ofR2, setR2_r2]

/-- C06: results of arithmetic are consistent particles. -/
theorem C06_results_consistent [NeZero (2 : K)] (c : Ctx K) (p q : Particle K) (k : K) :
    ((pAdd c p q).err = none → Consistent c (pAdd c p q).st) ∧
    ((pSub c p q).err = none → Consistent c (pSub c p q).st) ∧
    ((pMul c p k).err = none → Consistent c (pMul c p k).st) := by
  obtain ⟨h, -, -⟩ := C01_constructors_consistent c
  exact ⟨h _, h _, h _⟩

theorem pSumFrom_r2 (c : Ctx K) (qs : List (Particle K)) : ∀ (acc s : Particle K),
    pSumFrom c acc qs = some s → s.r2 = acc.r2 + (qs.map (·.r2)).sum := by
  induction qs with
  | nil => intro acc s h; cases h; simp
  | cons q qs ih =>
    intro acc s h
    unfold pSumFrom at h
    rcases ho : pAdd c acc q with ⟨t, _ | e⟩
    · rw [ho] at h
      have ht : t.r2 = acc.r2 + q.r2 := by
        have := setR2_r2 c blank (acc.r2 + q.r2)
        rw [pAdd, ofR2] at ho; rw [ho] at this; exact this
      rw [ih t s h, ht, List.map_cons, List.sum_cons, add_assoc]
    · rw [ho] at h; simp at h

/-- C06: Python's `sum` over a list of particles has as momentum the sum of the
momenta. -/
theorem C06_sum_is_vector_sum (c : Ctx K) (ps : List (Particle K)) (s : Particle K)
    (h : pSum c ps = some (some s)) : s.r2 = (ps.map (·.r2)).sum := by
  cases ps with
  | nil => simp [pSum] at h
  | cons p ps =>
    simp only [pSum, Option.map_eq_some_iff] at h
    obtain ⟨s', hs, he⟩ := h
    cases he
    rw [pSumFrom_r2 c ps p _ hs, List.map_cons, List.sum_cons]

/-- C06: with the default convention the sum of a non-empty list never raises. -/
theorem C06_sum_total (c : Ctx K) (hc : c.conv = .symmetric) (ps : List (Particle K))
    (hne : ps ≠ []) : ∃ s, pSum c ps = some (some s) := by
  have key : ∀ (qs : List (Particle K)) (acc : Particle K), ∃ s, pSumFrom c acc qs = some s := by
    intro qs
    induction qs with
    | nil => intro acc; exact ⟨acc, rfl⟩
    | cons q qs ih =>
      intro acc
      have := setR2_symmetric_ok c hc blank (acc.r2 + q.r2)
      unfold pSumFrom
      rcases ho : pAdd c acc q with ⟨t, _ | e⟩
      · simp only; exact ih t
      · rw [pAdd, ofR2] at ho; rw [ho] at this; cases this
  cases ps with
  | nil => exact absurd rfl hne
  | cons p ps =>
    obtain ⟨s, hs⟩ := key ps p
    exact ⟨s, by simp [pSum, hs]⟩

/-- C06: the momentum of a sum does not depend on the order of the summands. -/
theorem C06_sum_order_independent (c : Ctx K) (ps qs : List (Particle K)) (s t : Particle K)
    (hperm : ps.Perm qs) (hs : pSum c ps = some (some s)) (ht : pSum c qs = some (some t)) :
    pEq s t := by
  rw [pEq, C06_sum_is_vector_sum c ps s hs, C06_sum_is_vector_sum c qs t ht]
  exact (hperm.map _).sum_eq

/-- C06: nor on the grouping. -/
theorem C06_sum_grouping_independent (c : Ctx K) (ps qs : List (Particle K)) (s t u : Particle K)
    (hs : pSum c ps = some (some s)) (ht : pSum c qs = some (some t))
    (hu : pSum c (ps ++ qs) = some (some u)) : pEq (pAdd c s t).st u := by
  rw [pEq, C06_sum_is_vector_sum c _ u hu, pAdd, ofR2, setR2_r2,
    C06_sum_is_vector_sum c _ s hs, C06_sum_is_vector_sum c _ t ht, List.map_append,
    List.sum_append]

/-! ### C07 -/

omit [Field K] in
/-- C07: equality is an equivalence relation and is equality of momenta. -/
theorem C07_eq_equivalence : Equivalence (pEq (K := K)) :=
  ⟨fun _ => rfl, fun h => h.symm, fun h h' => h.trans h'⟩

/-- C07: equality is equality of four momenta. -/
theorem C07_eq_iff_mom [NeZero (2 : K)] (c : Ctx K) (i : K) (hi : c.imag = some i)
    (p q : Particle K) (hp : MomConsistent c p) (hq : MomConsistent c q) :
    pEq p q ↔ p.mom = q.mom := by
  have h2 : (2 : K) ≠ 0 := NeZero.ne 2
  have hi0 : i ≠ 0 := by rintro rfl; have := c.imag_sq 0 hi; simp at this
  obtain ⟨v, vd, hv, -, -, h00, h01, h10, h11⟩ := hp.mom_some i hi
  obtain ⟨w, wd, hw, -, -, g00, g01, g10, g11⟩ := hq.mom_some i hi
  rw [hv, hw]
  constructor
  · intro h
    rw [pEq] at h
    rw [h] at h00 h01 h10 h11
    rw [g00] at h00; rw [g01] at h01; rw [g10] at h10; rw [g11] at h11
    congr 1
    funext j; fin_cases j <;> simp
    · apply mul_left_cancel₀ h2; linear_combination -h00 - h11
    · apply mul_left_cancel₀ h2; linear_combination h01 + h10
    · apply mul_left_cancel₀ (mul_ne_zero h2 hi0); linear_combination h10 - h01
    · apply mul_left_cancel₀ h2; linear_combination h00 - h11
  · intro h
    obtain rfl : v = w := Option.some.inj h
    rw [pEq]
    ext a b; fin_cases a <;> fin_cases b
    · exact h00.trans g00.symm
    · exact h01.trans g01.symm
    · exact h10.trans g10.symm
    · exact h11.trans g11.symm

/-- C07 (finding): the hash contract is violated. Two consistent particles compare equal
while what is hashed differs, so any hash function that tells the two keys apart gives
equal particles different hashes. -/
theorem C07_hash_contract_violated : ∃ p q : Particle ℚ,
    Consistent (ratCtx .symmetric) p ∧ Consistent (ratCtx .symmetric) q ∧ pEq p q ∧
    ∃ k k', hashKey (ratCtx .symmetric) p = some k ∧ hashKey (ratCtx .symmetric) q = some k' ∧
      k ≠ k' := by
  have e : ∀ r l : V2 ℚ, (ofSpinors (ratCtx .symmetric) r l).st.r2 =
      outer (lDownUp l) (rDownUp r) ∧ (ofSpinors (ratCtx .symmetric) r l).st.r2b = outer r l ∧
      (ofSpinors (ratCtx .symmetric) r l).st.r_d = some r ∧
      (ofSpinors (ratCtx .symmetric) r l).st.l_d = some l := fun r l => ⟨rfl, rfl, rfl, rfl⟩
  have hm : ∀ r l : V2 ℚ, (ratCtx .symmetric).small (ofSpinors (ratCtx .symmetric) r l).st.m2 =
      true := by
    intro r l
    have h0 : (ofSpinors (ratCtx .symmetric) r l).st.m2 = 0 := by
      rw [(C03_m2_minkowski (ratCtx .symmetric) _
        ((C01_constructors_consistent (ratCtx .symmetric)).2.2 r l).2.mom).1, (e r l).1, det_outer]
    rw [h0]; exact (ratCtx .symmetric).small_zero
  refine ⟨(ofSpinors (ratCtx .symmetric) ![1, 0] ![1, 0]).st,
    (ofSpinors (ratCtx .symmetric) ![2, 0] ![1/2, 0]).st,
    ((C01_constructors_consistent _).2.2 _ _).2, ((C01_constructors_consistent _).2.2 _ _).2,
    ?_, .spinors 1 0 1 0, .spinors 2 0 (1/2) 0, ?_, ?_, ?_⟩
  · rw [pEq, (e _ _).1, (e _ _).1]
    simp only [lDownUp_eq, rDownUp_eq]
    ext a b; fin_cases a <;> fin_cases b <;> simp [outer_apply]
  · rw [hashKey, if_pos (hm _ _), (e _ _).2.2.1, (e _ _).2.2.2]; simp
  · rw [hashKey, if_pos (hm _ _), (e _ _).2.2.1, (e _ _).2.2.2]; simp
  · simp

/-- C07, what does hold: equal particles have equal hashes if they are massive, or if
their spinors agree up to nothing (both were derived from the momentum in the same
convention). Missing for the full claim: massless particles whose spinors differ by a
little-group factor. -/
theorem C07_hash_partial [NeZero (2 : K)] (c : Ctx K) (p q : Particle K)
    (hp : MomConsistent c p) (hq : MomConsistent c q) (h : pEq p q) :
    (c.small p.m2 = false → hashKey c p = hashKey c q) ∧
    (p.r_d = q.r_d → p.l_d = q.l_d → hashKey c p = hashKey c q) ∧
    (∀ o o' : Particle K, p = (setR2 c o p.r2).st → q = (setR2 c o' q.r2).st →
      (setR2 c o p.r2).err = none → hashKey c p = hashKey c q) := by
  have hm : p.m2 = q.m2 := by
    rw [(C03_m2_minkowski c p hp).1, (C03_m2_minkowski c q hq).1, h]
  have h2 : p.r_d = q.r_d → p.l_d = q.l_d → hashKey c p = hashKey c q := by
    intro h1 h2; unfold hashKey; rw [hm, h1, h2, h]
  refine ⟨fun hs => ?_, h2, fun o o' ho ho' he => ?_⟩
  · unfold hashKey; rw [← hm, hs, h]; simp
  · have key : ∀ (a b : Particle K) (m : M2 K), (setR2 c a m).err = none →
        (setR2 c a m).st.r_d = (setR2 c b m).st.r_d ∧
        (setR2 c a m).st.l_d = (setR2 c b m).st.l_d := by
      intro a b m hm
      unfold setR2 deriveSpinors at *
      cases hR : deriveR c (m 1 1) (-m 1 0) with
      | caught => simp
      | escaped e => simp [hR] at hm
      | val r =>
        cases hL : deriveL c (m 1 1) (-m 0 1) with
        | caught => simp
        | escaped e => simp [hR, hL] at hm
        | val l => simp
    have k := key o o' p.r2 he
    apply h2
    · rw [ho, ho', ← h]; exact k.1
    · rw [ho, ho', ← h]; exact k.2

/-- C07 (finding): a massless particle without spinors cannot be hashed at all. -/
theorem C07_degenerate_unhashable (c : Ctx K) (p : Particle K) (h : c.small p.m2 = true)
    (hr : p.r_d = none) : hashKey c p = none := by
  unfold hashKey; simp [h, hr]

end Lips

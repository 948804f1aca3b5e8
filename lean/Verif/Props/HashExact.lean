import Verif.Props.PointHash

/-! C07, exactly: which equal particles and points have the same hash. -/

namespace Lips

variable {K : Type*} [Field K]

/-- Two rank-one matrices that agree and are not zero have the same factors up to one nonzero number. -/
theorem outer_factors (r l r' l' : V2 K) (h : outer r l = outer r' l') (h0 : outer r l ≠ 0) :
    ∃ t : K, t ≠ 0 ∧ r' = t • r ∧ l' = t⁻¹ • l := by
  have he : ∀ a b, r a * l b = r' a * l' b := fun a b => by
    have := congrFun (congrFun h a) b
    rwa [outer_apply, outer_apply] at this
  obtain ⟨a, b, hab⟩ : ∃ a b, r a * l b ≠ 0 := by
    by_contra hn
    push Not at hn
    exact h0 (by ext a b; rw [outer_apply, hn]; rfl)
  have hra : r a ≠ 0 := left_ne_zero_of_mul hab
  have hlb : l b ≠ 0 := right_ne_zero_of_mul hab
  have hab' : r' a * l' b ≠ 0 := he a b ▸ hab
  have hra' : r' a ≠ 0 := left_ne_zero_of_mul hab'
  have hlb' : l' b ≠ 0 := right_ne_zero_of_mul hab'
  refine ⟨r' a / r a, div_ne_zero hra' hra, ?_, ?_⟩
  · funext x
    rw [Pi.smul_apply, smul_eq_mul]
    have h1 := he x b
    have h2 := he a b
    field_simp
    apply mul_right_cancel₀ hlb'
    apply mul_right_cancel₀ hlb
    linear_combination (-l b * r a) * h1 + (l b * r x) * h2
  · funext x
    rw [Pi.smul_apply, smul_eq_mul]
    have h1 := he a x
    field_simp
    linear_combination -h1

/-- The keys of two particles of which the first is massless agree exactly if their spinors do, if both can be hashed. -/
theorem hashKey_spinors (c : Ctx K) (p q : Particle K) (hm : c.small p.m2 = true) (hm' : c.small q.m2 = true) {r l r' l' : V2 K}
    (hr : p.r_d = some r) (hl : p.l_d = some l) (hr' : q.r_d = some r') (hl' : q.l_d = some l') :
    hashKey c p = hashKey c q ↔ r = r' ∧ l = l' := by
  unfold hashKey
  rw [if_pos hm, if_pos hm', hr, hl, hr', hl']
  simp only [Option.some.injEq, HashKey.spinors.injEq]
  constructor
  · rintro ⟨h1, h2, h3, h4⟩
    exact ⟨by funext a; fin_cases a <;> assumption, by funext a; fin_cases a <;> assumption⟩
  · rintro ⟨rfl, rfl⟩
    exact ⟨rfl, rfl, rfl, rfl⟩

/-- A massless particle that can be hashed has spinors. -/
theorem spinors_of_key (c : Ctx K) (p : Particle K) (hm : c.small p.m2 = true) (h : ∃ k, hashKey c p = some k) :
    ∃ r l, p.r_d = some r ∧ p.l_d = some l := by
  obtain ⟨k, hk⟩ := h
  unfold hashKey at hk
  rw [if_pos hm] at hk
  split at hk
  next r l hr hl => exact ⟨r, l, hr, hl⟩
  next => cases hk

/-- C07, exactly, for massless particles with spinors: equal particles have spinors that differ by a little-group factor, and their hashes are
taken of the same key if and only if that factor is one. -/
theorem C07_hash_iff [NeZero (2 : K)] (c : Ctx K) (p q : Particle K) (hp : Consistent c p) (hq : Consistent c q) (h : pEq p q)
    (h0 : p.r2 ≠ 0) (hd : p.r2.det = 0) {r l r' l' : V2 K} (hr : p.r_d = some r) (hl : p.l_d = some l) (hr' : q.r_d = some r')
    (hl' : q.l_d = some l') :
    ∃ t : K, t ≠ 0 ∧ r' = t • r ∧ l' = t⁻¹ • l ∧ (hashKey c p = hashKey c q ↔ t = 1) := by
  have hd' : q.r2.det = 0 := by rw [← h]; exact hd
  have hm : c.small p.m2 = true := by rw [(C03_m2_minkowski c p hp.mom).1, hd]; exact c.small_zero
  have hm' : c.small q.m2 = true := by rw [(C03_m2_minkowski c q hq.mom).1, hd']; exact c.small_zero
  have e1 : p.r2b = outer r l := by ext a b; rw [outer_apply]; exact hp.spinors r l hr hl hd a b
  have e2 : q.r2b = outer r' l' := by ext a b; rw [outer_apply]; exact hq.spinors r' l' hr' hl' hd' a b
  have e3 : p.r2b = q.r2b := by rw [hp.mom.bar, hq.mom.bar, h]
  have n0 : outer r l ≠ 0 := by
    intro hz
    apply h0
    rw [← e1, hp.mom.bar] at hz
    have := congrArg Matrix.adjugate hz
    rw [Matrix.adjugate_adjugate _ (by simp)] at this
    simpa using this
  obtain ⟨t, ht, hrt, hlt⟩ := outer_factors r l r' l' (by rw [← e1, ← e2, e3]) n0
  refine ⟨t, ht, hrt, hlt, ?_⟩
  rw [hashKey_spinors c p q hm hm' hr hl hr' hl', hrt, hlt]
  constructor
  · rintro ⟨h1, -⟩
    obtain ⟨a, ha⟩ : ∃ a, r a ≠ 0 := by
      by_contra hn
      push Not at hn
      exact n0 (by ext a b; rw [outer_apply, hn, zero_mul]; rfl)
    have := congrFun h1 a
    rw [Pi.smul_apply, smul_eq_mul] at this
    exact mul_right_cancel₀ ha (by rw [one_mul]; exact this.symm)
  · rintro rfl
    simp

/-- The keys of a point are those of its particles, one by one. -/
theorem pointHashKey_eq_iff (c : Ctx K) : ∀ (ps qs : List (Particle K)), (∀ p ∈ ps, ∃ k, hashKey c p = some k) →
    (∀ q ∈ qs, ∃ k, hashKey c q = some k) → (pointHashKey c ps = pointHashKey c qs ↔ List.Forall₂ (fun p q => hashKey c p = hashKey c q) ps qs)
  | [], [], _, _ => by simp
  | [], q :: qs, _, hq => by
    obtain ⟨k, hk⟩ := (C07_points_hashable c (q :: qs)).2 hq
    rw [hk]
    unfold pointHashKey at hk
    rw [List.mapM_cons] at hk
    rcases ha : hashKey c q with _ | a
    · rw [ha] at hk; cases hk
    rcases hb : qs.mapM (hashKey c) with _ | b
    · rw [ha, hb] at hk; cases hk
    rw [ha, hb] at hk
    cases hk
    simp [pointHashKey]
  | p :: ps, [], hp, _ => by
    obtain ⟨k, hk⟩ := (C07_points_hashable c (p :: ps)).2 hp
    rw [hk]
    unfold pointHashKey at hk
    rw [List.mapM_cons] at hk
    rcases ha : hashKey c p with _ | a
    · rw [ha] at hk; cases hk
    rcases hb : ps.mapM (hashKey c) with _ | b
    · rw [ha, hb] at hk; cases hk
    rw [ha, hb] at hk
    cases hk
    simp [pointHashKey]
  | p :: ps, q :: qs, hp, hq => by
    rw [List.forall_mem_cons] at hp hq
    rw [List.forall₂_cons, ← pointHashKey_eq_iff c ps qs hp.2 hq.2]
    obtain ⟨a, ha⟩ := hp.1
    obtain ⟨b, hb⟩ := hq.1
    obtain ⟨x, hx⟩ := (C07_points_hashable c ps).2 hp.2
    obtain ⟨y, hy⟩ := (C07_points_hashable c qs).2 hq.2
    unfold pointHashKey at hx hy ⊢
    rw [List.mapM_cons, List.mapM_cons, ha, hb, hx, hy]
    simp

/-- C07, exactly, for points: two points that can be hashed and compare equal have the same key if and only if they have the same number of
particles and each particle is massive or has the same spinors in both. -/
theorem C07_points_iff [NeZero (2 : K)] (c : Ctx K) (ps qs : List (Particle K)) (hp : ∀ p ∈ ps, MomConsistent c p)
    (hq : ∀ q ∈ qs, MomConsistent c q) (kp : ∀ p ∈ ps, ∃ k, hashKey c p = some k) (kq : ∀ q ∈ qs, ∃ k, hashKey c q = some k)
    (h : pointsEq pEqb ps qs = .ok true) :
    pointHashKey c ps = pointHashKey c qs ↔
      ps.length = qs.length ∧ ∀ pq ∈ ps.zip qs, c.small pq.1.m2 = false ∨ (pq.1.r_d = pq.2.r_d ∧ pq.1.l_d = pq.2.l_d) := by
  refine ⟨fun e => ?_, fun e => C07_points_partial c ps qs e.1 hp hq h e.2⟩
  rw [pointHashKey_eq_iff c ps qs kp kq] at e
  refine ⟨e.length_eq, ?_⟩
  induction e with
  | nil => simp
  | @cons p q ps qs hk _ ih =>
    rw [List.forall_mem_cons] at hp hq kp kq
    unfold pointsEq at h
    split at h
    next he =>
      rw [List.zip_cons_cons, List.forall_mem_cons]
      refine ⟨?_, ih hp.2 hq.2 kp.2 kq.2 h⟩
      have e : pEq p q := by simpa [pEqb] using he
      have hm : p.m2 = q.m2 := by rw [(C03_m2_minkowski c p hp.1).1, (C03_m2_minkowski c q hq.1).1, e]
      rcases hs : c.small p.m2 with _ | _
      · exact .inl rfl
      · right
        obtain ⟨r, l, hr, hl⟩ := spinors_of_key c p hs kp.1
        obtain ⟨r', l', hr', hl'⟩ := spinors_of_key c q (hm ▸ hs) kq.1
        obtain ⟨rfl, rfl⟩ := (hashKey_spinors c p q hs (hm ▸ hs) hr hl hr' hl').1 hk
        exact ⟨hr.trans hr'.symm, hl.trans hl'.symm⟩
    next => cases h

/-- Spinors rescaled by two: the same momentum, another key. -/
example : ∃ t : ℚ, t ≠ 0 ∧ (![2, 0] : V2 ℚ) = t • ![1, 0] ∧ (![1/2, 0] : V2 ℚ) = t⁻¹ • ![1, 0] ∧
    (hashKey (ratCtx .symmetric) (ofSpinors (ratCtx .symmetric) ![1, 0] ![1, 0]).st =
      hashKey (ratCtx .symmetric) (ofSpinors (ratCtx .symmetric) ![2, 0] ![1/2, 0]).st ↔ t = 1) := by
  have e : ∀ r l : V2 ℚ, (ofSpinors (ratCtx .symmetric) r l).st.r2 = outer (lDownUp l) (rDownUp r) := fun r l => rfl
  refine C07_hash_iff (ratCtx .symmetric) _ _ ((C01_constructors_consistent _).2.2 _ _).2 ((C01_constructors_consistent _).2.2 _ _).2 ?_ ?_ ?_
    rfl rfl rfl rfl
  · rw [pEq, e, e]
    simp only [lDownUp_eq, rDownUp_eq]
    ext a b; fin_cases a <;> fin_cases b <;> simp [outer_apply]
  · rw [e]
    simp only [lDownUp_eq, rDownUp_eq]
    intro h
    have := congrFun (congrFun h 1) 1
    simp [outer_apply] at this
  · rw [e, det_outer]

end Lips

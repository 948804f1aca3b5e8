import Verif.Props.Slices

/-!
C79 and C80: momenta built from random twistors and from random three momenta.
-/

namespace Lips

open Matrix

set_option linter.unusedSectionVars false

variable {K : Type*} [Field K] {n : ℕ}

/-! ### Twistors -/

theorem twistLoop_ok (c : Ctx K) (lam : Fin n → V2 K) (r l : Fin n → V2 K) (ks : List (Fin n)) (hk : ks.Nodup)
    (ps : Point K n) (hp : ∀ k ∈ ks, ps k = (ofSpinors c (r k) (l k)).st) :
    twistLoop c lam ks ps = .ok (assign (fun k => (ofSpinors c (lam k) (l k)).st) ks ps) := by
  induction ks generalizing ps with
  | nil => rfl
  | cons k ks ih =>
    rw [List.nodup_cons] at hk
    simp only [twistLoop, hp k List.mem_cons_self, setRd_ofSpinors, store_ok]
    rw [ih hk.2, ← assign_cons]
    intro k' hk'
    rw [Function.update_of_ne (by rintro rfl; exact hk.1 hk')]
    exact hp k' (List.mem_cons_of_mem _ hk')

/-- The dual coordinate of two neighbours. -/
def SpecX (lam mu lam' mu' : V2 K) : M2 K := Matrix.of fun a b =>
  (mu a * ![lam' 1, -lam' 0] b - mu' a * ![lam 1, -lam 0] b) / SpecAngle lam' lam

theorem twistX_of_ne {lam mu lam' mu' : V2 K} (h : SpecAngle lam' lam ≠ 0) :
    twistX lam mu lam' mu' = .ok (SpecX lam mu lam' mu') := by
  have e : dot2 (rDownUp lam') lam = SpecAngle lam' lam := by simp [dot2, rDownUp_eq, SpecAngle]; ring
  simp only [twistX, e, h, if_false]
  congr 1
  ext a b
  simp only [SpecX, Matrix.smul_apply, Matrix.sub_apply, outer_apply, Matrix.of_apply, rDownUp_eq, smul_eq_mul]
  field_simp

theorem twistX_of_eq {lam mu lam' mu' : V2 K} (h : SpecAngle lam' lam = 0) :
    twistX lam mu lam' mu' = .error .zeroDivision := by
  have e : dot2 (rDownUp lam') lam = SpecAngle lam' lam := by simp [dot2, rDownUp_eq, SpecAngle]; ring
  simp only [twistX, e, h, if_true]

/-- The coordinates of all neighbours. -/
def SpecXs (lam mu : Fin (n + 1) → V2 K) (k : Fin (n + 1)) : M2 K := SpecX (lam k) (mu k) (lam (k + 1)) (mu (k + 1))

theorem twistXs_ok (lam mu : Fin (n + 1) → V2 K) (ks : List (Fin (n + 1)))
    (h : ∀ k ∈ ks, SpecAngle (lam (k + 1)) (lam k) ≠ 0) :
    ∃ x, twistXs lam mu ks = .ok x ∧ ∀ k ∈ ks, x k = SpecXs lam mu k := by
  induction ks with
  | nil => exact ⟨_, rfl, by simp⟩
  | cons k ks ih =>
    obtain ⟨x, e, hx⟩ := ih fun k hk => h k (List.mem_cons_of_mem _ hk)
    refine ⟨Function.update x k (SpecXs lam mu k), by simp only [twistXs, twistX_of_ne (h k List.mem_cons_self), e]; rfl, ?_⟩
    intro k' hk'
    by_cases he : k' = k
    · subst he; rw [Function.update_self]
    · rw [Function.update_of_ne he]
      exact hx k' ((List.mem_cons.mp hk').resolve_left he)

theorem twistXs_zero (lam mu : Fin (n + 1) → V2 K) (ks : List (Fin (n + 1))) {k : Fin (n + 1)} (hk : k ∈ ks)
    (h : SpecAngle (lam (k + 1)) (lam k) = 0) : twistXs lam mu ks = .error .zeroDivision := by
  induction ks with
  | nil => cases hk
  | cons k' ks ih =>
    rw [twistXs]
    by_cases h' : SpecAngle (lam (k' + 1)) (lam k') = 0
    · rw [twistX_of_eq h']
    · rw [twistX_of_ne h']
      rcases List.mem_cons.mp hk with rfl | hk
      · exact absurd h h'
      · simp only [ih hk]

/-- What assigning a four momentum computed from a lower bispinor stores. -/
theorem setMom_r2 [NeZero (2 : K)] (c : Ctx K) {i : K} (hi : c.imag = some i) (p : Particle K) (m : M2 K) :
    (setMom c p (r2bToMom i m)).st.r2 = flip2 m := by
  have hi2 := c.imag_sq i hi
  have h := (C02_round_trips i hi2).2.2.2.2.2.1 m
  have t0 : (2 : K) ≠ 0 := NeZero.ne 2
  simp only [setMom, fromMom, hi]
  rw [(deriveSpinors_mom c _ _ _ _).1]
  have h' := (C02_round_trips i hi2).2.2.2.2.1 (flip2 m)
  have e : r2bToMom i m = r2ToMom i (flip2 m) := by
    funext μ
    rw [r2bToMom, r2ToMom, flip2_eq, eta_fin_two m]
    fin_cases μ <;> simp [pauli, pauliBar, trace_fin_two] <;> ring
  rw [e]; exact h'

theorem twistMomLoop_ok [NeZero (2 : K)] (c : Ctx K) {i : K} (hi : c.imag = some i) (x : Fin (n + 1) → M2 K) (ks : List (Fin (n + 1)))
    (ps ps' : Point K (n + 1)) (e : twistMomLoop c x ks ps = .ok ps') (hcons : ∀ k, Consistent c (ps k)) :
    (∀ k ∈ ks, ∃ p, (setMom c p (r2bToMom i (x k - x (k + 1)))) = ⟨ps' k, none⟩) ∧ (∀ k, k ∉ ks → ps' k = ps k) ∧
      ∀ k, Consistent c (ps' k) := by
  induction ks generalizing ps with
  | nil => cases e; exact ⟨by simp, fun _ _ => rfl, hcons⟩
  | cons k ks ih =>
    rw [twistMomLoop, hi] at e
    rcases hm : (ps k).mom with _ | v
    · rw [hm] at e; cases e
    rw [hm] at e
    simp only at e
    rcases hs : setMom c (ps k) (r2bToMom i (x k - x (k + 1))) with ⟨q, _ | er⟩
    · rw [hs] at e
      simp only [store_ok] at e
      have hq : Consistent c q := by
        have := C01_op_consistent c (ps k) (.mom (r2bToMom i (x k - x (k + 1)))) (hcons k) (by rw [applyOp, hs])
        rw [applyOp, hs] at this; exact this
      obtain ⟨h1, h2, h3⟩ := ih _ e (by
        intro k'
        by_cases h' : k' = k
        · subst h'; rw [Function.update_self]; exact hq
        · rw [Function.update_of_ne h']; exact hcons k')
      refine ⟨?_, ?_, h3⟩
      · intro k' hk'
        by_cases hm' : k' ∈ ks
        · exact h1 k' hm'
        · rcases List.mem_cons.mp hk' with rfl | h'
          · refine ⟨ps k', ?_⟩
            rw [h2 _ hm', Function.update_self, hs]
          · exact absurd h' hm'
      · intro k' hk'
        rw [h2 k' fun h => hk' (List.mem_cons_of_mem _ h), Function.update_of_ne fun h => hk' (by rw [h]; exact List.mem_cons_self)]
    · rw [hs] at e; simp [store, Out.toExcept] at e

theorem twistMomLoop_returns (c : Ctx K) (hc : c.conv = .symmetric) {i : K} (hi : c.imag = some i) (x : Fin (n + 1) → M2 K)
    (ks : List (Fin (n + 1))) (ps : Point K (n + 1)) (hm : ∀ k, (ps k).mom ≠ none) : ∃ ps', twistMomLoop c x ks ps = .ok ps' := by
  induction ks generalizing ps with
  | nil => exact ⟨_, rfl⟩
  | cons k ks ih =>
    rw [twistMomLoop, hi]
    rcases h : (ps k).mom with _ | v
    · exact absurd h (hm k)
    simp only
    have e := setMom_symmetric_ok c hc hi (ps k) (r2bToMom i (x k - x (k + 1)))
    have e' := setMom_mom c (ps k) (r2bToMom i (x k - x (k + 1)))
    rcases hs : setMom c (ps k) (r2bToMom i (x k - x (k + 1))) with ⟨q, _ | er⟩
    · simp only [store_ok]
      rw [hs] at e'
      apply ih
      intro k'
      by_cases h' : k' = k
      · subst h'; rw [Function.update_self, e']; simp
      · rw [Function.update_of_ne h']; exact hm k'
    · rw [hs] at e; cases e

/-- Neighbouring coordinates differ by a null vector. -/
theorem specX_null {l₀ l₁ l₂ m₀ m₁ m₂ : V2 K} (h₀ : SpecAngle l₁ l₀ ≠ 0) (h₁ : SpecAngle l₂ l₁ ≠ 0) :
    (SpecX l₀ m₀ l₁ m₁ - SpecX l₁ m₁ l₂ m₂).det = 0 := by
  rw [det_fin_two]
  simp only [SpecX, Matrix.sub_apply, Matrix.of_apply, cons_val_zero, cons_val_one]
  rw [div_sub_div _ _ h₀ h₁, div_sub_div _ _ h₀ h₁, div_sub_div _ _ h₀ h₁, div_sub_div _ _ h₀ h₁, div_mul_div_comm,
    div_mul_div_comm, ← sub_div, div_eq_zero_iff]
  left
  simp only [SpecAngle]
  ring

theorem flip2_det (m : M2 K) : (flip2 m).det = m.det := by
  rw [flip2_eq, det_fin_two, det_fin_two]; simp; ring

/-- C79: for massless points and any drawn twistors, if `randomise_twistor` returns then the total momentum is
zero and every particle is massless and consistent. It returns only if no angle bracket of neighbours
vanishes. -/
theorem C79_twistor [NeZero (2 : K)] (c : Ctx K) (ps ps' : Point K (n + 1)) (r l : Fin (n + 1) → V2 K) (h : Spin c ps r l)
    (lam mu : Fin (n + 1) → V2 K) (e : randomiseTwistor c ps lam mu = .ok ps') :
    Conserves ps' ∧ (∀ k, Massless (ps' k) ∧ Consistent c (ps' k)) ∧ ∀ k, SpecAngle (lam (k + 1)) (lam k) ≠ 0 := by
  rw [randomiseTwistor, twistLoop_ok c lam r l _ (List.nodup_finRange _) ps fun k _ => (h k).eq_ofSpinors,
    assign_finRange] at e
  simp only at e
  have hne : ∀ k, SpecAngle (lam (k + 1)) (lam k) ≠ 0 := by
    intro k hk
    rw [twistXs_zero lam mu _ (List.mem_finRange k) hk] at e
    cases e
  obtain ⟨x, ex, hx⟩ := twistXs_ok lam mu (List.finRange (n + 1)) fun k _ => hne k
  rw [ex] at e
  simp only at e
  have hx' : x = SpecXs lam mu := funext fun k => hx k (List.mem_finRange k)
  subst hx'
  rcases hi : c.imag with _ | i
  · rw [show List.finRange (n + 1) = 0 :: (List.finRange n).map Fin.succ from List.finRange_succ, twistMomLoop, hi] at e
    cases e
  obtain ⟨h1, -, h3⟩ := twistMomLoop_ok c hi _ _ _ _ e fun k => (ofSpinors_isMassless c (lam k) (l k)).cons
  have hr2 : ∀ k, (ps' k).r2 = flip2 (SpecXs lam mu k - SpecXs lam mu (k + 1)) := by
    intro k
    obtain ⟨p, hp⟩ := h1 k (List.mem_finRange k)
    rw [← setMom_r2 c hi p, hp]
  refine ⟨?_, fun k => ⟨?_, h3 k⟩, hne⟩
  · intro a b
    have hsum : ∑ k, (SpecXs lam mu k - SpecXs lam mu (k + 1)) = 0 := by
      rw [Finset.sum_sub_distrib, sub_eq_zero]
      exact (Equiv.sum_comp (Equiv.addRight (1 : Fin (n + 1))) (SpecXs lam mu)).symm
    have he : ∀ a b, ∑ k, (SpecXs lam mu k - SpecXs lam mu (k + 1)) a b = 0 := by
      intro a b; rw [← Matrix.sum_apply, hsum]; rfl
    simp only [hr2, flip2_eq]
    fin_cases a <;> fin_cases b
    · simpa using he 1 1
    · have := he 0 1
      simp [sub_eq_zero] at this ⊢; exact this.symm
    · have := he 1 0
      simp [sub_eq_zero] at this ⊢; exact this.symm
    · simpa using he 0 0
  · rw [massless_iff, hr2, flip2_det]
    exact specX_null (hne k) (hne (k + 1))

/-- C79: in the symmetric convention it does return, if neighbouring angle brackets do not vanish. -/
theorem C79_returns [NeZero (2 : K)] (c : Ctx K) (hc : c.conv = .symmetric) {i : K} (hi : c.imag = some i) (ps : Point K (n + 1))
    (r l : Fin (n + 1) → V2 K) (h : Spin c ps r l) (lam mu : Fin (n + 1) → V2 K)
    (hne : ∀ k, SpecAngle (lam (k + 1)) (lam k) ≠ 0) : ∃ ps', randomiseTwistor c ps lam mu = .ok ps' := by
  rw [randomiseTwistor, twistLoop_ok c lam r l _ (List.nodup_finRange _) ps fun k _ => (h k).eq_ofSpinors,
    assign_finRange]
  obtain ⟨x, ex, -⟩ := twistXs_ok lam mu (List.finRange (n + 1)) fun k _ => hne k
  simp only [ex]
  refine twistMomLoop_returns c hc hi x _ _ fun k => ?_
  obtain ⟨v, vd, hv, -⟩ := (ofSpinors_isMassless c (lam k) (l k)).cons.mom.mom_some i hi
  rw [hv]; simp

/-- C79: two neighbours with parallel spinors are refused with ZeroDivisionError. -/
theorem C79_parallel_neighbours [NeZero (2 : K)] (c : Ctx K) (ps : Point K (n + 1)) (r l : Fin (n + 1) → V2 K) (h : Spin c ps r l)
    (lam mu : Fin (n + 1) → V2 K) (k : Fin (n + 1)) (hk : SpecAngle (lam (k + 1)) (lam k) = 0) :
    randomiseTwistor c ps lam mu = .error .zeroDivision := by
  rw [randomiseTwistor, twistLoop_ok c lam r l _ (List.nodup_finRange _) ps fun k _ => (h k).eq_ofSpinors,
    assign_finRange]
  simp only [twistXs_zero lam mu _ (List.mem_finRange k) hk]

/-! ### Random momenta -/

/-- The bispinor of an assigned four momentum is `v_μ σ^μ`. -/
theorem setMom_slash (c : Ctx K) {i : K} (hi : c.imag = some i) (p : Particle K) (v : V4 K) :
    SpecSlash i v (setMom c p v).st.r2 := by
  simp only [setMom, fromMom, hi]
  rw [(deriveSpinors_mom c _ _ _ _).1]
  exact specSlash_momdToR2 i (specLower_momFlip v)

/-- C80: whatever is drawn and whichever square root is taken, what `randomise_mpc` stores is massless, has the
first draw that is not excluded as its three momentum and so is never in the excluded direction; in the symmetric
convention no exception escapes if the field has the square root. -/
theorem C80_random_momentum (c : Ctx K) {i : K} (hi : c.imag = some i) (notPos : K → Prop) (p : Particle K)
    (draws : List (Fin 3 → K)) (o : Out K) (e : randomiseMpc c notPos p draws = some o) (ho : o.err ≠ some .valueError) :
    ∃ q ∈ draws, ∃ E : K, E * E = q 0 * q 0 + q 1 * q 1 + q 2 * q 2 ∧ ¬excludedDraw notPos q ∧
      o.st.mom = some ![E, q 0, q 1, q 2] ∧ Massless o.st ∧ (c.conv = .symmetric → o.err = none) := by
  classical
  unfold randomiseMpc at e
  rcases hf : draws.find? fun q => ¬excludedDraw notPos q with _ | q
  · rw [hf] at e; cases e
  rw [hf] at e
  have h1 := List.mem_of_find?_eq_some hf
  have h2 : ¬excludedDraw notPos q := by simpa using List.find?_some hf
  simp only at e
  rcases hs : c.sqrt (q 0 * q 0 + q 1 * q 1 + q 2 * q 2) with _ | E
  · rw [hs] at e; cases e; exact absurd rfl ho
  rw [hs] at e
  cases e
  have hE := c.sqrt_sq _ _ hs
  refine ⟨q, h1, E, hE, h2, setMom_mom c p _, ?_, fun hc => setMom_symmetric_ok c hc hi p _⟩
  obtain ⟨a, b, d, f⟩ := setMom_slash c hi p ![E, q 0, q 1, q 2]
  have hi2 := c.imag_sq i hi
  rw [Massless, a, b, d, f]
  change (E - q 2) * (E + q 2) - (-q 0 + i * q 1) * (-q 0 - i * q 1) = 0
  linear_combination hE + q 1 * q 1 * hi2

/-- C80: drawing goes on exactly as long as the draws are excluded. -/
theorem C80_redraws (c : Ctx K) (notPos : K → Prop) (p : Particle K) (draws : List (Fin 3 → K)) :
    randomiseMpc c notPos p draws = none ↔ ∀ q ∈ draws, excludedDraw notPos q := by
  classical
  unfold randomiseMpc
  rcases hf : draws.find? fun q => ¬excludedDraw notPos q with _ | q
  · simp only [true_iff]
    intro q hq
    simpa using List.find?_eq_none.mp hf q hq
  · have h2 : ¬excludedDraw notPos q := by simpa using List.find?_some hf
    have h1 := List.mem_of_find?_eq_some hf
    simp only
    rcases c.sqrt (q 0 * q 0 + q 1 * q 1 + q 2 * q 2) with _ | E
    · simp only [reduceCtorEq, false_iff]; exact fun h => h2 (h q h1)
    · simp only [reduceCtorEq, false_iff]; exact fun h => h2 (h q h1)

/-- C80 (finding): the excluded directions are not all the ones without spinors. A complex momentum such as
`(1, 1, i, -1)` passes the test and leaves a particle without spinors. -/
theorem C80_spinors_may_be_missing (c : Ctx K) (hc : c.conv = .symmetric) {i : K} (hi : c.imag = some i)
    (hs : c.sqrt 1 = some 1) (notPos : K → Prop) (p : Particle K) : ∃ o, randomiseMpc c notPos p [![1, i, -1]] = some o ∧
      o.err = none ∧ o.st.r_d = none ∧ o.st.l_d = none := by
  classical
  have hi2 := c.imag_sq i hi
  have hx : ¬excludedDraw notPos (![1, i, -1] : Fin 3 → K) := by rintro ⟨h, -⟩; simp at h
  refine ⟨setMom c p ![1, 1, i, -1], ?_, setMom_symmetric_ok c hc hi p _, ?_⟩
  · unfold randomiseMpc
    rw [List.find?_cons_of_pos (by simpa using hx)]
    have e : (![1, i, -1] : Fin 3 → K) 0 * (![1, i, -1] : Fin 3 → K) 0 + (![1, i, -1] : Fin 3 → K) 1 * (![1, i, -1] : Fin 3 → K) 1
        + (![1, i, -1] : Fin 3 → K) 2 * (![1, i, -1] : Fin 3 → K) 2 = 1 := by
      simp only [cons_val_zero, cons_val_one, cons_val_two]; simp [hi2]
    simp only [e, hs]
    rfl
  · have hz : (![1, 1, i, -1] : V4 K) 0 + (![1, 1, i, -1] : V4 K) 3 = 0 := by simp
    simp only [setMom, fromMom, hi, deriveSpinors, deriveR, hc, hz, c.small_zero, if_true, and_self]

/-! ### Concrete cases -/

/-- C79: five particles with nonzero angle brackets of neighbours. -/
example : ∃ ps', randomiseTwistor (f13 .symmetric) pt5 (fun k => (spin5 k).1) ![![1, 2], ![3, 4], ![5, 6], ![7, 8], ![9, 10]] = .ok ps' ∧
    Conserves ps' := by
  obtain ⟨ps', e⟩ := C79_returns (f13 .symmetric) rfl (i := 5) rfl pt5 (fun k => (spin5 k).1) (fun k => (spin5 k).2) pt5_massless
    (fun k => (spin5 k).1) ![![1, 2], ![3, 4], ![5, 6], ![7, 8], ![9, 10]] (by decide)
  exact ⟨ps', e, (C79_twistor _ _ _ (fun k => (spin5 k).1) (fun k => (spin5 k).2) pt5_massless _ _ e).1⟩

/-- C80: the second of two draws is taken. -/
example : ∃ o, randomiseMpc (f13 .symmetric) (fun z => z = 0) (blank : Particle F13) [![0, 0, 0], ![3, 4, 1]] = some o ∧
    Massless o.st := by
  have e : ∃ o, randomiseMpc (f13 .symmetric) (fun z => z = 0) (blank : Particle F13) [![0, 0, 0], ![3, 4, 1]] = some o := by
    rw [← Option.ne_none_iff_exists', Ne, C80_redraws]
    intro h
    exact absurd (h ![3, 4, 1] (by simp)).1 (by decide)
  obtain ⟨o, e⟩ := e
  refine ⟨o, e, ?_⟩
  obtain ⟨q, hq, E, hE, h1, h2, h3, -⟩ := C80_random_momentum (f13 .symmetric) (i := 5) rfl _ _ _ _ e (by
    intro ho
    classical
    unfold randomiseMpc at e
    rw [List.find?_cons_of_neg (by simp [excludedDraw]), List.find?_cons_of_pos (by simp [excludedDraw])] at e
    have hs : (f13 .symmetric).sqrt ((![3, 4, 1] : Fin 3 → F13) 0 * (![3, 4, 1] : Fin 3 → F13) 0
        + (![3, 4, 1] : Fin 3 → F13) 1 * (![3, 4, 1] : Fin 3 → F13) 1
        + (![3, 4, 1] : Fin 3 → F13) 2 * (![3, 4, 1] : Fin 3 → F13) 2) = some 0 := by decide
    simp only [hs] at e
    cases e
    rw [setMom_symmetric_ok (f13 .symmetric) rfl (i := 5) rfl] at ho
    cases ho)
  exact h3

end Lips

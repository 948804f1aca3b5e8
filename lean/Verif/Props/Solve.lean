import Verif.Model.Solve
import Verif.Props.FixMom

/-! Properties C68 and C69: what holds when a setter returns. -/

namespace Lips

variable {K Γ I : Type*} [Field K] [LinearOrder Γ] {n : ℕ}

/-- Momentum is conserved and every particle on shell, within the tolerance. -/
def SpecPoint (abs : K → Γ) (tol : Γ) (ps : Point K n) : Prop :=
  (∀ i j, abs (∑ k, (ps k).r2 i j) ≤ tol) ∧ ∀ k, abs (ps k).m2 ≤ tol

theorem checkPoint_spec {E : Env K Γ I n} {ps : Point K n} (h : checkPoint E ps = none) : SpecPoint E.abs E.tol ps := by
  unfold checkPoint at h
  rcases hm : momentumConservationCheck E.abs E.tol ps with e | b <;> rw [hm] at h
  · simp at h
  rcases hs : onshellRelationCheck E.abs E.tol ps with e | b' <;> rw [hs] at h
  · simp at h
  cases b <;> cases b' <;> simp at h
  refine ⟨(C49_momentum_conservation_check E.abs E.tol ps).1.mp hm, ?_⟩
  have hne : (List.ofFn fun i => (ps i).m2) ≠ [] := by
    intro h0
    unfold onshellRelationCheck at hs
    rw [h0] at hs
    simp [withinTol, pyMax] at hs
  have := (withinTol_iff E.abs E.tol _ hne).1.mp hs
  intro k
  exact this _ (by simp [List.mem_ofFn])

/-- A point that meets the specification passes the checks. -/
theorem checkPoint_none {E : Env K Γ I n} {ps : Point K n} (hn : n ≠ 0) (h : SpecPoint E.abs E.tol ps) :
    checkPoint E ps = none := by
  have hne : (List.ofFn fun i => (ps i).m2) ≠ [] := by simp [hn]
  have h1 := (C49_momentum_conservation_check E.abs E.tol ps).1.mpr h.1
  have h2 : onshellRelationCheck E.abs E.tol ps = .ok true := by
    refine (withinTol_iff E.abs E.tol _ hne).1.mpr ?_
    intro x hx
    obtain ⟨k, rfl⟩ := List.mem_ofFn.mp hx
    exact h.2 k
  simp [checkPoint, h1, h2]

/-- C68: if `_set` returns, the invariant has the requested value within the tolerance and, with
`fix_mom`, momentum is conserved and the particles are on shell. -/
theorem C68_set (E : Env K Γ I n) (inner : Solver K n Unit) (s : I) (v : K) (fix : Bool) (ps ps' : Point K n)
    (h : setChecked E inner s v fix ps = (.ok (), ps')) :
    (∃ x, E.compute ps' s = .ok x ∧ E.abs (x - v) ≤ E.tol) ∧ (fix = true → SpecPoint E.abs E.tol ps') := by
  unfold setChecked at h
  rcases hi : inner ps with ⟨_ | _, p⟩ <;> rw [hi] at h <;> simp only at h
  · simp at h
  rcases hc : E.compute p s with e | x <;> rw [hc] at h <;> simp only at h
  · simp at h
  rcases hk : (if fix = true then checkPoint E p else none) with _ | e <;> rw [hk] at h <;> simp only at h
  · split_ifs at h with ht
    · injection h with _ h2
      subst h2
      refine ⟨⟨x, hc, ht⟩, fun hf => ?_⟩
      rw [if_pos hf] at hk
      exact checkPoint_spec hk
    · simp at h
  · simp at h

/-- C68: if `_set_pair` returns, then the two invariants have the requested values up to a sign within the
tolerance, momentum is conserved and the particles on shell — for the two strings that were asked for, or
for the two that the inner method put in their place. -/
theorem C68_set_pair_partial (E : Env K Γ I n) (inner : Solver K n (PairResult I)) (s₁ : I) (v₁ : K) (s₂ : I) (v₂ : K)
    (ps ps' : Point K n) (h : setPairChecked E inner s₁ v₁ s₂ v₂ ps = (.ok (), ps')) :
    SpecPoint E.abs E.tol ps' ∧ ∃ t₁ t₂ x y, E.compute ps' t₁ = .ok x ∧ E.compute ps' t₂ = .ok y ∧
      (E.abs (x - v₁) ≤ E.tol ∨ E.abs (x + v₁) ≤ E.tol) ∧ (E.abs (y - v₂) ≤ E.tol ∨ E.abs (y + v₂) ≤ E.tol) ∧
      (((inner ps).1 = .ok .nothing ∧ t₁ = s₁ ∧ t₂ = s₂) ∨ (inner ps).1 = .ok (.other t₁ t₂)) := by
  have fin : ∀ t₁ t₂ p, setPairChecked.finish E v₁ v₂ t₁ t₂ p = (.ok (), ps') →
      SpecPoint E.abs E.tol ps' ∧ ∃ x y, E.compute ps' t₁ = .ok x ∧ E.compute ps' t₂ = .ok y ∧
      (E.abs (x - v₁) ≤ E.tol ∨ E.abs (x + v₁) ≤ E.tol) ∧ (E.abs (y - v₂) ≤ E.tol ∨ E.abs (y + v₂) ≤ E.tol) := by
    intro t₁ t₂ p h
    unfold setPairChecked.finish at h
    rcases hx : E.compute p t₁ with e | x <;> rw [hx] at h
    · simp at h
    rcases hy : E.compute p t₂ with e | y <;> rw [hy] at h
    · simp at h
    simp only at h
    rcases hk : checkPoint E p with _ | e <;> rw [hk] at h <;> simp only at h
    · split_ifs at h with ht
      · injection h with _ h2
        subst h2
        exact ⟨checkPoint_spec hk, x, y, hx, hy, min_le_iff.mp ht.1, min_le_iff.mp ht.2⟩
      · simp at h
    · simp at h
  unfold setPairChecked at h
  rcases hi : inner ps with ⟨e | r, p⟩ <;> rw [hi] at h
  · simp at h
  cases r with
  | nothing =>
    obtain ⟨a, x, y, b⟩ := fin _ _ _ h
    exact ⟨a, s₁, s₂, x, y, b.1, b.2.1, b.2.2.1, b.2.2.2, Or.inl ⟨rfl, rfl, rfl⟩⟩
  | notImplemented => simp at h
  | other t₁ t₂ =>
    obtain ⟨a, x, y, b⟩ := fin _ _ _ h
    exact ⟨a, t₁, t₂, x, y, b.1, b.2.1, b.2.2.1, b.2.2.2, Or.inr rfl⟩

/-- C68 fails for `_set_pair` when the inner method puts other strings in place of those asked for, as
`_set_pair_3B_and_Sijk` does on line 633: it returns normally whatever the value of the first string is. -/
theorem C68_set_pair_replaced (E : Env K Γ I n) (ps : Point K n) (hn : n ≠ 0) (hps : SpecPoint E.abs E.tol ps)
    (s₁ s₂ t₁ t₂ : I) (x y : K) (hx : E.compute ps t₁ = .ok x) (hy : E.compute ps t₂ = .ok y) (h0 : E.abs 0 ≤ E.tol) :
    setPairChecked E (fun p => (.ok (.other t₁ t₂), p)) s₁ x s₂ y ps = (.ok (), ps) := by
  have h1 : signDiff E.abs x x ≤ E.tol := by unfold signDiff; rw [sub_self]; exact min_le_of_left_le h0
  have h2 : signDiff E.abs y y ≤ E.tol := by unfold signDiff; rw [sub_self]; exact min_le_of_left_le h0
  simp [setPairChecked, setPairChecked.finish, hx, hy, checkPoint_none hn hps, h1, h2]

/-- What `variety` guarantees about one invariant, in each kind of field. -/
def SpecValue (E : Env K Γ I n) (k : FieldKind K) (ps : Point K n) (s : I) (v : K) (w : ℤ) : Prop :=
  ∃ x, E.compute ps s = .ok x ∧
    match k with
    | .char0 => E.abs (x - v) ≤ E.tol ∨ E.abs (x + v) ≤ E.tol
    | .finite => x = 0
    | .padic val => val x = w

theorem valuesOk_spec [DecidableEq K] {E : Env K Γ I n} {k : FieldKind K} {ps : Point K n} {req : List (I × K × ℤ)} :
    valuesOk E k ps req = .ok true ↔ ∀ q ∈ req, SpecValue E k ps q.1 q.2.1 q.2.2 := by
  induction req with
  | nil => simp [valuesOk]
  | cons q rest ih =>
    obtain ⟨s, v, w⟩ := q
    rw [List.forall_mem_cons, ← ih]
    rcases hx : E.compute ps s with e | x
    · simp [valuesOk, SpecValue, hx]
    rcases hr : valuesOk E k ps rest with e | b
    · simp [valuesOk, hx, hr]
    · cases k <;> simp [valuesOk, hr, valueOk, signDiff, SpecValue, hx]

theorem varietyFinish_ok [DecidableEq K] {E : Env K Γ I n} {k : FieldKind K} {req : List (I × K × ℤ)}
    {ps ps' : Point K n} (h : varietyFinish E k req ps = (.ok (), ps')) :
    ps' = ps ∧ SpecPoint E.abs E.tol ps' ∧ ∀ q ∈ req, SpecValue E k ps' q.1 q.2.1 q.2.2 := by
  unfold varietyFinish at h
  rcases hk : checkPoint E ps with _ | e <;> rw [hk] at h
  · rcases hv : valuesOk E k ps req with e | b <;> simp only [hv] at h
    · simp at h
    · cases b
      · simp at h
      · simp only [Prod.mk.injEq, true_and] at h
        subst h
        exact ⟨rfl, checkPoint_spec hk, valuesOk_spec.mp hv⟩
  · simp at h

/-- C68: if `variety` returns then, whatever the solvers did, momentum is conserved, the particles are on
shell and every invariant is as `SpecValue` says: in characteristic zero equal to the requested value up to
a sign within the tolerance, over the p-adics of the requested valuation, over a finite field zero. -/
theorem C68_variety_partial [DecidableEq K] (E : Env K Γ I n) (k : FieldKind K) (hard singular : Solver K n Unit)
    (allowed : Bool) (req : List (I × K × ℤ)) (ps ps' : Point K n)
    (h : variety E k hard singular allowed req ps = (.ok (), ps')) :
    SpecPoint E.abs E.tol ps' ∧ ∀ q ∈ req, SpecValue E k ps' q.1 q.2.1 q.2.2 := by
  unfold variety at h
  rcases hh : hard ps with ⟨e | _, p⟩ <;> rw [hh] at h <;> simp only at h
  · split_ifs at h with ha
    · rcases hs : singular (restore ps p) with ⟨e' | _, q⟩ <;> rw [hs] at h <;> simp only at h
      · simp at h
      · exact (varietyFinish_ok h).2
    · exact (varietyFinish_ok h).2
  · exact (varietyFinish_ok h).2

/-- C68 fails for `variety` over a finite field: the requested values are not looked at, and a point on which
the invariants vanish is accepted for every request. -/
theorem C68_variety_finite_ignores_values [DecidableEq K] (E : Env K Γ I n) (singular : Solver K n Unit)
    (allowed : Bool) (req : List (I × K × ℤ)) (ps : Point K n) (hn : n ≠ 0) (hps : SpecPoint E.abs E.tol ps)
    (hz : ∀ q ∈ req, E.compute ps q.1 = .ok 0) :
    variety E .finite (fun p => (.ok (), p)) singular allowed req ps = (.ok (), ps) := by
  have hv : valuesOk E .finite ps req = .ok true := valuesOk_spec.mpr fun q hq => ⟨0, hz q hq, rfl⟩
  simp [variety, varietyFinish, checkPoint_none hn hps, hv]

/-! ### C69 -/

omit [Field K] in
theorem restore_aux (backup : Point K n) (l : List (Fin n)) (cur : Point K n) (k : Fin n) :
    l.foldl (fun ps i => Function.update ps i (backup i)) cur k = if k ∈ l then backup k else cur k := by
  induction l generalizing cur with
  | nil => simp
  | cons i l ih =>
    rw [List.foldl_cons, ih]
    by_cases hk : k ∈ l
    · simp [hk]
    · by_cases hi : k = i
      · subst hi; simp [hk]
      · simp [hk, hi]

omit [Field K] in
/-- Writing the copies back gives the original particles, whatever the solver left. -/
theorem restore_eq (backup cur : Point K n) : restore backup cur = backup := by
  ext k : 1
  rw [restore, restore_aux, if_pos (List.mem_finRange k)]

/-- C69: when the hard-coded solver raises and the other solver is allowed, the result is that of the other
solver from the original particles, followed by the tests; what the hard-coded solver left does not matter. -/
theorem C69_fallback [DecidableEq K] (E : Env K Γ I n) (k : FieldKind K) (hard singular : Solver K n Unit)
    (req : List (I × K × ℤ)) (ps : Point K n) (e : Err) (he : (hard ps).1 = .error e) :
    variety E k hard singular true req ps =
      match singular ps with
      | (.ok _, ps₂) => varietyFinish E k req ps₂
      | (.error e, ps₂) => (.error e, ps₂) := by
  unfold variety
  rcases hh : hard ps with ⟨e' | _, p⟩
  · simp only [if_true, restore_eq]
    rcases singular ps with ⟨_ | _, q⟩ <;> rfl
  · rw [hh] at he; cases he

/-- C69 fails when the other solver is not allowed: for no invariant or more than two, the hard-coded solver
always raises, and `variety` returns normally on every point that passes the tests. -/
theorem C69_not_allowed_returns [DecidableEq K] (E : Env K Γ I n) (k : FieldKind K)
    (one : I → K → Solver K n Unit) (two : I → K → I → K → Solver K n Unit) (singular : Solver K n Unit)
    (req : List (I × K × ℤ)) (hlen : req.length ≠ 1 ∧ req.length ≠ 2) (ps : Point K n) (hn : n ≠ 0)
    (hps : SpecPoint E.abs E.tol ps) (hv : ∀ q ∈ req, SpecValue E k ps q.1 q.2.1 q.2.2) :
    (hardSolver one two req ps).1 = .error .notImplemented ∧
      variety E k (hardSolver one two req) singular false req ps = (.ok (), ps) := by
  have e : hardSolver one two req = fun ps => (.error .notImplemented, ps) := by
    match req, hlen with
    | [], _ => rfl
    | [q], h => exact absurd rfl h.1
    | [q, r], h => exact absurd rfl h.2
    | q :: r :: s :: t, _ => rfl
  rw [e]
  refine ⟨rfl, ?_⟩
  simp [variety, varietyFinish, checkPoint_none hn hps, valuesOk_spec.mpr hv]

/-- C69, what remains true when the other solver is not allowed: if the hard-coded solver raised and
`variety` returned all the same, the particles are those it left, and they pass the tests. -/
theorem C69_not_allowed_partial [DecidableEq K] (E : Env K Γ I n) (k : FieldKind K) (hard singular : Solver K n Unit)
    (req : List (I × K × ℤ)) (ps ps' : Point K n) (e : Err) (he : (hard ps).1 = .error e)
    (h : variety E k hard singular false req ps = (.ok (), ps')) :
    ps' = (hard ps).2 ∧ SpecPoint E.abs E.tol ps' ∧ ∀ q ∈ req, SpecValue E k ps' q.1 q.2.1 q.2.2 := by
  unfold variety at h
  rcases hh : hard ps with ⟨e' | _, p⟩
  · rw [hh] at h
    simp only [Bool.false_eq_true, if_false] at h
    exact varietyFinish_ok h
  · rw [hh] at he; cases he

end Lips

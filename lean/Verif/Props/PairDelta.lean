import Verif.Lemmas.PairDelta

/-!
Property C95: setting a two-bracket and a three-mass Gram determinant as a pair gives a massless, momentum
conserving point with both values, or raises the error of a missing square root, and moves four particles.
-/

namespace Lips

set_option linter.unusedSectionVars false

variable {K Γ : Type*} [Field K] [LinearOrder Γ] {n : ℕ}

/-- Every label is in exactly one corner. -/
def Partition (L : Corners n) : Prop := (L 0 ++ L 1 ++ L 2).Perm (List.finRange n)

theorem Partition.nodup {L : Corners n} (h : Partition L) : (L 0 ++ L 1 ++ L 2).Nodup := h.nodup_iff.mpr (List.nodup_finRange n)

theorem Partition.mem {L : Corners n} (h : Partition L) (k : Fin n) : ∃ i, k ∈ L i := by
  have := h.mem_iff.mpr (List.mem_finRange k)
  simp only [List.mem_append] at this
  rcases this with (h | h) | h <;> exact ⟨_, h⟩

theorem Partition.disj {L : Corners n} (h : Partition L) {i j : Fin 3} {k : Fin n} (hi : k ∈ L i) (hj : k ∈ L j) : i = j := by
  have nd := List.nodup_append.mp h.nodup
  have nd2 := List.nodup_append.mp nd.1
  have d01 : ∀ k, k ∈ L 0 → k ∈ L 1 → False := fun k a b => nd2.2.2 k a k b rfl
  have d2 : ∀ k, k ∈ L 0 ∨ k ∈ L 1 → k ∈ L 2 → False := fun k a b => nd.2.2 k (List.mem_append.mpr a) k b rfl
  fin_cases i <;> fin_cases j <;> first | rfl | exfalso
  · exact d01 k hi hj
  · exact d2 k (.inl hi) hj
  · exact d01 k hj hi
  · exact d2 k (.inr hi) hj
  · exact d2 k (.inl hj) hi
  · exact d2 k (.inr hj) hi

theorem Partition.rot {L : Corners n} (h : Partition L) (i : Fin 3) : Partition (rotCorners L i) := by
  fin_cases i
  · exact h
  · refine List.Perm.trans ?_ h
    show (L 1 ++ L 2 ++ L 0).Perm _
    rw [List.append_assoc (L 0)]
    exact List.perm_append_comm
  · refine List.Perm.trans ?_ h
    show (L 2 ++ L 0 ++ L 1).Perm _
    rw [List.append_assoc (L 2)]
    exact List.perm_append_comm

/-- The momenta of the corners add up to zero. -/
theorem Partition.sum {L : Corners n} (h : Partition L) {ps : Point K n} (hc : Conserves ps) : ∑ i, sumR2 ps (L i) = 0 := by
  have e := sumR2_perm ps h
  rw [sumR2_finRange, (conserves_iff ps).mp hc, sumR2_append, sumR2_append] at e
  rw [Fin.sum_univ_three]; exact e

/-- Δ does not depend on which corner is named first. -/
theorem computeDelta_rot [NeZero (2 : K)] {c : Ctx K} {ps : Point K n} (hps : ∀ k, Consistent c (ps k)) (hc : Conserves ps)
    {L : Corners n} (h : Partition L) (i : Fin 3) : computeDelta ps 1 (rotCorners L i) = computeDelta ps 1 L :=
  C25_permutation c ps hps 1 L (h.sum hc) (Equiv.addLeft i)

theorem lastCorner_eq {L : Corners n} {p : List (Fin n) → Bool} {i : Fin 3} (h : p (L i) = true) (o : ∀ j, j ≠ i → p (L j) = false) :
    lastCorner L p = some i := by
  fin_cases i
  · have h1 := o 1 (by decide); have h2 := o 2 (by decide); simp at h; simp [lastCorner, h, h1, h2]
  · have h2 := o 2 (by decide); simp at h; simp [lastCorner, h, h2]
  · simp at h; simp [lastCorner, h]

/-- The corner from which the corners are named: the one with both labels, else the one after the corner with none
of them. -/
def FirstFor (a b : Fin n) (L : Corners n) (i : Fin 3) : Prop :=
  a ∈ L i ∧ b ∈ L i ∨ (∀ j, ¬ (a ∈ L j ∧ b ∈ L j)) ∧ a ∉ L (i + 2) ∧ b ∉ L (i + 2)

/-- Such a corner exists and the method finds it: lines 344-358 never leave a name unbound. -/
theorem C95_first_corner (a b : Fin n) {L : Corners n} (hL : Partition L) :
    ∃ i, FirstFor a b L i ∧ order2D a b L = some (rotCorners L i) ∧ ∀ j, FirstFor a b L j → j = i := by
  by_cases hb : ∃ i, a ∈ L i ∧ b ∈ L i
  · obtain ⟨i, hi⟩ := hb
    refine ⟨i, .inl hi, ?_, ?_⟩
    · have e : lastCorner L (fun A => decide (a ∈ A ∧ b ∈ A)) = some i :=
        lastCorner_eq (by simp [hi]) fun j hj => by
          simp only [decide_eq_false_iff_not]; exact fun hh => hj (hL.disj hh.1 hi.1)
      simp only [order2D, e]
    · rintro j (hj | hj)
      · exact hL.disj hj.1 hi.1
      · exact absurd hi (hj.1 i)
  · have hno : ∀ i, ¬ (a ∈ L i ∧ b ∈ L i) := fun i hi => hb ⟨i, hi⟩
    obtain ⟨x, hx⟩ := hL.mem a
    obtain ⟨y, hy⟩ := hL.mem b
    have hxy : x ≠ y := fun e => hno x ⟨hx, e ▸ hy⟩
    have e1 : lastCorner L (fun A => decide (a ∈ A ∧ b ∈ A)) = none := by
      simp only [lastCorner, List.find?_eq_none, decide_eq_true_eq]
      exact fun i _ => hno i
    have third : ∃ i : Fin 3, i + 2 ≠ x ∧ i + 2 ≠ y ∧ ∀ j, j ≠ x → j ≠ y → j = i + 2 := by
      revert hxy; clear * -; revert x y; decide
    obtain ⟨i, h1, h2, h3⟩ := third
    have ha : a ∉ L (i + 2) := fun h => h1 (hL.disj h hx)
    have hb' : b ∉ L (i + 2) := fun h => h2 (hL.disj h hy)
    have e2 : lastCorner L (fun A => decide (a ∉ A ∧ b ∉ A)) = some (i + 2) :=
      lastCorner_eq (by simp [ha, hb']) fun j hj => by
        simp only [decide_eq_false_iff_not]
        rintro ⟨n1, n2⟩
        exact hj (h3 j (fun e => n1 (e ▸ hx)) (fun e => n2 (e ▸ hy)))
    refine ⟨i, .inr ⟨hno, ha, hb'⟩, ?_, ?_⟩
    · have e3 : i + 2 + 1 = i := by clear * -; revert i; decide
      simp only [order2D, e1, e2, e3]
    · rintro j (hj | hj)
      · exact absurd hj (hno j)
      · have := h3 (j + 2) (fun e => hj.2.1 (e ▸ hx)) (fun e => hj.2.2 (e ▸ hy))
        revert this; clear * -; revert i j; decide

/-- Setting a two-bracket and Δ as a pair. With `i` the corner named first, `k` its first label and `q`, `p` the last
two labels of the corner named last: unless a square root is missing, the point reached is massless and conserves
momentum, both invariants have the requested values, Δ in the original order of its corners, and no particle moves
but the second of the bracket and those three. -/
theorem C95_two_delta [NeZero (2 : K)] (c : Ctx K) (T : Tol K Γ) (hT : T.abs 0 ≤ T.tol) (ps : Point K n)
    (r l : Fin n → V2 K) (h : Spin c ps r l) (x : Bool) (a b : Fin n) (hab : a ≠ b) (L : Corners n) (hL : Partition L)
    (i : Fin 3) (hi : FirstFor a b L i) (k : Fin n) (rest C₀ : List (Fin n)) (p q : Fin n)
    (hA : L i = k :: rest) (hC : L (i + 2) = C₀ ++ [q, p]) (v w : K) (h1 : HeadOk x (r a) (l a))
    (h2 : ∀ qs r' l', setTwo c T x a b v ps = .ok qs → Spin c qs r' l' →
      DeltaGuard c qs r' l' (L i) (L (i + 1)) (L (i + 2)) k (if x then 2 else 1))
    (hd : SpecSquare (l p) (l q) ≠ 0) :
    (∃ D, c.sqrt D = none ∧ pair2D c T ps x a b v L w = .error .valueError) ∨
    ∃ ps', pair2D c T ps x a b v L w = .ok ps' ∧ GoodPoint c ps' ∧ twoVal x a b ps' = .ok v ∧
      computeDelta ps' 1 L = w ∧ ∀ j, j ≠ b → j ≠ k → j ≠ p → j ≠ q → ps' j = ps j := by
  obtain ⟨i', -, ho, hu⟩ := C95_first_corner a b hL
  obtain rfl := hu i hi
  obtain ⟨qs, r1, l1, e1, s1, v1, o1, -⟩ := setTwo_spec hT h hab v h1
  have hg := h2 qs r1 l1 e1 s1
  have pC : p ∈ L (i + 2) ∧ q ∈ L (i + 2) := by rw [hC]; simp
  have hbC : a ∉ L (i + 2) ∧ b ∉ L (i + 2) := by
    have hne : i ≠ i + 2 := by clear * -; revert i; decide
    rcases hi with hh | hh
    · exact ⟨fun m => hne (hL.disj hh.1 m), fun m => hne (hL.disj hh.2 m)⟩
    · exact hh.2
  have hbp : p ≠ b ∧ q ≠ b ∧ p ≠ a ∧ q ≠ a :=
    ⟨fun e => hbC.2 (e ▸ pC.1), fun e => hbC.2 (e ▸ pC.2), fun e => hbC.1 (e ▸ pC.1), fun e => hbC.1 (e ▸ pC.2)⟩
  have hd' : SpecSquare (l1 p) (l1 q) ≠ 0 := by
    rw [(o1 p hbp.1).2.2, (o1 q hbp.2.1).2.2]; exact hd
  have hk : (rotCorners L i 0)[((if x then 2 else 1) - 1) / 2]? = some k := by
    have e0 : rotCorners L i 0 = k :: rest := by simp [rotCorners, hA]
    rw [e0]; cases x <;> simp
  have run := setDelta_fixed hT s1 (L := rotCorners L i) (C₀ := C₀) (p := p) (q := q) (k := k)
    (mode := if x then 2 else 1) hC hk (hL.rot i).nodup w (by simpa [rotCorners] using hg) hd'
  unfold pair2D
  rw [ho]
  simp only [e1, andThen]
  rcases run with ⟨D, d1, d2⟩ | ⟨ps1, r2, l2, ps', r3, e2, s2, s3, hc, hv, o2, m2, o3⟩
  · exact .inl ⟨D, d1, d2⟩
  refine .inr ⟨ps', e2, s3.good hc, ?_, ?_, fun j hb hk hp hq => ?_⟩
  · rw [← v1]
    cases x
    · have : l2 = l1 := by simpa using m2
      subst this
      rw [twoVal_eq s1, twoVal_eq s3]; simp
    · have : r2 = r1 := by simpa using m2
      subst this
      rw [twoVal_eq s1, twoVal_eq s3]; simp [(o3 a hbp.2.2.1.symm hbp.2.2.2.symm).2, (o3 b hbp.1.symm hbp.2.1.symm).2]
  · rw [← hv, computeDelta_rot (fun k => (s3 k).cons) hc hL]
  · rw [(o3 j hp hq).1, (o2 j hk).1, (o1 j hb).1]

/-- Setting a two-bracket and Δ as a pair (finding): when the corner named first has a single label, the method raises. -/
theorem C95_single_label_partial [NeZero (2 : K)] (c : Ctx K) (T : Tol K Γ) (hT : T.abs 0 ≤ T.tol) (ps : Point K n)
    (r l : Fin n → V2 K) (h : Spin c ps r l) (x : Bool) (a b : Fin n) (hab : a ≠ b) (L : Corners n) (hL : Partition L)
    (i : Fin 3) (hi : FirstFor a b L i) (k : Fin n) (hA : L i = [k]) (v w : K) (h1 : HeadOk x (r a) (l a)) :
    pair2D c T ps x a b v L w = .error .attributeError := by
  obtain ⟨i', -, ho, hu⟩ := C95_first_corner a b hL
  obtain rfl := hu i hi
  obtain ⟨qs, r1, l1, e1, -⟩ := setTwo_spec hT h hab v h1
  have e0 : rotCorners L i 0 = [k] := by simp [rotCorners, hA]
  unfold pair2D
  rw [ho]
  simp only [e1, andThen, setDelta, e0]
  rw [C65_single_label_corner_partial _ _ _ _ _ _ _ _ (by cases x <;> simp)]

end Lips

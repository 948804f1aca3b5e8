import Verif.Props.SetPairThree

/-! Properties C70 and C71: how `_set_pair_inner` rewrites its arguments, and when it stops. -/

namespace Lips

variable {K V : Type*} [Field K] {n : ℕ}

/-- The value of an invariant, for the kinds that are rewritten. -/
def Inv.value (ps : Point K n) : Inv n → Option (Except Err K)
  | .two true a b => some (angle (ps a) (ps b))
  | .two false a b => some (square (ps a) (ps b))
  | .three t => some (t.str.value ps)
  | .mandel ls => some (.ok (computeS ps ls))
  | _ => none

/-- The two invariants are the same, up to a sign, on all points of massless particles that conserve momentum. -/
def SameUpToSign (K : Type*) [Field K] (x y : Inv n) : Prop :=
  x = y ∨ ∀ (c : Ctx K) (ps : Point K n) (r l : Fin n → V2 K), (∀ k, IsMassless c (ps k) (r k) (l k)) → Conserves ps →
    ∃ z : K, x.value ps = some (.ok z) ∧ (y.value ps = some (.ok z) ∨ y.value ps = some (.ok (-z)))

theorem SameUpToSign.refl (x : Inv n) : SameUpToSign K x x := Or.inl rfl

theorem SameUpToSign.trans {x y z : Inv n} (h1 : SameUpToSign K x y) (h2 : SameUpToSign K y z) : SameUpToSign K x z := by
  rcases h1 with rfl | h1
  · exact h2
  rcases h2 with rfl | h2
  · exact Or.inr h1
  right
  intro c ps r l hs hc
  obtain ⟨a, ha, hb⟩ := h1 c ps r l hs hc
  obtain ⟨b, hb', hz⟩ := h2 c ps r l hs hc
  refine ⟨a, ha, ?_⟩
  rcases hb with hb | hb <;> rw [hb] at hb' <;> simp only [Option.some.injEq, Except.ok.injEq] at hb' <;> subst hb'
  · exact hz
  · rw [neg_neg] at hz; exact hz.symm

theorem same_mandel {A : List (Fin n)} (hA : A.Nodup) : SameUpToSign K (.mandel A) (.mandel (freeLabels A)) := by
  right
  intro c ps r l _ hc
  exact ⟨computeS ps A, rfl, Or.inl (by simp only [Inv.value]; rw [C16_complement ps hc (perm_free hA)])⟩

/-- The sum over the free labels. -/
theorem sum_free (L : List (Fin n)) (f : Fin n → K) : ((freeLabels L).map f).sum = ∑ k, if k ∈ L then 0 else f k := by
  have nd : (freeLabels L).Nodup := (List.nodup_finRange n).filter _
  rw [← List.sum_toFinset _ nd]
  have e : (freeLabels L).toFinset = Finset.univ.filter (· ∉ L) := by ext k; simp [mem_freeLabels]
  rw [e, Finset.sum_filter]
  exact Finset.sum_congr rfl fun k _ => by by_cases h : k ∈ L <;> simp [h]

theorem T3.flip_value {c : Ctx K} {ps : Point K n} {r l : Fin n → V2 K} (h : Spin c ps r l) (hc : Conserves ps) (t : T3 n)
    (hm : t.m.Nodup) {z : K} (hz : t.str.value ps = .ok z) : t.flip.str.value ps = .ok (-z) := by
  have e1 := C19_complement_in_slot c ps (fun k => (h k).cons) hc (h t.s).toHasSpinors (h t.e).toHasSpinors [] []
    (perm_free hm) (openOf t.ang) (closeOf !t.ang) (v := z) hz
  have e2 : ({ t with m := freeLabels t.m } : T3 n).str.value ps = .ok (-z) := e1
  rw [T3.value_eq h] at e2 ⊢
  rw [← e2]
  congr 1
  have et : ∀ m, ({ t with m := m } : T3 n).term r l = t.term r l := fun _ => rfl
  show ((freeLabels t.labels).map (({ t with m := freeLabels t.labels } : T3 n).term r l)).sum =
    ((freeLabels t.m).map (({ t with m := freeLabels t.m } : T3 n).term r l)).sum
  rw [et, et, sum_free, sum_free]
  refine Finset.sum_congr rfl fun k _ => ?_
  by_cases h1 : k ∈ t.m
  · rw [if_pos h1, if_pos (by simp [mem_t3, h1])]
  · rw [if_neg h1]
    by_cases h2 : k ∈ t.labels
    · rw [if_pos h2]
      rcases mem_t3.mp h2 with e | e | e
      · rw [e, T3.term_s]
      · exact absurd e h1
      · rw [e, T3.term_e]
    · rw [if_neg h2]
      rfl

theorem same_three {t : T3 n} (hm : t.m.Nodup) : SameUpToSign K (.three t) (.three t.flip) := by
  right
  intro c ps r l hs hc
  refine ⟨_, congrArg some (T3.value_eq (c := c) hs t), Or.inr ?_⟩
  exact congrArg some (T3.flip_value (c := c) hs hc t hm (T3.value_eq (c := c) hs t))

/-! ### C70 -/

/-- No label occurs twice in a Mandelstam string or in the middle of a three-bracket. -/
def Inv.Proper : Inv n → Prop
  | .three t => t.m.Nodup
  | .mandel ls => ls.Nodup
  | _ => True

theorem nodup_free (L : List (Fin n)) : (freeLabels L).Nodup := (List.nodup_finRange n).filter _

/-- The union as it is built in `_set_pair_Sijk_and_Sijk`. -/
theorem free_union (A B : List (Fin n)) :
    freeLabels (A.filter (· ∈ B) ++ A.filter (· ∉ B) ++ B.filter (· ∉ A)) = freeLabels (A ++ B) := by
  apply freeLabels_congr
  intro k
  simp only [List.mem_append, List.mem_filter, decide_eq_true_eq]
  tauto

/-- `_set_pair_Sijk_and_Sijk` sets: there are two free labels. -/
theorem stepSS_set {A B : List (Fin n)} {p q : Fin n} (h : FirstTwoFree (A ++ B) p q) (v w : V) :
    stepSS A v B w = .set (A.filter (· ∉ B) ++ A.filter (· ∈ B)) v (B.filter (· ∉ A) ++ A.filter (· ∈ B)) w p q := by
  obtain ⟨rest, e⟩ := freeLabels_firstTwo h
  unfold stepSS
  simp only [free_union, e]

theorem stepSS_again {A B : List (Fin n)} (h : (freeLabels (A ++ B)).length < 2) (v w : V) :
    stepSS A v B w = if B.length < A.length then .again B v (freeLabels A) w else .again A v (freeLabels B) w := by
  unfold stepSS
  simp only [free_union]
  split
  · rename_i p q rest e
    rw [e] at h; simp at h
  · rfl

/-- C70: with two free labels both strings are set, each to its own value: the labels are those asked for, in
another order. -/
theorem C70_set (A B : List (Fin n)) (hA : A.Nodup) (hB : B.Nodup) (v w : V) (p q : Fin n)
    (h : FirstTwoFree (A ++ B) p q) :
    ∃ A' B', stepSS A v B w = .set A' v B' w p q ∧ A'.Perm A ∧ B'.Perm B := by
  refine ⟨_, _, stepSS_set h v w, ?_, ?_⟩
  · refine (List.perm_ext_iff_of_nodup ?_ hA).mpr ?_
    · refine List.nodup_append.mpr ⟨hA.filter _, hA.filter _, ?_⟩
      rintro a ha b hb rfl
      simp at ha hb; exact ha.2 hb.2
    · intro k; simp only [List.mem_append, List.mem_filter, decide_eq_true_eq]; tauto
  · refine (List.perm_ext_iff_of_nodup ?_ hB).mpr ?_
    · refine List.nodup_append.mpr ⟨hB.filter _, hA.filter _, ?_⟩
      rintro a ha b hb rfl
      simp at ha hb; exact ha.2 hb.1
    · intro k; simp only [List.mem_append, List.mem_filter, decide_eq_true_eq]; tauto

/-- C70 fails: with fewer than two free labels and the first string the longer one, the strings change places
and the values do not. The second string is to be set to the first value, and the first (rewritten through
momentum conservation) to the second value. -/
theorem C70_exchanged (A B : List (Fin n)) (v w : V) (hf : (freeLabels (A ++ B)).length < 2) (hl : B.length < A.length) :
    stepSS A v B w = .again B v (freeLabels A) w := by
  rw [stepSS_again hf, if_pos hl]

/-- C70 fails, an instance: at six points `s_123` to `x` and `s_45` to `y` sets `s_45` to `x` and `s_456`,
which is `s_123`, to `y`. -/
theorem C70_exchanged_six (x y : V) :
    stepSS (n := 6) [0, 1, 2] x [3, 4] y = .again [3, 4] x [3, 4, 5] y ∧
    stepSS (n := 6) [3, 4] x [3, 4, 5] y = .set [3, 4] x [5, 3, 4] y 0 1 := by
  constructor
  · rw [stepSS_again (by decide)]; rfl
  · rw [stepSS_set (p := 0) (q := 1) ⟨by decide, by decide, by decide, by decide⟩]; rfl

/-- The two cases in which values are exchanged: the one above, and a three-bracket all of whose labels are in
the Mandelstam string (line 632). -/
def Exchanges (x y : Inv n) : Prop :=
  match x, y with
  | .mandel A, .mandel B => (freeLabels (A ++ B)).length < 2 ∧ B.length < A.length
  | .three t, .mandel ls => t.s ∈ ls ∧ t.e ∈ ls ∧ ∀ k ∈ t.m, k ∈ ls
  | _, _ => False

/-- Each request is kept, in this or in the other order, with its value and up to a rewriting through momentum
conservation. -/
def KeepsRequests (K : Type*) [Field K] (x y x' y' : Req n V) : Prop :=
  (SameUpToSign K x.1 x'.1 ∧ x'.2 = x.2 ∧ SameUpToSign K y.1 y'.1 ∧ y'.2 = y.2) ∨
  (SameUpToSign K x.1 y'.1 ∧ y'.2 = x.2 ∧ SameUpToSign K y.1 x'.1 ∧ x'.2 = y.2)

theorem KeepsRequests.trans {x y x' y' x'' y'' : Req n V} (h1 : KeepsRequests K x y x' y')
    (h2 : KeepsRequests K x' y' x'' y'') : KeepsRequests K x y x'' y'' := by
  rcases h1 with ⟨a, b, c, d⟩ | ⟨a, b, c, d⟩ <;> rcases h2 with ⟨e, f, g, h⟩ | ⟨e, f, g, h⟩
  · exact Or.inl ⟨a.trans e, f.trans b, c.trans g, h.trans d⟩
  · exact Or.inr ⟨a.trans e, f.trans b, c.trans g, h.trans d⟩
  · exact Or.inr ⟨a.trans g, h.trans b, c.trans e, f.trans d⟩
  · exact Or.inl ⟨a.trans g, h.trans b, c.trans e, f.trans d⟩

theorem norm_cases (P : T3 n → T3 n → Prop) (t u : T3 n) (h1 : P t u) (h2 : P t.flip u) (h3 : P t u.flip)
    (h4 : P t.flip u.flip) :
    P (norm33a t u).1 (norm33a t u).2 ∧ P (norm33b t u).1 (norm33b t u).2 := by
  constructor
  · unfold norm33a; split_ifs <;> assumption
  · unfold norm33b; split_ifs <;> assumption

/-- Both rewritings keep the three-brackets. -/
theorem norm33_same {t u : T3 n} (ht : t.m.Nodup) (hu : u.m.Nodup) :
    (SameUpToSign K (.three t) (.three (norm33 t u).1) ∧ (norm33 t u).1.m.Nodup) ∧
    (SameUpToSign K (.three u) (.three (norm33 t u).2) ∧ (norm33 t u).2.m.Nodup) := by
  have fl : ∀ x y : T3 n, SameUpToSign K (.three x) (.three y) ∧ y.m.Nodup →
      SameUpToSign K (.three x) (.three y.flip) ∧ y.flip.m.Nodup :=
    fun x y h => ⟨h.1.trans (same_three h.2), nodup_free _⟩
  have step : ∀ t' u' : T3 n, (SameUpToSign K (.three t) (.three t') ∧ t'.m.Nodup) →
      (SameUpToSign K (.three u) (.three u') ∧ u'.m.Nodup) → _ := fun t' u' h1 h2 =>
    norm_cases (fun a b => (SameUpToSign K (.three t) (.three a) ∧ a.m.Nodup) ∧
      (SameUpToSign K (.three u) (.three b) ∧ b.m.Nodup)) t' u' ⟨h1, h2⟩ ⟨fl _ _ h1, h2⟩ ⟨h1, fl _ _ h2⟩
      ⟨fl _ _ h1, fl _ _ h2⟩
  have a := (step t u ⟨SameUpToSign.refl _, ht⟩ ⟨SameUpToSign.refl _, hu⟩).1
  exact (step _ _ a.1 a.2).2

/-- C70 for all pairs: a call of `_set_pair_inner` made again asks for the same two invariants with the same
values, except in the two cases of `Exchanges`. -/
theorem C70_step_partial (x y x' y' : Req n V) (hx : x.1.Proper) (hy : y.1.Proper) (he : ¬Exchanges x.1 y.1)
    (h : pairStep (x, y) = some (x', y')) :
    KeepsRequests K x y x' y' ∧ x'.1.Proper ∧ y'.1.Proper := by
  have swap : ∀ (a b : Req n V), a.1.Proper → b.1.Proper → some (b, a) = some (x', y') →
      KeepsRequests K a b x' y' ∧ x'.1.Proper ∧ y'.1.Proper := by
    intro a b ha hb h
    simp only [Option.some.injEq, Prod.mk.injEq] at h
    obtain ⟨rfl, rfl⟩ := h
    exact ⟨Or.inr ⟨SameUpToSign.refl _, rfl, SameUpToSign.refl _, rfl⟩, hb, ha⟩
  unfold pairStep at h
  split at h
  · cases h
  obtain ⟨xi, v⟩ := x
  obtain ⟨yi, w⟩ := y
  unfold dispatchPair at h
  rcases xi with ⟨ang, a, b⟩ | t | t | A | d | _ <;> rcases yi with ⟨ang', a', b'⟩ | u | u | B | d' | _ <;>
    simp only [reduceCtorEq] at h <;> try exact swap _ _ hx hy h
  · unfold step2S at h
    split_ifs at h with hc
    simp only [Option.some.injEq, Prod.mk.injEq] at h
    obtain ⟨rfl, rfl⟩ := h
    exact ⟨Or.inl ⟨SameUpToSign.refl _, rfl, same_mandel hy, rfl⟩, trivial, nodup_free _⟩
  · unfold step33 at h
    split_ifs at h with hc
    simp only [Option.some.injEq, Prod.mk.injEq] at h
    obtain ⟨rfl, rfl⟩ := h
    obtain ⟨⟨h1, h2⟩, h3, h4⟩ := norm33_same (K := K) hx hy
    exact ⟨Or.inr ⟨h1, rfl, h3, rfl⟩, h4, h2⟩
  · unfold step3S at h
    split_ifs at h with h1 h2 h3
    · exact absurd h2 he
    · simp only [Option.some.injEq, Prod.mk.injEq] at h
      obtain ⟨rfl, rfl⟩ := h
      exact ⟨Or.inr ⟨SameUpToSign.refl _, rfl, same_mandel hy, rfl⟩, nodup_free _, hx⟩
    · simp only [Option.some.injEq, Prod.mk.injEq] at h
      obtain ⟨rfl, rfl⟩ := h
      exact ⟨Or.inr ⟨same_three hx, rfl, SameUpToSign.refl _, rfl⟩, hy, nodup_free _⟩
  · rcases lt_or_ge (freeLabels (A ++ B)).length 2 with hf | hf
    · have hl : ¬B.length < A.length := fun hl => he ⟨hf, hl⟩
      simp only [stepSS_again hf, if_neg hl, Option.some.injEq, Prod.mk.injEq] at h
      obtain ⟨rfl, rfl⟩ := h
      exact ⟨Or.inl ⟨SameUpToSign.refl _, rfl, same_mandel hy, rfl⟩, hx, nodup_free _⟩
    · obtain ⟨p, q, rest, e⟩ : ∃ p q rest, freeLabels (A ++ B) = p :: q :: rest := by
        match hL : freeLabels (A ++ B), hf with
        | p :: q :: rest, _ => exact ⟨p, q, rest, rfl⟩
      simp only [stepSS_set (firstTwo_of_freeLabels e), reduceCtorEq] at h

end Lips

import Verif.Props.SetPairFix
import Verif.Model.Pair33

/-! Property C86: restoring momentum conservation after setting two three-brackets keeps both. -/

namespace Lips

variable {K : Type*} [Field K] {n : ℕ}

theorem T3.wf (t : T3 n) : t.str.Wf := by
  rcases t with ⟨_ | _, s, m, e⟩
  · right; simp [T3.str, openOf, closeOf]
  · left; simp [T3.str, openOf, closeOf]

/-- One term of a three-bracket. -/
def T3.term (r l : Fin n → V2 K) (t : T3 n) (k : Fin n) : K :=
  if t.ang then SpecAngle (r t.s) (r k) * SpecSquare (l k) (l t.e) else SpecSquare (l t.s) (l k) * SpecAngle (r k) (r t.e)

theorem T3.value_eq {c : Ctx K} {ps : Point K n} {r l : Fin n → V2 K} (h : Spin c ps r l) (t : T3 n) :
    t.str.value ps = .ok (t.m.map (t.term r l)).sum := by
  have e := (C17_expansion c ps r l t.s t.e [plusOf t.m] (h t.s).toHasSpinors (h t.e).toHasSpinors (fun k _ => h k)).2 rfl
  have key : ∀ b, specString (fun x y => SpecAngle (r x) (r y)) (fun x y => SpecSquare (l x) (l y)) b t.s [plusOf t.m] t.e =
      (t.m.map fun k => if b then SpecAngle (r t.s) (r k) * SpecSquare (l k) (l t.e)
        else SpecSquare (l t.s) (l k) * SpecAngle (r k) (r t.e)).sum := by
    intro b
    cases b <;> simp [specString, plusOf, Function.comp_def, sgn]
  unfold Str.value T3.str
  rcases t with ⟨_ | _, s, m, e'⟩
  · simp only [openOf, closeOf, Bool.not_false, if_true, List.map_cons, List.map_nil]
    rw [if_neg (by decide)]
    rw [e.2, key]; rfl
  · simp only [openOf, closeOf, Bool.not_true, if_true, List.map_cons, List.map_nil]
    rw [if_neg (by decide)]
    rw [e.1, key]; rfl

theorem specAngle_self (a : V2 K) : SpecAngle a a = 0 := by unfold SpecAngle; ring
theorem specSquare_self (a : V2 K) : SpecSquare a a = 0 := by unfold SpecSquare; ring

theorem T3.term_s (r l : Fin n → V2 K) (t : T3 n) : t.term r l t.s = 0 := by
  unfold T3.term; split <;> simp [specAngle_self, specSquare_self]
theorem T3.term_e (r l : Fin n → V2 K) (t : T3 n) : t.term r l t.e = 0 := by
  unfold T3.term; split <;> simp [specAngle_self, specSquare_self]

/-- The three-bracket does not depend on the spinors that may change. A label of the middle that is one of the
particles is allowed at an end next to which its term vanishes. -/
structure T3Safe (t : T3 n) (p q : Fin n) (ax : Bool) : Prop where
  mid : ∀ k ∈ t.m, (k ≠ p ∧ k ≠ q) ∨ k = t.s ∨ k = t.e
  head : t.ang = ax ∨ (t.s ≠ p ∧ t.s ≠ q)
  tail : (!t.ang) = ax ∨ (t.e ≠ p ∧ t.e ≠ q)

theorem T3Safe.value {c : Ctx K} {ps ps' : Point K n} {r l r' l' : Fin n → V2 K} {p q : Fin n} {ax : Bool}
    (h : OnlySpinors c ps ps' r l r' l' p q ax) {t : T3 n} (hs : T3Safe t p q ax) :
    t.str.value ps' = t.str.value ps := by
  rw [T3.value_eq (c := c) h.after, T3.value_eq (c := c) h.before]
  congr 2
  refine List.map_congr_left fun k hk => ?_
  rcases hs.mid k hk with e | e | e
  · have ek := h.same e.1 e.2
    have hd : (if t.ang then r' t.s else l' t.s) = if t.ang then r t.s else l t.s := by
      have kk := h.kept
      rcases hs.head with e | e
      · subst e
        split <;> rename_i e <;> simp [e] at kk <;> rw [kk]
      · rw [(h.same e.1 e.2).1, (h.same e.1 e.2).2]
    have tl : (if t.ang then l' t.e else r' t.e) = if t.ang then l t.e else r t.e := by
      have kk := h.kept
      rcases hs.tail with e | e
      · subst e
        split <;> rename_i e <;> simp [e] at kk <;> rw [kk]
      · rw [(h.same e.1 e.2).1, (h.same e.1 e.2).2]
    unfold T3.term
    rw [ek.1, ek.2]
    split <;> rename_i e <;> simp only [e, if_true, Bool.false_eq_true, if_false] at hd tl <;> rw [hd, tl]
  · rw [e, T3.term_s, T3.term_s]
  · rw [e, T3.term_e, T3.term_e]

theorem mem_t3 {t : T3 n} {k : Fin n} : k ∈ t.labels ↔ k = t.s ∨ k ∈ t.m ∨ k = t.e := by simp [T3.labels]

/-- A label that occurs once, at the start. -/
theorem count_start {t : T3 n} (h : t.labels.count t.s = 1) : t.s ∉ t.m ∧ t.s ≠ t.e := by
  unfold T3.labels at h
  rw [List.count_cons_self, Nat.add_eq_right, List.count_eq_zero] at h
  simpa [not_or] using h

theorem count_end {t : T3 n} (h : t.labels.count t.e = 1) : t.e ∉ t.m ∧ t.e ≠ t.s := by
  unfold T3.labels at h
  rw [List.count_cons, List.count_append, List.count_singleton_self] at h
  have h1 : t.m.count t.e = 0 := by omega
  refine ⟨List.count_eq_zero.mp h1, fun e => ?_⟩
  rw [h1, e] at h
  simp at h

theorem fix33_safe {t u : T3 n} {p q : Fin n} {ax : Bool} (h : fix33 t u = some (p, q, ax)) :
    p ≠ q ∧ T3Safe t p q ax ∧ T3Safe u p q ax := by
  unfold fix33 at h
  split at h
  · rename_i f g rest hf
    simp only [Option.some.injEq, Prod.mk.injEq] at h
    obtain ⟨rfl, rfl, rfl⟩ := h
    have ft := firstTwo_of_freeLabels hf
    have ne : ∀ k, k ∈ t.labels ++ u.labels → k ≠ f ∧ k ≠ g := fun k hk => firstTwoFree_ne ft hk
    exact ⟨ft.2.2.1.ne,
      ⟨fun k hk => .inl (ne k (by simp [mem_t3, hk])), .inr (ne _ (by simp [mem_t3])), .inr (ne _ (by simp [mem_t3]))⟩,
      ⟨fun k hk => .inl (ne k (by simp [mem_t3, hk])), .inr (ne _ (by simp [mem_t3])), .inr (ne _ (by simp [mem_t3]))⟩⟩
  · rename_i f hf
    have ne : ∀ k, k ∈ t.labels ++ u.labels → k ≠ f := fun k hk => free_ne hf hk
    have ts := ne t.s (by simp [mem_t3])
    have te := ne t.e (by simp [mem_t3])
    have us := ne u.s (by simp [mem_t3])
    have ue := ne u.e (by simp [mem_t3])
    have tm : ∀ k ∈ t.m, k ≠ f := fun k hk => ne k (by simp [mem_t3, hk])
    have um : ∀ k ∈ u.m, k ≠ f := fun k hk => ne k (by simp [mem_t3, hk])
    have own : ∀ (w : T3 n) (x : Fin n), (∀ k ∈ w.m, k ≠ f) → (x = w.s ∨ x = w.e) →
        ∀ k ∈ w.m, (k ≠ f ∧ k ≠ x) ∨ k = w.s ∨ k = w.e := by
      intro w x hw hx k hk
      by_cases e : k = x
      · right; rw [e]; exact hx
      · left; exact ⟨hw k hk, e⟩
    have oth : ∀ (w : T3 n) (x : Fin n), (∀ k ∈ w.m, k ≠ f) → x ∉ w.m →
        ∀ k ∈ w.m, (k ≠ f ∧ k ≠ x) ∨ k = w.s ∨ k = w.e := by
      intro w x hw hx k hk
      left; exact ⟨hw k hk, fun e => hx (e ▸ hk)⟩
    split_ifs at h with h1 h2 h3 h4 h5 h6 h7 h8 <;> simp only [Option.some.injEq, Prod.mk.injEq] at h <;>
      obtain ⟨rfl, rfl, rfl⟩ := h
    · obtain ⟨a1, a2, a3, a4, a5⟩ := h1
      exact ⟨ue.symm, ⟨oth _ _ tm a3, .inr ⟨ts, fun e => a4 e.symm⟩, .inl (by rw [a1]; rfl)⟩,
        ⟨own _ _ um (.inr rfl), .inr ⟨us, fun e => a5 e.symm⟩, .inl (by rw [a2]; rfl)⟩⟩
    · obtain ⟨a1, a2, a3, a4, a5⟩ := h2
      exact ⟨us.symm, ⟨oth _ _ tm a3, .inl a1, .inr ⟨te, fun e => a4 e.symm⟩⟩,
        ⟨own _ _ um (.inl rfl), .inl a2, .inr ⟨ue, fun e => a5 e.symm⟩⟩⟩
    · obtain ⟨a1, a2, a3, a4, a5⟩ := h3
      exact ⟨te.symm, ⟨own _ _ tm (.inr rfl), .inr ⟨ts, fun e => a5 e.symm⟩, .inl (by rw [a1]; rfl)⟩,
        ⟨oth _ _ um a3, .inr ⟨us, fun e => a4 e.symm⟩, .inl (by rw [a2]; rfl)⟩⟩
    · obtain ⟨a1, a2, a3, a4, a5⟩ := h4
      exact ⟨ts.symm, ⟨own _ _ tm (.inl rfl), .inl a1, .inr ⟨te, fun e => a5 e.symm⟩⟩,
        ⟨oth _ _ um a3, .inl a2, .inr ⟨ue, fun e => a4 e.symm⟩⟩⟩
    · obtain ⟨a1, a2, a3, a4, a5⟩ := h5
      exact ⟨ue.symm, ⟨oth _ _ tm a3, .inr ⟨ts, fun e => a4 e.symm⟩, .inl (by rw [a1]; rfl)⟩,
        ⟨own _ _ um (.inr rfl), .inr ⟨us, fun e => a5 e.symm⟩, .inl (by rw [a2]; rfl)⟩⟩
    · obtain ⟨a1, a2, a3, a4, a5⟩ := h6
      exact ⟨us.symm, ⟨oth _ _ tm a3, .inl a1, .inr ⟨te, fun e => a4 e.symm⟩⟩,
        ⟨own _ _ um (.inl rfl), .inl a2, .inr ⟨ue, fun e => a5 e.symm⟩⟩⟩
    · obtain ⟨a1, a2, a3, a4, a5⟩ := h7
      exact ⟨te.symm, ⟨own _ _ tm (.inr rfl), .inr ⟨ts, fun e => a5 e.symm⟩, .inl (by rw [a1]; rfl)⟩,
        ⟨oth _ _ um a3, .inr ⟨us, fun e => a4 e.symm⟩, .inl (by rw [a2]; rfl)⟩⟩
    · obtain ⟨a1, a2, a3, a4, a5⟩ := h8
      exact ⟨ts.symm, ⟨own _ _ tm (.inl rfl), .inl a1, .inr ⟨te, fun e => a5 e.symm⟩⟩,
        ⟨oth _ _ um a3, .inl a2, .inr ⟨ue, fun e => a4 e.symm⟩⟩⟩
  · have mk : ∀ (w : T3 n) (x y : Fin n), x ∉ w.m → y ∉ w.m → ∀ k ∈ w.m, (k ≠ x ∧ k ≠ y) ∨ k = w.s ∨ k = w.e :=
      fun w x y hx hy k hk => .inl ⟨fun e => hx (e ▸ hk), fun e => hy (e ▸ hk)⟩
    split_ifs at h with h1 h2 h3 h4 <;> simp only [Option.some.injEq, Prod.mk.injEq] at h <;>
      obtain ⟨rfl, rfl, rfl⟩ := h
    · obtain ⟨a1, a2, a3, a4, a5, a6⟩ := h1
      have b5 := count_start a5; have b6 := count_start a6
      rw [mem_t3, not_or, not_or] at a3 a4
      exact ⟨a3.1, ⟨mk _ _ _ b5.1 a4.2.1, .inl a1, .inr ⟨b5.2.symm, fun e => a4.2.2 e.symm⟩⟩,
        ⟨mk _ _ _ a3.2.1 b6.1, .inl a2, .inr ⟨fun e => a3.2.2 e.symm, b6.2.symm⟩⟩⟩
    · obtain ⟨a1, a2, a3, a4, a5, a6⟩ := h2
      have b5 := count_start a5; have b6 := count_start a6
      rw [mem_t3, not_or, not_or] at a3 a4
      exact ⟨a3.1, ⟨mk _ _ _ b5.1 a4.2.1, .inl a1, .inr ⟨b5.2.symm, fun e => a4.2.2 e.symm⟩⟩,
        ⟨mk _ _ _ a3.2.1 b6.1, .inl a2, .inr ⟨fun e => a3.2.2 e.symm, b6.2.symm⟩⟩⟩
    · obtain ⟨a1, a2, a3, a4, a5, a6⟩ := h3
      have b5 := count_start a5; have b6 := count_end a6
      rw [mem_t3, not_or, not_or] at a3 a4
      exact ⟨a3.2.2, ⟨mk _ _ _ b5.1 a4.2.1, .inl a1, .inr ⟨b5.2.symm, fun e => a4.2.2 e.symm⟩⟩,
        ⟨mk _ _ _ a3.2.1 b6.1, .inr ⟨fun e => a3.1 e.symm, b6.2.symm⟩, .inl (by rw [a2]; rfl)⟩⟩
    · obtain ⟨a1, a2, a3, a4, a5, a6⟩ := h4
      have b5 := count_end a5; have b6 := count_start a6
      rw [mem_t3, not_or, not_or] at a3 a4
      exact ⟨a3.1, ⟨mk _ _ _ b5.1 a4.2.1, .inr ⟨b5.2.symm, fun e => a4.1 e.symm⟩, .inl (by rw [a1]; rfl)⟩,
        ⟨mk _ _ _ a3.2.1 b6.1, .inl a2, .inr ⟨fun e => a3.2.2 e.symm, b6.2.symm⟩⟩⟩

/-- C86: the pair and the axis chosen after setting two three-brackets never change a spinor on which one of
them depends. -/
theorem C86_safe (c : Ctx K) (t u : T3 n) (p q : Fin n) (ax : Bool) (h : fix33 t u = some (p, q, ax))
    (ps ps' : Point K n) (r l r' l' : Fin n → V2 K) (ho : OnlySpinors c ps ps' r l r' l' p q ax) :
    p ≠ q ∧ t.str.value ps' = t.str.value ps ∧ u.str.value ps' = u.str.value ps := by
  obtain ⟨h1, h2, h3⟩ := fix33_safe h
  exact ⟨h1, h2.value ho, h3.value ho⟩

/-- C86: restoring momentum conservation with that pair and axis succeeds unless the bracket of the two
particles vanishes, and keeps both three-brackets. -/
theorem C86_fix [NeZero (2 : K)] (c : Ctx K) (t u : T3 n) (p q : Fin n) (ax : Bool) (h : fix33 t u = some (p, q, ax))
    (ps : Point K n) (r l : Fin n → V2 K) (hs : ∀ k, IsMassless c (ps k) (r k) (l k))
    (hd : if ax then SpecAngle (r p) (r q) ≠ 0 else SpecSquare (l p) (l q) ≠ 0) :
    ∃ ps', fixPair c ps p q ax = .ok ps' ∧ Conserves ps' ∧ t.str.value ps' = t.str.value ps ∧
      u.str.value ps' = u.str.value ps := by
  obtain ⟨h1, h2, h3⟩ := fix33_safe h
  obtain ⟨ps', r', l', e, hc, ho⟩ := fixPair_only c ps r l hs h1 ax hd
  exact ⟨ps', e, hc, h2.value ho, h3.value ho⟩

end Lips

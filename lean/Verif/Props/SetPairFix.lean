import Verif.Model.SetPair
import Verif.Props.SetString

/-! Property C72: restoring momentum conservation with the particles that `_can_fix_mom_cons` names keeps the
two invariants. -/

namespace Lips

variable {K : Type*} [Field K] {n : ℕ}

/-- `ps'` differs from `ps` only in the angle spinors (`axis2 = false`) or only in the square spinors
(`axis2 = true`) of the particles `p` and `q`. -/
structure OnlySpinors (c : Ctx K) (ps ps' : Point K n) (r l r' l' : Fin n → V2 K) (p q : Fin n) (axis2 : Bool) : Prop where
  before : ∀ k, IsMassless c (ps k) (r k) (l k)
  after : ∀ k, IsMassless c (ps' k) (r' k) (l' k)
  rest : ∀ k, k ≠ p → k ≠ q → ps' k = ps k
  kept : if axis2 then r' = r else l' = l

theorem OnlySpinors.same {c : Ctx K} {ps ps' : Point K n} {r l r' l' : Fin n → V2 K} {p q : Fin n} {ax : Bool}
    (h : OnlySpinors c ps ps' r l r' l' p q ax) {k : Fin n} (h1 : k ≠ p) (h2 : k ≠ q) : r' k = r k ∧ l' k = l k := by
  have a := h.after k
  rw [h.rest k h1 h2] at a
  exact ⟨Option.some.inj (a.r_d.symm.trans (h.before k).r_d), Option.some.inj (a.l_d.symm.trans (h.before k).l_d)⟩

/-- The string does not depend on the spinors that may change: neither particle is in a slot, and an end that
is one of the two is a spinor of the other kind. -/
structure StrSafe (t : Str n) (p q : Fin n) (ax : Bool) : Prop where
  mid : ∀ k ∈ t.ms.flatten, k ≠ p ∧ k ≠ q
  head : (t.first = '⟨' ↔ ax = true) ∨ (t.s ≠ p ∧ t.s ≠ q)
  tail : (t.last = '⟩' ↔ ax = true) ∨ (t.e ≠ p ∧ t.e ≠ q)

/-- The same for a two-bracket. -/
def TwoSafe (ang : Bool) (a b p q : Fin n) (ax : Bool) : Prop := ang = ax ∨ ((a ≠ p ∧ a ≠ q) ∧ b ≠ p ∧ b ≠ q)

theorem StrSafe.value {c : Ctx K} {ps ps' : Point K n} {r l r' l' : Fin n → V2 K} {p q : Fin n} {ax : Bool}
    (h : OnlySpinors c ps ps' r l r' l' p q ax) {t : Str n} (w : t.Wf) (hs : StrSafe t p q ax) :
    t.value ps' = t.value ps := by
  rw [Str.value_eq (c := c) h.after w, Str.value_eq (c := c) h.before w]
  have e1 : headSp r' l' t = headSp r l t := by
    unfold headSp
    have k := h.kept
    rcases hs.head with e | e
    · cases ax
      · rw [if_neg (by simp [e]), if_neg (by simp [e])]; simp at k; rw [k]
      · rw [if_pos (by simp [e]), if_pos (by simp [e])]; simp at k; rw [k]
    · rw [(h.same e.1 e.2).1, (h.same e.1 e.2).2]
  have e2 : tailSp r' l' t = tailSp r l t := by
    unfold tailSp
    have k := h.kept
    rcases hs.tail with e | e
    · cases ax
      · rw [if_neg (by simp [e]), if_neg (by simp [e])]; simp at k; rw [k]
      · rw [if_pos (by simp [e]), if_pos (by simp [e])]; simp at k; rw [k]
    · rw [(h.same e.1 e.2).1, (h.same e.1 e.2).2]
  rw [e1, e2, chain_congr' (ps := ps) (ps' := ps')]
  rintro k ⟨s, hk, b, hb⟩
  obtain ⟨m, hm, rfl⟩ := List.mem_map.mp hk
  have : k ∈ t.ms.flatten := by
    obtain ⟨x, hx, e⟩ := List.mem_map.mp hb
    injection e with _ e
    subst e
    exact List.mem_flatten.mpr ⟨m, hm, hx⟩
  exact h.rest k (hs.mid k this).1 (hs.mid k this).2

theorem TwoSafe.value {c : Ctx K} {ps ps' : Point K n} {r l r' l' : Fin n → V2 K} {p q : Fin n} {ax : Bool}
    (h : OnlySpinors c ps ps' r l r' l' p q ax) {ang : Bool} {a b : Fin n} (hs : TwoSafe ang a b p q ax) :
    (ang = true → angle (ps' a) (ps' b) = angle (ps a) (ps b)) ∧
    (ang = false → square (ps' a) (ps' b) = square (ps a) (ps b)) := by
  rcases hs with e | ⟨e1, e2⟩
  · subst e
    have k := h.kept
    refine ⟨fun e => ?_, fun e => ?_⟩ <;> subst e <;> simp at k <;> subst k
    · simp [angle, (h.after a).r_u, (h.after b).r_d, (h.before a).r_u, (h.before b).r_d]
    · simp [square, (h.after a).l_d, (h.after b).l_u, (h.before a).l_d, (h.before b).l_u]
  · rw [h.rest a e1.1 e1.2, h.rest b e2.1 e2.2]
    exact ⟨fun _ => rfl, fun _ => rfl⟩

theorem openOf_angle (ang : Bool) : openOf ang = '⟨' ↔ ang = true := by cases ang <;> decide
theorem closeOf_angle (ang : Bool) : closeOf ang = '⟩' ↔ ang = true := by cases ang <;> decide

/-- In a well-formed string with an even number of slots both ends are of the same kind. -/
theorem Str.Wf.even {t : Str n} (w : t.Wf) (h : t.ms.length % 2 = 0) : t.first = '⟨' ↔ t.last = '⟩' := by
  rcases w with ⟨a, b⟩ | ⟨a, b⟩ <;> rw [if_pos h] at b <;> rw [a, b] <;> decide

theorem free_ne {used : List (Fin n)} {f : Fin n} {rest : List (Fin n)} (h : freeLabels used = f :: rest) {k : Fin n}
    (hk : k ∈ used) : k ≠ f := by
  rintro rfl
  exact (mem_freeLabels used k).mp (by rw [h]; simp) hk

theorem mem_str {t : Str n} {k : Fin n} : k ∈ t.labels ↔ k = t.s ∨ k ∈ t.ms.flatten ∨ k = t.e := by
  simp [Str.labels]

/-- The pair of `_can_fix_mom_cons` is safe for both strings. -/
theorem canFix_safe {ang : Bool} {a b : Fin n} {t : Str n} (w : t.Wf) {p q : Fin n} {ax : Bool}
    (h : canFix ang a b t = some (p, q, ax)) : p ≠ q ∧ TwoSafe ang a b p q ax ∧ StrSafe t p q ax := by
  unfold canFix at h
  split at h
  · rename_i f g rest hf
    simp only [Option.some.injEq, Prod.mk.injEq] at h
    obtain ⟨rfl, rfl, rfl⟩ := h
    have ft := firstTwo_of_freeLabels hf
    have ne : ∀ k, k ∈ [a, b] ++ t.labels → k ≠ f ∧ k ≠ g := fun k hk => firstTwoFree_ne ft hk
    exact ⟨ft.2.2.1.ne, Or.inr ⟨ne a (by simp), ne b (by simp)⟩,
      ⟨fun k hk => ne k (by simp [mem_str, hk]), Or.inr (ne _ (by simp [mem_str])), Or.inr (ne _ (by simp [mem_str]))⟩⟩
  · rename_i f hf
    have ne : ∀ k, k ∈ [a, b] ++ t.labels → k ≠ f := fun k hk => free_ne hf hk
    have na := ne a (by simp)
    have nb := ne b (by simp)
    have ns := ne t.s (by simp [mem_str])
    have nE := ne t.e (by simp [mem_str])
    have nm : ∀ k ∈ t.ms.flatten, k ≠ f := fun k hk => ne k (by simp [mem_str, hk])
    split_ifs at h with h1 h2 h3 h4 <;> simp only [Option.some.injEq, Prod.mk.injEq] at h <;> obtain ⟨rfl, rfl, rfl⟩ := h
    · obtain ⟨c1, c2, c3⟩ := h3
      refine ⟨ns.symm, ?_, ⟨fun k hk => ⟨nm k hk, ?_⟩, Or.inl (by simp), ?_⟩⟩
      · rcases c1 with c1 | c1
        · simp only [List.mem_cons, List.not_mem_nil, or_false, not_or] at c1
          exact Or.inr ⟨⟨na, fun e => c1.1 e.symm⟩, nb, fun e => c1.2 e.symm⟩
        · left; rw [← c1]; cases ang <;> decide
      · rintro rfl; exact c3 hk
      · rcases c2 with c2 | c2
        · exact Or.inr ⟨nE, fun e => c2 e.symm⟩
        · left; rw [decide_eq_true_iff]; exact (w.even c2).symm
    · obtain ⟨c1, c2, c3⟩ := h4
      refine ⟨nE.symm, ?_, ⟨fun k hk => ⟨nm k hk, ?_⟩, ?_, Or.inl (by simp)⟩⟩
      · rcases c1 with c1 | c1
        · simp only [List.mem_cons, List.not_mem_nil, or_false, not_or] at c1
          exact Or.inr ⟨⟨na, fun e => c1.1 e.symm⟩, nb, fun e => c1.2 e.symm⟩
        · left; rw [← c1]; cases ang <;> decide
      · rintro rfl; exact c3 hk
      · rcases c2 with c2 | c2
        · exact Or.inr ⟨ns, c2⟩
        · left; rw [decide_eq_true_iff]; exact w.even c2
    · rw [mem_str, not_or, not_or] at h2
      refine ⟨nb.symm, Or.inl (by cases ang <;> decide), ⟨fun k hk => ⟨nm k hk, ?_⟩, Or.inr ⟨ns, ?_⟩, Or.inr ⟨nE, ?_⟩⟩⟩
      · rintro rfl; exact h2.2.1 hk
      · exact fun e => h2.1 e.symm
      · exact fun e => h2.2.2 e.symm
    · rw [mem_str, not_or, not_or] at h1
      refine ⟨na.symm, Or.inl (by cases ang <;> decide), ⟨fun k hk => ⟨nm k hk, ?_⟩, Or.inr ⟨ns, ?_⟩, Or.inr ⟨nE, ?_⟩⟩⟩
      · rintro rfl; exact h1.2.1 hk
      · exact fun e => h1.1 e.symm
      · exact fun e => h1.2.2 e.symm
  · split_ifs at h with h0 h1 h2 h3 h4 h5 <;> simp only [Option.some.injEq, Prod.mk.injEq] at h <;> obtain ⟨rfl, rfl, rfl⟩ := h
    · obtain ⟨c1, c2, c3, c4, c5⟩ := h1
      rw [mem_str, not_or, not_or] at c1
      refine ⟨c1.1, Or.inl (by cases ang <;> decide), ⟨fun k hk => ⟨?_, ?_⟩, Or.inl (by rw [← c3]; simp), ?_⟩⟩
      · rintro rfl; exact c1.2.1 hk
      · rintro rfl; exact c5 hk
      · rcases c4 with c4 | c4
        · exact Or.inr ⟨fun e => c1.2.2 e.symm, fun e => c4 e.symm⟩
        · left; rw [decide_eq_true_iff, c3]; exact (w.even c4).symm
    · obtain ⟨c1, c2, c3, c4, c5⟩ := h2
      rw [mem_str, not_or, not_or] at c1
      refine ⟨c1.1, Or.inl (by cases ang <;> decide), ⟨fun k hk => ⟨?_, ?_⟩, Or.inl (by rw [← c3]; simp), ?_⟩⟩
      · rintro rfl; exact c1.2.1 hk
      · rintro rfl; exact c5 hk
      · rcases c4 with c4 | c4
        · exact Or.inr ⟨fun e => c1.2.2 e.symm, fun e => c4 e.symm⟩
        · left; rw [decide_eq_true_iff, c3]; exact (w.even c4).symm
    · obtain ⟨c1, c2, c3, c4, c5⟩ := h3
      rw [mem_str, not_or, not_or] at c1
      refine ⟨c1.2.2, Or.inl (by cases ang <;> decide), ⟨fun k hk => ⟨?_, ?_⟩, ?_, Or.inl (by rw [← c3]; simp)⟩⟩
      · rintro rfl; exact c1.2.1 hk
      · rintro rfl; exact c5 hk
      · rcases c4 with c4 | c4
        · exact Or.inr ⟨fun e => c1.1 e.symm, fun e => c4 e.symm⟩
        · left; rw [decide_eq_true_iff, c3]; exact w.even c4
    · obtain ⟨c1, c2, c3, c4, c5⟩ := h4
      rw [mem_str, not_or, not_or] at c1
      refine ⟨c1.2.2, Or.inl (by cases ang <;> decide), ⟨fun k hk => ⟨?_, ?_⟩, ?_, Or.inl (by rw [← c3]; simp)⟩⟩
      · rintro rfl; exact c1.2.1 hk
      · rintro rfl; exact c5 hk
      · rcases c4 with c4 | c4
        · exact Or.inr ⟨fun e => c1.1 e.symm, fun e => c4 e.symm⟩
        · left; rw [decide_eq_true_iff, c3]; exact w.even c4
    · obtain ⟨⟨c1, c2⟩, c3, ⟨c4, c5⟩, c6⟩ := h5
      refine ⟨c3, ?_, ⟨fun k hk => ⟨?_, ?_⟩, Or.inl (by simp), Or.inl ?_⟩⟩
      · rcases c1 with c1 | c1
        · rcases c4 with c4 | c4
          · simp only [List.mem_cons, List.not_mem_nil, or_false, not_or] at c1 c4
            exact Or.inr ⟨⟨fun e => c1.1 e.symm, fun e => c4.1 e.symm⟩, fun e => c1.2 e.symm, fun e => c4.2 e.symm⟩
          · left
            have := closeOf_angle ang
            rw [c4, ← w.even c6] at this
            cases ang <;> simp_all
        · left; rw [← c1]; cases ang <;> decide
      · rintro rfl; exact c2 hk
      · rintro rfl; exact c5 hk
      · rw [decide_eq_true_iff]; exact (w.even c6).symm

/-- C72: the pair and the axis of `_can_fix_mom_cons` never change a spinor on which one of the two invariants
depends: whatever happens to the spinors of the one kind of the two particles, both keep their values. -/
theorem C72_safe (c : Ctx K) (ang : Bool) (a b : Fin n) (t : Str n) (w : t.Wf) (p q : Fin n) (ax : Bool)
    (h : canFix ang a b t = some (p, q, ax)) (ps ps' : Point K n) (r l r' l' : Fin n → V2 K)
    (ho : OnlySpinors c ps ps' r l r' l' p q ax) :
    p ≠ q ∧ t.value ps' = t.value ps ∧
    (ang = true → angle (ps' a) (ps' b) = angle (ps a) (ps b)) ∧
    (ang = false → square (ps' a) (ps' b) = square (ps a) (ps b)) := by
  obtain ⟨h1, h2, h3⟩ := canFix_safe w h
  exact ⟨h1, h3.value ho w, h2.value ho⟩

/-- The call that restores momentum conservation, line 274. -/
noncomputable def fixPair (c : Ctx K) (ps : Point K n) (p q : Fin n) (ax : Bool) : Except Err (Point K n) :=
  if ax then fixAxis2 c ps p q else fixAxis1 c ps p q

theorem fixPair_only [NeZero (2 : K)] (c : Ctx K) (ps : Point K n) (r l : Fin n → V2 K)
    (hs : ∀ k, IsMassless c (ps k) (r k) (l k)) {p q : Fin n} (hpq : p ≠ q) (ax : Bool)
    (hd : if ax then SpecAngle (r p) (r q) ≠ 0 else SpecSquare (l p) (l q) ≠ 0) :
    ∃ ps' r' l', fixPair c ps p q ax = .ok ps' ∧ Conserves ps' ∧ OnlySpinors c ps ps' r l r' l' p q ax := by
  cases ax
  · simp only [Bool.false_eq_true, if_false] at hd
    obtain ⟨ps', r', e, hc, sp, ho⟩ := fixAxis1_spin (ps := ps) (r := r) (l := l) hs hpq hd
    exact ⟨ps', r', l, by simpa [fixPair] using e, hc, hs, sp, fun k h1 h2 => (ho k h1 h2).1, by simp⟩
  · simp only [if_true] at hd
    obtain ⟨ps', l', e, hc, sp, ho⟩ := fixAxis2_spin (ps := ps) (r := r) (l := l) hs hpq hd
    exact ⟨ps', r, l', by simpa [fixPair] using e, hc, hs, sp, fun k h1 h2 => (ho k h1 h2).1, by simp⟩

/-- C72: restoring momentum conservation with that pair and axis succeeds unless the bracket of the two
particles vanishes, and keeps both invariants. -/
theorem C72_fix [NeZero (2 : K)] (c : Ctx K) (ang : Bool) (a b : Fin n) (t : Str n) (w : t.Wf) (p q : Fin n) (ax : Bool)
    (h : canFix ang a b t = some (p, q, ax)) (ps : Point K n) (r l : Fin n → V2 K)
    (hs : ∀ k, IsMassless c (ps k) (r k) (l k))
    (hd : if ax then SpecAngle (r p) (r q) ≠ 0 else SpecSquare (l p) (l q) ≠ 0) :
    ∃ ps', fixPair c ps p q ax = .ok ps' ∧ Conserves ps' ∧ t.value ps' = t.value ps ∧
      (ang = true → angle (ps' a) (ps' b) = angle (ps a) (ps b)) ∧
      (ang = false → square (ps' a) (ps' b) = square (ps a) (ps b)) := by
  obtain ⟨h1, h2, h3⟩ := canFix_safe w h
  obtain ⟨ps', r', l', e, hc, ho⟩ := fixPair_only c ps r l hs h1 ax hd
  exact ⟨ps', e, hc, h3.value ho w, h2.value ho⟩

end Lips

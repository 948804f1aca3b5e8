import Verif.Lemmas.Pair2N

/-! Property C98: setting a two-bracket and a spinor string as a pair. -/

namespace Lips

open Matrix

set_option linter.unusedSectionVars false

variable {K Γ : Type*} [Field K] [LinearOrder Γ] {n : ℕ}

/-- The strings agree up to one sign at every point of massless particles that conserves momentum. -/
def SameStr (K : Type*) [Field K] (t u : Str n) : Prop :=
  ∃ σ : K, (σ = 1 ∨ σ = -1) ∧ ∀ (c : Ctx K) (ps : Point K n), GoodPoint c ps → ∀ x, t.value ps = .ok x → u.value ps = .ok (σ * x)

theorem SameStr.refl (t : Str n) : SameStr K t t := ⟨1, Or.inl rfl, fun _ _ _ x hx => by rw [one_mul]; exact hx⟩

theorem SameStr.trans {t u v : Str n} (h1 : SameStr K t u) (h2 : SameStr K u v) : SameStr K t v := by
  obtain ⟨σ, hσ, f⟩ := h1
  obtain ⟨τ, hτ, g⟩ := h2
  refine ⟨τ * σ, ?_, fun c ps hg x hx => ?_⟩
  · rcases hσ with rfl | rfl <;> rcases hτ with rfl | rfl <;> simp
  · rw [mul_assoc]; exact g c ps hg _ (f c ps hg x hx)

theorem Str.value_ok {c : Ctx K} {ps : Point K n} (h : GoodPoint c ps) {t : Str n} (w : t.Wf) : ∃ x, t.value ps = .ok x := by
  obtain ⟨-, r, l, hs⟩ := h
  exact ⟨_, Str.value_eq (c := c) hs w⟩

theorem sameStr_reverse {t : Str n} (w : t.Wf) : SameStr K t t.reverse := by
  refine ⟨if t.ms.length % 2 = 0 then -1 else 1, by split <;> simp, fun c ps hg x hx => ?_⟩
  obtain ⟨y, hy⟩ := Str.value_ok hg (Str.reverse_wf w)
  obtain ⟨-, r, l, hs⟩ := hg
  have := Str.reverse_value (c := c) hs w hy
  rw [hx] at this
  injection this with this
  rw [hy, this]
  split <;> simp

theorem Str.Wf.set {t : Str n} (w : t.Wf) (i : ℕ) (m : List (Fin n)) : ({ t with ms := t.ms.set i m } : Str n).Wf := by
  unfold Str.Wf at w ⊢
  simpa using w

theorem swapSlot_wf {t : Str n} (w : t.Wf) (i : ℕ) : (t.swapSlot i).Wf := w.set _ _

/-- A string with one slot is a three-bracket. -/
theorem str_of_one {t : Str n} (w : t.Wf) {m : List (Fin n)} (h : t.ms = [m]) :
    t = (⟨decide (t.first = '⟨'), t.s, m, t.e⟩ : T3 n).str := by
  obtain ⟨f, s, ms, e, g⟩ := t
  simp only at h
  subst h
  rcases w with ⟨w1, w2⟩ | ⟨w1, w2⟩ <;> simp at w1 w2 <;> subst w1 <;> subst w2 <;> simp [T3.str, openOf, closeOf]

/-- A slot replaced by the labels that remain: minus the string. -/
theorem swapSlot_value {c : Ctx K} {ps : Point K n} {r l : Fin n → V2 K} (h : Spin c ps r l) (hc : Conserves ps)
    {t : Str n} (w : t.Wf) {i : ℕ} (hi : i < t.ms.length) (hnd : ∀ m ∈ t.ms, m.Nodup) {x : K} (hx : t.value ps = .ok x) :
    (t.swapSlot i).value ps = .ok (-x) := by
  have hgd := getD_lt hi
  by_cases h1 : i = 0 ∧ i = t.ms.length - 1
  · obtain ⟨m, hm⟩ : ∃ m, t.ms = [m] := List.length_eq_one_iff.mp (by omega)
    have e := str_of_one w hm
    obtain ⟨rfl, -⟩ := h1
    have e2 : t.swapSlot 0 = (⟨decide (t.first = '⟨'), t.s, m, t.e⟩ : T3 n).flip.str := by
      conv_lhs => rw [e]
      simp only [Str.swapSlot, T3.str, List.length_singleton, Nat.sub_self, and_self, if_true, T3.flip, List.set_cons_zero,
        List.getD_cons_zero]
      congr 2
      refine freeLabels_congr fun k => ?_
      simp only [T3.labels, List.mem_append, List.mem_cons, List.not_mem_nil, or_false]
      tauto
    rw [e2]
    rw [e] at hx
    exact T3.flip_value h hc _ (hnd m (by rw [hm]; simp)) hx
  · have hsp : t.ms = t.ms.take i ++ t.ms[i] :: t.ms.drop (i + 1) := by rw [List.getElem_cons_drop, List.take_append_drop]
    have hset : ∀ alt, t.ms.set i alt = t.ms.take i ++ alt :: t.ms.drop (i + 1) :=
      fun alt => List.set_eq_take_append_cons_drop.trans (if_pos hi)
    have hx' : computeNB ps t.first t.s ((t.ms.take i ++ t.ms[i] :: t.ms.drop (i + 1)).map plusOf) t.e t.last = .ok x := by
      rw [← hsp]; exact hx
    have key := flip_value_core h hc t.s t.e t.first t.last w.chars.1 w.chars.2 (t.ms.take i) (t.ms.drop (i + 1))
      (m := t.ms[i]) (hnd _ (List.getElem_mem hi))
      (alt := if i = 0 then freeLabels (t.ms[i] ++ [t.s]) else
        if i = t.ms.length - 1 then freeLabels (t.ms[i] ++ [t.e]) else freeLabels t.ms[i])
      (by
        by_cases h0 : i = 0
        · right; left; rw [if_pos h0]; exact ⟨by rw [h0]; rfl, rfl⟩
        · rw [if_neg h0]
          by_cases h1 : i = t.ms.length - 1
          · right; right; rw [if_pos h1]; exact ⟨List.drop_eq_nil_of_le (by omega), rfl⟩
          · left; rw [if_neg h1]) hx'
    unfold Str.value Str.swapSlot
    simp only [if_neg h1, hset, hgd]
    exact key

theorem sameStr_swap {t : Str n} (w : t.Wf) {i : ℕ} (hi : i < t.ms.length) (hnd : ∀ m ∈ t.ms, m.Nodup) :
    SameStr K t (t.swapSlot i) := by
  refine ⟨-1, Or.inr rfl, fun c ps hg x hx => ?_⟩
  obtain ⟨hc, r, l, hs⟩ := hg
  rw [neg_one_mul]
  exact swapSlot_value (c := c) hs hc w hi hnd hx

/-! ### The search for a way to restore momentum conservation -/

theorem findSwap_spec {ang : Bool} {a b : Fin n} {t u : Str n} {is : List ℕ} {cur : Str n}
    (h : findSwap ang a b t is cur = .ok u) :
    (u = cur ∧ ∀ i ∈ is, canFix ang a b (t.swapSlot i) = none) ∨
      ∃ i ∈ is, u = t.swapSlot i ∧ (canFix ang a b u).isSome = true := by
  induction is generalizing cur with
  | nil => simp only [findSwap, Except.ok.injEq] at h; exact Or.inl ⟨h.symm, by simp⟩
  | cons i is ih =>
    simp only [findSwap] at h
    split_ifs at h with h0 h1
    · rcases ih h with ⟨e, -⟩ | ⟨j, hj, e, h2⟩
      · exact Or.inr ⟨i, by simp, e, by rw [e]; exact h1⟩
      · exact Or.inr ⟨j, by simp [hj], e, h2⟩
    · rcases ih h with ⟨e, h2⟩ | ⟨j, hj, e, h2⟩
      · refine Or.inl ⟨e, fun j hj => ?_⟩
        rcases List.mem_cons.mp hj with rfl | hj
        · exact Option.not_isSome_iff_eq_none.mp h1
        · exact h2 j hj
      · exact Or.inr ⟨j, by simp [hj], e, h2⟩

/-- There is a way to restore momentum conservation, for the string or with one slot rewritten. -/
def Fixable (ang : Bool) (a b : Fin n) (t : Str n) : Prop :=
  (canFix ang a b t).isSome = true ∨ ∃ i < t.ms.length, (canFix ang a b (t.swapSlot i)).isSome = true

theorem fixable_spec {ang : Bool} {a b : Fin n} {t u : Str n} (h : fixable ang a b t = .ok u) :
    (u = t ∨ ∃ i < t.ms.length, u = t.swapSlot i) ∧ (Fixable ang a b t → (canFix ang a b u).isSome = true) := by
  unfold fixable at h
  split_ifs at h with h0
  · injection h with h; subst h
    exact ⟨Or.inl rfl, fun _ => h0⟩
  · rcases findSwap_spec h with ⟨rfl, h1⟩ | ⟨i, hi, rfl, h1⟩
    · refine ⟨Or.inl rfl, ?_⟩
      rintro (h2 | ⟨i, hi, h2⟩)
      · exact h2
      · rw [h1 i (List.mem_range.mpr hi)] at h2; cases h2
    · exact ⟨Or.inr ⟨i, List.mem_range.mp hi, rfl⟩, fun _ => h1⟩

/-- The choice of particles does not depend on the order of labels in the slots. -/
theorem canFix_congr {ang : Bool} {a b : Fin n} {t u : Str n} (h1 : u.first = t.first) (h2 : u.last = t.last)
    (h3 : u.s = t.s) (h4 : u.e = t.e) (h5 : u.ms.length = t.ms.length) (h6 : ∀ k, k ∈ u.ms.flatten ↔ k ∈ t.ms.flatten) :
    canFix ang a b u = canFix ang a b t := by
  have hl : ∀ k, k ∈ u.labels ↔ k ∈ t.labels := fun k => by rw [mem_str, mem_str, h3, h4, h6]
  have hf : freeLabels ([a, b] ++ u.labels) = freeLabels ([a, b] ++ t.labels) :=
    freeLabels_congr fun k => by simp only [List.mem_append, hl]
  unfold canFix
  rw [hf]
  simp only [h1, h2, h3, h4, h5, h6, hl]

theorem openOf_mirror {ang : Bool} {ch : Char} (h : ch = '⟩' ∨ ch = ']') : openOf ang = mirror ch ↔ closeOf ang = ch := by
  rcases h with rfl | rfl <;> cases ang <;> decide

theorem closeOf_mirror {ang : Bool} {ch : Char} (h : ch = '⟨' ∨ ch = '[') : closeOf ang = mirror ch ↔ openOf ang = ch := by
  rcases h with rfl | rfl <;> cases ang <;> decide

/-- Turned round, the string can be treated as before. -/
theorem canFix_reverse {ang : Bool} {a b : Fin n} {t : Str n} (w : t.Wf) (h : (canFix ang a b t).isSome = true) :
    (canFix ang a b t.reverse).isSome = true := by
  have hl : ∀ k, k ∈ t.reverse.labels ↔ k ∈ t.labels := fun k => (reverse_labels t k).symm
  have hm : ∀ k, k ∈ t.reverse.ms.flatten ↔ k ∈ t.ms.flatten := fun k => reverse_flatten t.ms k
  have hf : freeLabels ([a, b] ++ t.reverse.labels) = freeLabels ([a, b] ++ t.labels) :=
    freeLabels_congr fun k => by simp only [List.mem_append, hl]
  have hn : t.reverse.ms.length = t.ms.length := by simp [Str.reverse]
  have e1 : openOf ang = t.reverse.first ↔ closeOf ang = t.last := openOf_mirror w.chars.2
  have e2 : closeOf ang = t.reverse.last ↔ openOf ang = t.first := closeOf_mirror w.chars.1
  have e3 : t.reverse.s = t.e := rfl
  have e4 : t.reverse.e = t.s := rfl
  unfold canFix at h ⊢
  rw [hf]
  simp only [e1, e2, e3, e4, hl, hm, hn]
  split
  · rfl
  · rename_i f hff
    simp only [hff] at h
    by_cases c1 : a ∉ t.labels
    · rw [if_pos c1]; rfl
    by_cases c2 : b ∉ t.labels
    · rw [if_neg c1, if_pos c2]; rfl
    rw [if_neg c1, if_neg c2] at h ⊢
    by_cases c3 : (t.e ∉ [a, b] ∨ closeOf ang = t.last) ∧ (t.e ≠ t.s ∨ t.ms.length % 2 = 0) ∧ t.e ∉ t.ms.flatten
    · rw [if_pos c3]; rfl
    by_cases c4 : (t.s ∉ [a, b] ∨ openOf ang = t.first) ∧ (t.e ≠ t.s ∨ t.ms.length % 2 = 0) ∧ t.s ∉ t.ms.flatten
    · rw [if_neg c3, if_pos c4]; rfl
    rw [if_neg (fun hh => c4 ⟨hh.1, hh.2.1.imp Ne.symm id, hh.2.2⟩),
      if_neg (fun hh => c3 ⟨hh.1, hh.2.1.imp Ne.symm id, hh.2.2⟩)] at h
    cases h
  · rename_i hff
    simp only [hff] at h
    rw [if_neg (fun hh => by rw [if_pos hh] at h; cases h)]
    by_cases c1 : a ∉ t.labels ∧ t.e ∉ [a, b] ∧ closeOf ang = t.last ∧ (t.e ≠ t.s ∨ t.ms.length % 2 = 0) ∧ t.e ∉ t.ms.flatten
    · rw [if_pos c1]; rfl
    rw [if_neg c1]
    by_cases c2 : b ∉ t.labels ∧ t.e ∉ [a, b] ∧ closeOf ang = t.last ∧ (t.e ≠ t.s ∨ t.ms.length % 2 = 0) ∧ t.e ∉ t.ms.flatten
    · rw [if_pos c2]; rfl
    rw [if_neg c2]
    by_cases c3 : a ∉ t.labels ∧ t.s ∉ [a, b] ∧ openOf ang = t.first ∧ (t.s ≠ t.e ∨ t.ms.length % 2 = 0) ∧ t.s ∉ t.ms.flatten
    · rw [if_pos c3]; rfl
    rw [if_neg c3]
    by_cases c4 : b ∉ t.labels ∧ t.s ∉ [a, b] ∧ openOf ang = t.first ∧ (t.s ≠ t.e ∨ t.ms.length % 2 = 0) ∧ t.s ∉ t.ms.flatten
    · rw [if_pos c4]; rfl
    rw [if_neg c4]
    rw [if_neg c3, if_neg c4, if_neg c1, if_neg c2] at h
    rw [if_neg (fun hh => by rw [if_pos hh] at h; cases h)] at h
    by_cases d1 : ((t.s ∉ [a, b] ∨ openOf ang = t.first) ∧ t.s ∉ t.ms.flatten) ∧ t.s ≠ t.e ∧
        ((t.e ∉ [a, b] ∨ closeOf ang = t.last) ∧ t.e ∉ t.ms.flatten) ∧ t.ms.length % 2 = 0
    · obtain ⟨x1, x2, x3, x4⟩ := d1
      rw [if_pos ⟨x3, Ne.symm x2, x1, x4⟩]; rfl
    · rw [if_neg d1] at h; cases h

/-! ### The string that is set -/

/-- Same string up to the order of labels in the slots. -/
structure SameUpTo (t u : Str n) : Prop where
  first : u.first = t.first
  last : u.last = t.last
  s : u.s = t.s
  e : u.e = t.e
  slots : SameSlots t.ms u.ms

theorem sameSlots_set {ms : List (List (Fin n))} {i : ℕ} {m : List (Fin n)} (h : (ms.getD i []).Perm m) :
    SameSlots ms (ms.set i m) := by
  induction ms generalizing i with
  | nil => exact .nil
  | cons x ms ih =>
    cases i with
    | zero => exact .cons (by simpa [List.getD] using h) (SameSlots.refl _)
    | succ i => exact .cons (.refl x) (ih (by simpa [List.getD] using h))

theorem frontFree_spec {a b : Fin n} {t u : Str n} (h : frontFree a b t = some u) : SameUpTo t u := by
  unfold frontFree at h
  rw [Option.map_eq_some_iff] at h
  obtain ⟨i, hi, rfl⟩ := h
  refine ⟨rfl, rfl, rfl, rfl, sameSlots_set ?_⟩
  unfold placeFree at hi
  obtain ⟨x, hx, -⟩ := findIdx_some hi
  obtain ⟨hlt, hx⟩ := List.getElem?_eq_some_iff.mp hx
  have e : t.ms.getD 0 [] = (t.ms.getD 0 []).take i ++ x :: (t.ms.getD 0 []).drop (i + 1) := by
    rw [← hx, List.getElem_cons_drop, List.take_append_drop]
  obtain ⟨zs, h1, h2⟩ := toFront_perm ((t.ms.getD 0 []).take i) ((t.ms.getD 0 []).drop (i + 1)) x
  rw [← e, List.length_take, min_eq_left (by omega)] at h1
  rw [h1]
  exact (List.Perm.of_eq e).trans (List.perm_middle.trans (h2.symm.cons x))

theorem SameUpTo.wf {t u : Str n} (h : SameUpTo t u) (w : t.Wf) : u.Wf := by
  have hl : t.ms.length = u.ms.length := List.Forall₂.length_eq h.slots
  unfold Str.Wf at w ⊢
  rw [h.first, h.last, ← hl]; exact w

theorem SameUpTo.same {t u : Str n} (h : SameUpTo t u) : SameStr K t u := by
  refine ⟨1, Or.inl rfl, fun c ps _ x hx => ?_⟩
  rw [one_mul, ← hx]
  obtain ⟨f, s, ms, e, g⟩ := t
  obtain ⟨f', s', ms', e', g'⟩ := u
  obtain ⟨h1, h2, h3, h4, h5⟩ := h
  simp only at h1 h2 h3 h4 h5
  subst h1 h2 h3 h4
  exact (h5.value ps _ _ _ _).symm

theorem SameUpTo.canFix {t u : Str n} (h : SameUpTo t u) (ang : Bool) (a b : Fin n) :
    Lips.canFix ang a b u = Lips.canFix ang a b t :=
  canFix_congr h.first h.last h.s h.e (List.Forall₂.length_eq h.slots).symm fun k => (h.slots.mem k).symm

/-- The string is the given one up to order, or turned round. -/
theorem chooseMode_spec (a b : Fin n) (t : Str n) :
    (SameUpTo t (chooseMode a b t).1 ∨ SameUpTo t.reverse (chooseMode a b t).1) ∧
      ((chooseMode a b t).2 = 1 → (chooseMode a b t).1 = t) := by
  have rf : ∀ t : Str n, SameUpTo t t := fun t => ⟨rfl, rfl, rfl, rfl, SameSlots.refl _⟩
  unfold chooseMode
  split_ifs with h
  · refine ⟨?_, fun h => absurd h (by norm_num)⟩
    cases h1 : frontFree a b t with
    | some u => exact Or.inl (frontFree_spec h1)
    | none =>
      right
      cases h2 : frontFree a b t.reverse with
      | some u => exact frontFree_spec h2
      | none => exact rf _
  · exact ⟨Or.inl (rf t), fun _ => rfl⟩

theorem chooseMode_mode (a b : Fin n) (t : Str n) : (chooseMode a b t).2 = 1 ∨ (chooseMode a b t).2 = 2 := by
  unfold chooseMode; split_ifs <;> simp

/-- C98: the string that is set in place of the one asked for equals it up to a sign at every point that conserves
momentum, has as many slots, and momentum conservation will be restored whenever `_can_fix_mom_cons` finds a way for the
string asked for or for one of those obtained by rewriting one of its slots. -/
theorem C98_plan (ang : Bool) (a b : Fin n) (t : Str n) (w : t.Wf) (hnd : ∀ m ∈ t.ms, m.Nodup) (u : Str n) (mode : ℕ)
    (hp : plan2N ang a b t = .ok (u, mode)) :
    u.Wf ∧ SameStr K t u ∧ u.ms.length = t.ms.length ∧ (Fixable ang a b t → (canFix ang a b u).isSome = true) := by
  unfold plan2N at hp
  split at hp
  · cases hp
  rename_i t1 h1
  injection hp with hp
  obtain ⟨e1, f1⟩ := fixable_spec h1
  have a1 : t1.Wf ∧ SameStr K t t1 ∧ t1.ms.length = t.ms.length := by
    rcases e1 with rfl | ⟨i, hi, rfl⟩
    · exact ⟨w, .refl _, rfl⟩
    · exact ⟨swapSlot_wf w i, sameStr_swap w hi hnd, by simp [Str.swapSlot]⟩
  have a2 : ∀ t2 : Str n, (t2 = if turns ang a t1 then t1.reverse else t1) → t2.Wf ∧ SameStr K t t2 ∧ t2.ms.length = t.ms.length ∧
      (Fixable ang a b t → (canFix ang a b t2).isSome = true) := by
    rintro t2 rfl
    split_ifs
    · exact ⟨Str.reverse_wf a1.1, a1.2.1.trans (sameStr_reverse a1.1), by rw [← a1.2.2]; simp [Str.reverse],
        fun h => canFix_reverse a1.1 (f1 h)⟩
    · exact ⟨a1.1, a1.2.1, a1.2.2, f1⟩
  generalize ht2 : (if turns ang a t1 = true then t1.reverse else t1) = t2 at hp
  obtain ⟨b1, b2, b3, b4⟩ := a2 t2 ht2.symm
  have hu : u = (chooseMode a b t2).1 := (congrArg Prod.fst hp).symm
  rcases (chooseMode_spec a b t2).1 with hc | hc <;> rw [← hu] at hc
  · exact ⟨hc.wf b1, b2.trans hc.same, by rw [← b3]; exact (List.Forall₂.length_eq hc.slots).symm,
      fun h => by rw [hc.canFix]; exact b4 h⟩
  · refine ⟨hc.wf (Str.reverse_wf b1), (b2.trans (sameStr_reverse b1)).trans hc.same, ?_,
      fun h => by rw [hc.canFix]; exact canFix_reverse b1 (b4 h)⟩
    rw [← b3, ← (List.Forall₂.length_eq hc.slots)]; simp [Str.reverse]

/-! ### What is reached -/

/-- Setting the string changes a spinor on which the two-bracket depends. -/
def Disturbs (ang : Bool) (a b : Fin n) (m : Fin n × Bool) : Prop := m.2 = ang ∧ (m.1 = a ∨ m.1 = b)

theorem OneSpinor.two {c : Ctx K} {ps ps' : Point K n} {r l r' l' : Fin n → V2 K} {m : Fin n × Bool} (h : Spin c ps r l)
    (o : OneSpinor c ps ps' r l r' l' m.1 m.2) {ang : Bool} {a b : Fin n} (hd : ¬Disturbs ang a b m) :
    twoVal ang a b ps' = twoVal ang a b ps := by
  by_cases hk : m.1 = a ∨ m.1 = b
  · have hm : m.2 ≠ ang := fun e => hd ⟨e, hk⟩
    refine twoVal_kind h o.after ?_
    have := o.kept
    cases ang
    · rw [if_neg (by simp)]
      rw [if_pos (by revert hm; cases m.2 <;> simp)] at this
      exact this
    · rw [if_pos rfl]
      rw [if_neg (by revert hm; cases m.2 <;> simp)] at this
      exact this
  · rw [not_or] at hk
    exact twoVal_congr (o.rest a (Ne.symm hk.1)).1 (o.rest b (Ne.symm hk.2)).1

theorem setThen_inv {T : Tol K Γ} {r : Except Err (Point K n)} {val : Point K n → Except Err K} {X : K} {ps : Point K n}
    (h : setThen T r val X = .ok ps) : r = .ok ps ∧ ∃ x, val ps = .ok x ∧ T.abs (x - X) ≤ T.tol := by
  unfold setThen at h
  split at h
  · cases h
  · split at h
    · cases h
    · rename_i x hx
      split_ifs at h with h0
      injection h with h; subst h
      exact ⟨rfl, x, hx, h0⟩

theorem andThen_inv {r : Except Err (Point K n)} {f : Point K n → Except Err (Point K n)} {ps : Point K n}
    (h : andThen r f = .ok ps) : ∃ qs, r = .ok qs ∧ f qs = .ok ps := by
  unfold andThen at h
  split at h
  · cases h
  · exact ⟨_, rfl, h⟩

/-- What is reached, for the string that is set. -/
theorem pair2N_reached [NeZero (2 : K)] {c : Ctx K} {T : Tol K Γ} {ps : Point K n} {r l : Fin n → V2 K}
    (h : Spin c ps r l) {ang : Bool} {a b : Fin n} {v : K} {t : Str n} {z : K} {u : Str n} {mode : ℕ} (hp : plan2N ang a b t = .ok (u, mode))
    (wu : u.Wf) (hcan : (canFix ang a b u).isSome = true) {ps' : Point K n} (hr : pair2N c T ps ang a b v t z = .ok ps') :
    GoodPoint c ps' ∧ (∃ x, u.value ps' = .ok x ∧ T.abs (x - z) ≤ T.tol) ∧
      (¬Disturbs ang a b (u.moved mode) → ∃ y, twoVal ang a b ps' = .ok y ∧ T.abs (y - v) ≤ T.tol) := by
  obtain ⟨pqa, hpq⟩ := Option.isSome_iff_exists.mp hcan
  obtain ⟨p, q, ax⟩ := pqa
  unfold pair2N at hr
  rw [hp] at hr
  obtain ⟨ps2, hr, e3⟩ := andThen_inv hr
  obtain ⟨ps1, e1, e2⟩ := andThen_inv hr
  obtain ⟨e1, y, hy, hy'⟩ := setThen_inv e1
  obtain ⟨e2, x, hx, hx'⟩ := setThen_inv e2
  have hs : Spin c ps r l := h
  obtain ⟨r1, l1, h1⟩ : ∃ r1 l1, Spin c ps1 r1 l1 := by
    split_ifs at e1
    · obtain ⟨r', o⟩ := setA2_only hs e1; exact ⟨r', l, o.after⟩
    · obtain ⟨l', o⟩ := setS2_only hs e1; exact ⟨r, l', o.after⟩
  obtain ⟨r2, l2, o2⟩ := setNB_only h1 wu e2
  have h2 := o2.after
  obtain ⟨hpq', s1, s2⟩ := canFix_safe wu hpq
  have hgood : ∃ r3 l3, Conserves ps' ∧ OnlySpinors c ps2 ps' r2 l2 r3 l3 p q ax := by
    have hd : if ax then SpecAngle (r2 p) (r2 q) ≠ 0 else SpecSquare (l2 p) (l2 q) ≠ 0 := by
      unfold fixStr at e3
      rw [hpq] at e3
      dsimp only at e3
      split
      · rename_i hax; rw [if_pos hax] at e3; exact fixAxis2_ne h2 e3
      · rename_i hax; rw [if_neg hax] at e3; exact fixAxis1_ne h2 e3
    obtain ⟨ps3, r3, l3, e4, hc, ho⟩ := fixPair_only c ps2 r2 l2 h2 hpq' ax hd
    have : ps3 = ps' := by
      unfold fixStr at e3
      rw [hpq] at e3
      have : fixPair c ps2 p q ax = .ok ps' := e3
      rw [e4] at this
      injection this
    subst this
    exact ⟨r3, l3, hc, ho⟩
  obtain ⟨r3, l3, hc, ho⟩ := hgood
  have good : GoodPoint c ps' := ⟨hc, r3, l3, ho.after⟩
  have hux : u.value ps' = .ok x := by rw [s2.value ho wu]; exact hx
  refine ⟨good, ⟨x, hux, hx'⟩, fun hdist => ⟨y, ?_, hy'⟩⟩
  have e5 : twoVal ang a b ps' = twoVal ang a b ps2 := by
    obtain ⟨t1, t2⟩ := s1.value ho
    unfold twoVal
    cases ang
    · simpa using t2 rfl
    · simpa using t1 rfl
  rw [e5, o2.two h1 hdist]
  exact hy

/-- C98: whenever the method returns, having found a way to restore momentum conservation, the point conserves momentum,
all particles are massless, and the string asked for has its value up to a sign, within the tolerance; the two-bracket
has its value unless the step that sets the string changed a spinor of it. -/
theorem C98_reached [NeZero (2 : K)] (c : Ctx K) (T : Tol K Γ) (ps : Point K n) (r l : Fin n → V2 K)
    (h : ∀ k, IsMassless c (ps k) (r k) (l k)) (ang : Bool) (a b : Fin n) (v : K) (t : Str n) (w : t.Wf)
    (hnd : ∀ m ∈ t.ms, m.Nodup) (z : K) (u : Str n) (mode : ℕ) (hp : plan2N ang a b t = .ok (u, mode))
    (hf : Fixable ang a b t) (ps' : Point K n) (hr : pair2N c T ps ang a b v t z = .ok ps') :
    GoodPoint c ps' ∧
      (∃ x, t.value ps' = .ok x ∧ (T.abs (x - z) ≤ T.tol ∨ T.abs (-x - z) ≤ T.tol)) ∧
      (¬Disturbs ang a b (u.moved mode) → ∃ y, twoVal ang a b ps' = .ok y ∧ T.abs (y - v) ≤ T.tol) := by
  obtain ⟨wu, same, -, hfix⟩ := C98_plan (K := K) ang a b t w hnd u mode hp
  obtain ⟨good, ⟨x, hux, hx'⟩, htwo⟩ := pair2N_reached (r := r) (l := l) h hp wu (hfix hf) hr
  refine ⟨good, ?_, htwo⟩
  obtain ⟨x0, hx0⟩ := Str.value_ok good w
  obtain ⟨σ, hσ, f⟩ := same
  have := f c ps' good x0 hx0
  rw [hux] at this
  injection this with this
  refine ⟨x0, hx0, ?_⟩
  rcases hσ with rfl | rfl
  · rw [one_mul] at this; left; rw [← this]; exact hx'
  · rw [neg_one_mul] at this; right; rw [← this]; exact hx'

/-! ### When the two-bracket is left alone -/

theorem moved_cases (t : Str n) (mode : ℕ) :
    t.moved mode = (t.e, decide (t.last = '⟩')) ∧ t.uniqueEnd = some true ∧ (mode = 1 ∨ t.uniqueMiddle = none) ∨
      (t.moved mode).2 = decide (t.first = '⟨') := by
  unfold Str.moved
  split_ifs with h1 h2
  · left; refine ⟨rfl, h2, h1.imp And.right id⟩
  · right; rfl
  · right; split <;> rfl

theorem turned_first {ang : Bool} {a : Fin n} {t : Str n} (w : t.Wf) (ho : t.ms.length % 2 = 1) :
    (if turns ang a t then t.reverse else t).first ≠ openOf ang := by
  unfold turns
  by_cases h1 : t.first = openOf ang
  · have : t.last ≠ closeOf ang := by
      rcases w with ⟨w1, w2⟩ | ⟨w1, w2⟩ <;> rw [if_neg (by omega)] at w2 <;> rw [w2] <;> rw [w1] at h1 <;> revert h1 <;>
        cases ang <;> decide
    rw [if_pos (by simp [h1, this])]
    show mirror t.last ≠ openOf ang
    rcases w.chars.2 with e | e <;> rw [e] at this ⊢ <;> revert this <;> cases ang <;> decide
  · rw [if_neg (by simp [h1])]; exact h1

/-- C98: if both ends of the string are spinors of the other kind than those of the two-bracket, setting the string never
touches the two-bracket: whenever the method returns, having found a way to restore momentum conservation, both values
are reached. -/
theorem C98_other_kind [NeZero (2 : K)] (c : Ctx K) (T : Tol K Γ) (ps : Point K n) (r l : Fin n → V2 K)
    (h : ∀ k, IsMassless c (ps k) (r k) (l k)) (ang : Bool) (a b : Fin n) (v : K) (t : Str n) (w : t.Wf)
    (hnd : ∀ m ∈ t.ms, m.Nodup) (he : t.ms.length % 2 = 0) (hk : t.first ≠ openOf ang) (z : K)
    (hf : Fixable ang a b t) (ps' : Point K n) (hr : pair2N c T ps ang a b v t z = .ok ps') :
    GoodPoint c ps' ∧
      (∃ x, t.value ps' = .ok x ∧ (T.abs (x - z) ≤ T.tol ∨ T.abs (-x - z) ≤ T.tol)) ∧
      ∃ y, twoVal ang a b ps' = .ok y ∧ T.abs (y - v) ≤ T.tol := by
  rcases hp : plan2N ang a b t with er | ⟨u, mode⟩
  · simp [pair2N, hp] at hr
  obtain ⟨g, hx, hy⟩ := C98_reached c T ps r l h ang a b v t w hnd z u mode hp hf ps' hr
  refine ⟨g, hx, hy ?_⟩
  obtain ⟨wu, -, hl, -⟩ := C98_plan (K := K) ang a b t w hnd u mode hp
  have kind : ∀ s : Str n, s.Wf → s.ms.length % 2 = 0 → s.first ≠ openOf ang →
      decide (s.first = '⟨') ≠ ang ∧ decide (s.last = '⟩') ≠ ang ∧ s.reverse.first ≠ openOf ang := by
    intro s ws hs h1
    rcases ws with ⟨w1, w2⟩ | ⟨w1, w2⟩ <;> rw [if_pos hs] at w2 <;>
      refine ⟨?_, ?_, show mirror s.last ≠ openOf ang from ?_⟩ <;> (try rw [w1]) <;> (try rw [w2]) <;> rw [w1] at h1 <;>
      revert h1 <;> cases ang <;> decide
  have hfst : u.first ≠ openOf ang := by
    unfold plan2N at hp
    split at hp
    · cases hp
    rename_i t1 h1
    injection hp with hp
    have a1 : t1.Wf ∧ t1.first ≠ openOf ang ∧ t1.ms.length % 2 = 0 := by
      rcases (fixable_spec h1).1 with rfl | ⟨i, hi, rfl⟩
      · exact ⟨w, hk, he⟩
      · exact ⟨swapSlot_wf w i, hk, by simpa [Str.swapSlot] using he⟩
    have ht : turns ang a t1 = false := by simp [turns, a1.2.1]
    rw [ht] at hp
    simp only [Bool.false_eq_true, if_false] at hp
    have hu : u = (chooseMode a b t1).1 := (congrArg Prod.fst hp).symm
    rcases (chooseMode_spec a b t1).1 with hc | hc <;> rw [← hu] at hc
    · rw [hc.first]; exact a1.2.1
    · rw [hc.first]; exact (kind t1 a1.1 a1.2.2 a1.2.1).2.2
  obtain ⟨k1, k2, -⟩ := kind u wu (by rw [hl]; exact he) hfst
  rintro ⟨d1, -⟩
  rcases moved_cases u mode with ⟨e, -⟩ | e
  · rw [e] at d1; exact k2 d1
  · rw [e] at d1; exact k1 d1

/-- An even string of the kind of the two-bracket, with two labels free. -/
theorem plan_even {ang : Bool} {a b : Fin n} {t : Str n} (_ : t.Wf) (_ : t.ms.length % 2 = 0) (_ : t.first = openOf ang) {p q : Fin n}
    (hpq : FirstTwoFree ([a, b] ++ t.labels) p q) :
    (canFix ang a b t).isSome = true ∧ fixable ang a b t = .ok t ∧ freeLabels ([a, b] ++ t.labels) ≠ [] := by
  obtain ⟨rest, hfree⟩ := freeLabels_firstTwo hpq
  have hcan : (canFix ang a b t).isSome = true := by unfold canFix; rw [hfree]; rfl
  exact ⟨hcan, by rw [fixable, if_pos hcan], by rw [hfree]; simp⟩

theorem last_even {ang : Bool} {t : Str n} (w : t.Wf) (he : t.ms.length % 2 = 0) (hk : t.first = openOf ang) : t.last = closeOf ang := by
  rcases w with ⟨w1, w2⟩ | ⟨w1, w2⟩ <;> rw [if_pos he] at w2 <;> rw [w2] <;> rw [w1] at hk <;> revert hk <;> cases ang <;> decide

/-- A label of the first slot that is in no other slot and not in the two-bracket. -/
def Str.freeInFirst (t : Str n) (a b x : Fin n) : Prop := x ∈ t.ms.getD 0 [] ∧ x ∉ t.ms.tail.flatten ∧ x ≠ a ∧ x ≠ b

/-- The label put in front is the one that is moved. -/
theorem frontFree_moved {a b : Fin n} {t u : Str n} (h : frontFree a b t = some u) (hs : ¬t.freeInFirst a b t.s)
    (he : ¬t.freeInFirst a b t.e) : ∃ x, t.freeInFirst a b x ∧ u.moved 2 = (x, decide (t.first = '⟨')) := by
  unfold frontFree at h
  rw [Option.map_eq_some_iff] at h
  obtain ⟨i, hi, rfl⟩ := h
  unfold placeFree at hi
  obtain ⟨x, hx, hp⟩ := findIdx_some hi
  simp only [decide_eq_true_eq, List.mem_append, List.mem_cons, List.not_mem_nil, or_false, not_or] at hp
  have hmem : x ∈ t.ms.getD 0 [] := List.mem_of_getElem? hx
  have good : t.freeInFirst a b x := ⟨hmem, hp.1, hp.2.1, hp.2.2⟩
  refine ⟨x, good, ?_⟩
  obtain ⟨m, ms, hms⟩ : ∃ m ms, t.ms = m :: ms := by
    cases hm : t.ms with
    | nil => rw [hm] at hmem; simp at hmem
    | cons m ms => exact ⟨m, ms, rfl⟩
  rw [hms] at hx hp
  simp only [List.getD_cons_zero, List.tail_cons] at hx hp
  have hf : ∃ zs, toFront m i = x :: zs := by
    obtain ⟨hlt, hx'⟩ := List.getElem?_eq_some_iff.mp hx
    have e : m = m.take i ++ x :: m.drop (i + 1) := by rw [← hx', List.getElem_cons_drop, List.take_append_drop]
    obtain ⟨zs, h1, -⟩ := toFront_perm (m.take i) (m.drop (i + 1)) x
    rw [← e, List.length_take, min_eq_left (by omega)] at h1
    exact ⟨zs, h1⟩
  obtain ⟨zs, hzs⟩ := hf
  have hxs : x ≠ t.s := fun e => hs (e ▸ good)
  have hxe : x ≠ t.e := fun e => he (e ▸ good)
  have hu : ({ t with ms := t.ms.set 0 (toFront (t.ms.getD 0 []) i) } : Str n).uniqueMiddle = some (0, 0) := by
    have hq : ∀ m' ∈ ms, x ∉ m' := fun m' hm' hx' => hp.1 (List.mem_flatten.mpr ⟨m', hm', hx'⟩)
    simp [Str.uniqueMiddle, Str.uniqueIn, hms, hzs, List.findIdx?_cons, hxs, hxe, if_pos hq]
  unfold Str.moved
  rw [hu, if_neg (by simp)]
  simp [hms, hzs]

/-- C98: an even string of the same kind as the two-bracket, two labels free. If its head is not in the two-bracket and in
no slot, both values are reached, the string with its sign. -/
theorem C98_same_kind [NeZero (2 : K)] (c : Ctx K) (T : Tol K Γ) (ps : Point K n) (r l : Fin n → V2 K)
    (h : ∀ k, IsMassless c (ps k) (r k) (l k)) (ang : Bool) (a b : Fin n) (v : K) (t : Str n) (w : t.Wf)
    (he : t.ms.length % 2 = 0) (hk : t.first = openOf ang) (p q : Fin n) (hpq : FirstTwoFree ([a, b] ++ t.labels) p q)
    (hs : t.s ≠ a ∧ t.s ≠ b ∧ t.s ∉ t.ms.flatten) (z : K) (ps' : Point K n) (hr : pair2N c T ps ang a b v t z = .ok ps') :
    GoodPoint c ps' ∧ (∃ x, t.value ps' = .ok x ∧ T.abs (x - z) ≤ T.tol) ∧
      ∃ y, twoVal ang a b ps' = .ok y ∧ T.abs (y - v) ≤ T.tol := by
  obtain ⟨hcan, hfix, hmode⟩ := plan_even w he hk hpq
  have ht : turns ang a t = false := by simp [turns, hk, last_even w he hk, Ne.symm hs.1]
  have hp : plan2N ang a b t = .ok (t, 1) := by
    rw [plan2N, hfix]
    simp only [ht, Bool.false_eq_true, if_false]
    rw [chooseMode, if_neg (fun hh => hh.elim hmode fun hh => by simp [hs.1, hs.2.1] at hh)]
  obtain ⟨g, hx, hy⟩ := pair2N_reached (r := r) (l := l) h hp w hcan hr
  refine ⟨g, hx, hy ?_⟩
  have hm : (t.moved 1).1 = t.s := by
    unfold Str.moved
    by_cases hse : t.s = t.e
    · have : t.uniqueEnd = none := by simp [Str.uniqueEnd, hse, he]
      rw [if_pos (Or.inl ⟨Or.inr ⟨hse, hs.2.2, he⟩, rfl⟩), this]; simp
    · have : t.uniqueEnd = some false := by rw [Str.uniqueEnd, if_pos ⟨hs.2.2, Or.inr hse⟩]
      rw [if_pos (Or.inl ⟨Or.inl (by rw [this]; rfl), rfl⟩), this]; simp
  rintro ⟨-, d⟩
  rw [hm] at d
  exact d.elim hs.1 hs.2.1

/-- C98: if the head is the first label of the two-bracket and the other end is not in the two-bracket and in no slot, the
string is turned round: both values are reached, that of the string with the opposite sign. -/
theorem C98_turned_partial [NeZero (2 : K)] (c : Ctx K) (T : Tol K Γ) (ps : Point K n) (r l : Fin n → V2 K)
    (h : ∀ k, IsMassless c (ps k) (r k) (l k)) (ang : Bool) (a b : Fin n) (v : K) (t : Str n) (w : t.Wf)
    (he : t.ms.length % 2 = 0) (hk : t.first = openOf ang) (p q : Fin n) (hpq : FirstTwoFree ([a, b] ++ t.labels) p q)
    (hs : t.s = a) (hte : t.e ≠ a ∧ t.e ≠ b ∧ t.e ∉ t.ms.flatten) (z : K) (ps' : Point K n)
    (hr : pair2N c T ps ang a b v t z = .ok ps') :
    GoodPoint c ps' ∧ (∃ x, t.value ps' = .ok x ∧ T.abs (-x - z) ≤ T.tol) ∧
      ∃ y, twoVal ang a b ps' = .ok y ∧ T.abs (y - v) ≤ T.tol := by
  obtain ⟨hcan, hfix, hmode⟩ := plan_even w he hk hpq
  have ht : turns ang a t = true := by simp [turns, hk, last_even w he hk, hs, Ne.symm hte.1]
  have wr := Str.reverse_wf w
  have hlen : t.reverse.ms.length % 2 = 0 := by simpa [Str.reverse] using he
  have hse : t.reverse.s = t.e := rfl
  have hflat : t.reverse.s ∉ t.reverse.ms.flatten := fun hh => hte.2.2 ((reverse_flatten t.ms _).mp hh)
  have hp : plan2N ang a b t = .ok (t.reverse, 1) := by
    rw [plan2N, hfix]
    simp only [ht, if_true]
    have : freeLabels ([a, b] ++ t.reverse.labels) ≠ [] := by
      rw [freeLabels_congr (ys := [a, b] ++ t.labels) (fun k => by simp only [List.mem_append, reverse_labels t k])]; exact hmode
    rw [chooseMode, if_neg (fun hh => hh.elim this fun hh => by simp [hse, hte.1, hte.2.1] at hh)]
  obtain ⟨g, ⟨x, hx, hx'⟩, hy⟩ := pair2N_reached (r := r) (l := l) h hp wr (canFix_reverse w hcan) hr
  refine ⟨g, ?_, hy ?_⟩
  · obtain ⟨-, r', l', hsp⟩ := g
    have := Str.reverse_value (c := c) hsp w hx
    rw [if_pos he] at this
    exact ⟨_, this, by simpa using hx'⟩
  · have hm : (t.reverse.moved 1).1 = t.e := by
      have : t.reverse.uniqueEnd = some false := by
        rw [Str.uniqueEnd, if_pos ⟨hflat, Or.inr fun e => hte.1 (e.trans hs)⟩]
      unfold Str.moved
      rw [if_pos (Or.inl ⟨Or.inl (by rw [this]; rfl), rfl⟩), this]; rfl
    rintro ⟨-, d⟩
    rw [hm] at d
    exact d.elim hte.1 hte.2.1

/-- C98: if the head is in the two-bracket and the string is not turned round, a label of the first slot that is in no
other slot and not in the two-bracket is changed: both values are reached, the string with its sign. The tail must not be
such a label. -/
theorem C98_middle [NeZero (2 : K)] (c : Ctx K) (T : Tol K Γ) (ps : Point K n) (r l : Fin n → V2 K)
    (h : ∀ k, IsMassless c (ps k) (r k) (l k)) (ang : Bool) (a b : Fin n) (v : K) (t : Str n) (w : t.Wf)
    (he : t.ms.length % 2 = 0) (hk : t.first = openOf ang) (p q : Fin n) (hpq : FirstTwoFree ([a, b] ++ t.labels) p q)
    (hs : t.s ≠ a ∧ t.s = b ∨ t.s = a ∧ t.e = a) (x₀ : Fin n) (hx₀ : t.freeInFirst a b x₀) (hte : ¬t.freeInFirst a b t.e) (z : K)
    (ps' : Point K n) (hr : pair2N c T ps ang a b v t z = .ok ps') :
    GoodPoint c ps' ∧ (∃ x, t.value ps' = .ok x ∧ T.abs (x - z) ≤ T.tol) ∧
      ∃ y, twoVal ang a b ps' = .ok y ∧ T.abs (y - v) ≤ T.tol := by
  obtain ⟨hcan, hfix, hmode⟩ := plan_even w he hk hpq
  have ht : turns ang a t = false := by
    rcases hs with ⟨h1, -⟩ | ⟨h1, h2⟩
    · simp [turns, hk, last_even w he hk, Ne.symm h1]
    · simp [turns, hk, last_even w he hk, h1, h2]
  have hin : t.s ∈ [a, b] := by rcases hs with ⟨-, h1⟩ | ⟨h1, -⟩ <;> simp [h1]
  have hns : ¬t.freeInFirst a b t.s := by
    rintro ⟨-, -, h1, h2⟩
    simp only [List.mem_cons, List.not_mem_nil, or_false] at hin
    exact hin.elim h1 h2
  obtain ⟨m, ms, hms⟩ : ∃ m ms, t.ms = m :: ms := by
    have := hx₀.1
    cases hm : t.ms with
    | nil => rw [hm] at this; simp at this
    | cons m ms => exact ⟨m, ms, rfl⟩
  have hlen : 1 < t.ms.length := by
    rw [hms] at he ⊢
    cases ms with
    | nil => simp at he
    | cons => simp
  obtain ⟨u, hu⟩ : ∃ u, frontFree a b t = some u := by
    cases hpl : placeFree a b t with
    | none =>
      rw [placeFree, List.findIdx?_eq_none_iff] at hpl
      have := hpl x₀ hx₀.1
      obtain ⟨-, h1, h2, h3⟩ := hx₀
      simp only [decide_eq_false_iff_not, List.mem_append, List.mem_cons, List.not_mem_nil, or_false] at this
      exact absurd (fun hh => hh.elim h1 fun hh => hh.elim h2 h3) this
    | some i => exact ⟨_, by rw [frontFree, hpl]; rfl⟩
  have hp : plan2N ang a b t = .ok (u, 2) := by
    rw [plan2N, hfix]
    simp only [ht, Bool.false_eq_true, if_false]
    rw [chooseMode, if_pos (Or.inr ⟨hin, hlen⟩), hu]
    rfl
  have hup := frontFree_spec hu
  obtain ⟨g, ⟨x, hx, hx'⟩, hy⟩ := pair2N_reached (r := r) (l := l) h hp (hup.wf w) (by rw [hup.canFix]; exact hcan) hr
  obtain ⟨y, hy1, hy2⟩ := frontFree_moved hu hns hte
  refine ⟨g, ⟨x, ?_, hx'⟩, hy ?_⟩
  · obtain ⟨y', hy'⟩ := Str.value_ok g w
    have : u.value ps' = t.value ps' := by
      obtain ⟨f, s, ms, e, g⟩ := t
      obtain ⟨f', s', ms', e', g'⟩ := u
      obtain ⟨h1, h2, h3, h4, h5⟩ := hup
      simp only at h1 h2 h3 h4 h5
      subst h1 h2 h3 h4
      exact (h5.value ps' _ _ _ _).symm
    rw [← this]; exact hx
  · rintro ⟨-, d⟩
    rw [hy2] at d
    exact d.elim hy1.2.2.1 hy1.2.2.2

/-- The string that is set when two labels are free: the three-bracket that begins with a spinor of the other kind than
those of the two-bracket, `t` up to the order of its slot. -/
theorem plan_three {ang : Bool} {a b : Fin n} {t : T3 n} (hk : t.ang ≠ ang) {p q : Fin n}
    (hpq : FirstTwoFree ([a, b] ++ t.labels) p q) {u : T3 n} (hu : u = t ∨ u = t.rev) :
    canFix ang a b u.str = some (p, q, false) ∧
      plan2N ang a b u.str = .ok (⟨openOf t.ang, t.s, [if u = t then t.m else t.m.reverse], t.e, closeOf !t.ang⟩, 1) := by
  have hlab : ∀ k, k ∈ u.str.labels ↔ k ∈ t.labels := by
    intro k
    rcases hu with rfl | rfl <;> simp only [T3.str, Str.labels, T3.rev, T3.labels, List.mem_cons, List.mem_append, List.flatten_cons,
      List.flatten_nil, List.append_nil, List.not_mem_nil, or_false]
    tauto
  have hpq' : FirstTwoFree ([a, b] ++ u.str.labels) p q :=
    firstTwoFree_congr (fun k => by simp only [List.mem_append, hlab]) hpq
  obtain ⟨rest, hfree⟩ := freeLabels_firstTwo hpq'
  have hcan : canFix ang a b u.str = some (p, q, false) := by unfold canFix; rw [hfree]
  refine ⟨hcan, ?_⟩
  unfold plan2N fixable
  rw [if_pos (by rw [hcan]; rfl)]
  dsimp only
  have hcm : ∀ m', m'.Perm t.m → chooseMode a b (⟨openOf t.ang, t.s, [m'], t.e, closeOf !t.ang⟩ : Str n) =
      (⟨openOf t.ang, t.s, [m'], t.e, closeOf !t.ang⟩, 1) := by
    intro m' hm'
    unfold chooseMode
    rw [if_neg]
    rintro (h1 | ⟨-, h1⟩)
    · have : freeLabels ([a, b] ++ (⟨openOf t.ang, t.s, [m'], t.e, closeOf !t.ang⟩ : Str n).labels) = p :: q :: rest := by
        rw [← hfree]
        refine freeLabels_congr fun k => ?_
        simp only [List.mem_append, hlab]
        simp only [Str.labels, T3.labels, List.mem_cons, List.mem_append, List.flatten_cons, List.flatten_nil, List.append_nil,
          List.not_mem_nil, or_false, hm'.mem_iff]
      rw [this] at h1; cases h1
    · simp at h1
  rcases hu with rfl | rfl
  · have : turns ang a u.str = false := by
      have : u.str.first ≠ openOf ang := by
        show openOf u.ang ≠ openOf ang
        revert hk; cases u.ang <;> cases ang <;> decide
      simp [turns, this]
    rw [this]
    simp only [Bool.false_eq_true, if_false, if_true]
    rw [show u.str = ⟨openOf u.ang, u.s, [u.m], u.e, closeOf !u.ang⟩ from rfl, hcm u.m (.refl _)]
  · have : turns ang a t.rev.str = true := by
      have e1 : t.rev.str.first = openOf ang := by
        show openOf (!t.ang) = openOf ang
        revert hk; cases t.ang <;> cases ang <;> decide
      have e2 : t.rev.str.last ≠ closeOf ang := by
        show closeOf (!(!t.ang)) ≠ closeOf ang
        revert hk; cases t.ang <;> cases ang <;> decide
      simp [turns, e1, e2]
    rw [this, if_pos rfl]
    have hne : t.rev ≠ t := by
      intro e
      have : (!t.ang) = t.ang := congrArg T3.ang e
      revert this; cases t.ang <;> decide
    have e : t.rev.str.reverse = ⟨openOf t.ang, t.s, [t.m.reverse], t.e, closeOf !t.ang⟩ := by
      simp only [Str.reverse, T3.str, T3.rev, List.map_cons, List.map_nil, List.reverse_cons, List.reverse_nil, List.nil_append]
      cases t.ang <;> rfl
    rw [e, hcm _ (List.reverse_perm _), if_neg hne]

/-- C98: with two labels free, a three-bracket is turned so that it begins with a spinor of the other kind than those of
the two-bracket, and is set through that head. If the head does not occur in the slot, or the other end is not a label of
the two-bracket or occurs in the slot, both values are reached whenever the method returns. -/
theorem C98_three [NeZero (2 : K)] (c : Ctx K) (T : Tol K Γ) (ps : Point K n) (r l : Fin n → V2 K)
    (h : ∀ k, IsMassless c (ps k) (r k) (l k)) (ang : Bool) (a b : Fin n) (v : K) (t : T3 n) (hk : t.ang ≠ ang)
    (hnd : t.m.Nodup) (p q : Fin n) (hpq : FirstTwoFree ([a, b] ++ t.labels) p q)
    (hsafe : t.s ∉ t.m ∨ t.e ∈ t.m ∨ (t.e ≠ a ∧ t.e ≠ b)) (z : K) (u : T3 n) (hu : u = t ∨ u = t.rev)
    (ps' : Point K n) (hr : pair2N c T ps ang a b v u.str z = .ok ps') :
    GoodPoint c ps' ∧
      (∃ x, u.str.value ps' = .ok x ∧ (T.abs (x - z) ≤ T.tol ∨ T.abs (-x - z) ≤ T.tol)) ∧
      ∃ y, twoVal ang a b ps' = .ok y ∧ T.abs (y - v) ≤ T.tol := by
  have hnd' : ∀ m ∈ u.str.ms, m.Nodup := by
    intro m hm
    rcases hu with rfl | rfl <;> simp only [T3.str, T3.rev, List.mem_singleton] at hm <;> subst hm <;> exact hnd
  obtain ⟨hcan, hplan⟩ := plan_three hk hpq hu
  have hm' : (if u = t then t.m else t.m.reverse).Perm t.m := by
    split
    · exact .refl _
    · exact List.reverse_perm _
  generalize (if u = t then t.m else t.m.reverse) = m' at hm' hplan
  obtain ⟨g, hx, hy⟩ := C98_reached c T ps r l h ang a b v u.str u.wf hnd' z _ 1 hplan (Or.inl (by rw [hcan]; rfl)) ps' hr
  refine ⟨g, hx, hy ?_⟩
  rintro ⟨d1, d2⟩
  rcases moved_cases (⟨openOf t.ang, t.s, [m'], t.e, closeOf !t.ang⟩ : Str n) 1 with ⟨e, eu, -⟩ | e
  · rw [e] at d2
    unfold Str.uniqueEnd at eu
    simp only [List.flatten_cons, List.flatten_nil, List.append_nil, List.length_singleton, hm'.mem_iff] at eu
    rcases hsafe with hh | hh | hh
    · rw [if_pos ⟨hh, Or.inl (by norm_num)⟩] at eu; simp at eu
    · by_cases hs : t.s ∈ t.m
      · rw [if_neg (fun x => x.1 hs), if_neg (fun x => x.1 hh)] at eu; cases eu
      · rw [if_pos ⟨hs, Or.inl (by norm_num)⟩] at eu; simp at eu
    · exact d2.elim hh.1 hh.2
  · rw [e] at d1
    have d1' : decide (openOf t.ang = '⟨') = ang := d1
    clear * - hk d1'
    revert hk d1'; cases t.ang <;> cases ang <;> decide

/-- C98: the method does return, with both values exactly, if the string chosen is to be set through a head that occurs
nowhere else and is not a spinor of the two-bracket, and three quantities are not zero: the component that setting the
two-bracket divides by, the one that setting the head divides by (at the point where the two-bracket has been set), and the
bracket of the two particles that restore momentum conservation (at the point where both have been set). -/
theorem C98_returns [NeZero (2 : K)] (c : Ctx K) (T : Tol K Γ) (hT : T.abs 0 ≤ T.tol) (ps : Point K n)
    (r l : Fin n → V2 K) (h : ∀ k, IsMassless c (ps k) (r k) (l k)) (ang : Bool) (a b : Fin n) (hab : a ≠ b) (v : K)
    (t u : Str n) (w : u.Wf) (hp : plan2N ang a b t = .ok (u, 1)) (hs : u.s ∉ u.ms.flatten)
    (hne : u.ms.length % 2 = 1 ∨ u.s ≠ u.e) (hdist : u.first ≠ openOf ang ∨ (u.s ≠ a ∧ u.s ≠ b)) (p q : Fin n) (ax : Bool)
    (hcan : canFix ang a b u = some (p, q, ax)) (z : K) (g1 : HeadOk ang (r a) (l a))
    (g2 : ∀ ps1, setTwo c T ang a b v ps = .ok ps1 →
      ∃ y, computeOpenBegin ps1 (u.ms.map plusOf) u.e u.last = .ok y ∧ y 0 ≠ 0)
    (g3 : ∀ ps2 r2 l2, andThen (setTwo c T ang a b v ps) (setStr c T u 1 z) = .ok ps2 → Spin c ps2 r2 l2 →
      if ax then SpecAngle (r2 p) (r2 q) ≠ 0 else SpecSquare (l2 p) (l2 q) ≠ 0) :
    ∃ ps', pair2N c T ps ang a b v t z = .ok ps' ∧ GoodPoint c ps' ∧ twoVal ang a b ps' = .ok v ∧
      u.value ps' = .ok z ∧ ∀ k, k ≠ b → k ≠ u.s → k ≠ p → k ≠ q → ps' k = ps k := by
  obtain ⟨ps1, r1, l1, e1, h1, v1, o1, -⟩ := setTwo_spec hT (h : Spin c ps r l) hab v g1
  obtain ⟨y, hy, hy0⟩ := g2 ps1 e1
  rw [openBegin_eq h1 w] at hy
  injection hy with hy
  obtain ⟨ps2, r2, l2, e2, h2, v2, o2, -, -, o2'⟩ := setHead_linear h1 w hs hne z (by rw [hy]; exact hy0)
  have hu := uniqueEnd_head hs hne
  have run : setNB c 3 ps1 u z false 1 = .ok ps2 := by
    simp only [setNB, Bool.false_eq_true, and_false, if_false, Option.getD_none, Option.isSome_none]
    rw [if_pos (Or.inl ⟨Or.inl (by rw [hu]; rfl), trivial⟩), hu, if_neg (by simp)]
    simp only [e2]
  have run' : setStr c T u 1 z ps1 = .ok ps2 := by unfold setStr; rw [run]; exact setThen_ok hT v2
  have both : andThen (setTwo c T ang a b v ps) (setStr c T u 1 z) = .ok ps2 := by rw [e1]; exact run'
  obtain ⟨ne, s1, s2⟩ := canFix_safe w hcan
  obtain ⟨ps3, r3, l3, e3, hc, ho⟩ := fixPair_only c ps2 r2 l2 h2 ne ax (g3 ps2 r2 l2 both h2)
  obtain ⟨ra, la, oa⟩ := setHead_only h1 e2
  refine ⟨ps3, ?_, ⟨hc, r3, l3, ho.after⟩, ?_, ?_, fun k a1 a2 a3 a4 => ?_⟩
  · unfold pair2N
    rw [hp]
    simp only [both]
    simp only [andThen, fixStr, hcan]
    exact e3
  · have e5 : twoVal ang a b ps3 = twoVal ang a b ps2 := by
      obtain ⟨t1, t2⟩ := s1.value ho
      unfold twoVal
      cases ang
      · simpa using t2 rfl
      · simpa using t1 rfl
    rw [e5, ← v1]
    refine OneSpinor.two (m := (u.s, decide (u.first = '⟨'))) h1 oa ?_
    rintro ⟨d1, d2⟩
    rcases hdist with hd | hd
    · have d1' : decide (u.first = '⟨') = ang := d1
      rcases w.chars.1 with e | e <;> rw [e] at d1' hd <;> clear * - d1' hd <;> revert hd d1' <;> cases ang <;> decide
    · exact d2.elim hd.1 hd.2
  · rw [s2.value ho w]; exact v2
  · rw [ho.rest k a3 a4, o2 k a2, (o1 k a1).1]

/-- C98: the same for a three-bracket and two free labels. -/
theorem C98_three_returns [NeZero (2 : K)] (c : Ctx K) (T : Tol K Γ) (hT : T.abs 0 ≤ T.tol) (ps : Point K n)
    (r l : Fin n → V2 K) (h : ∀ k, IsMassless c (ps k) (r k) (l k)) (ang : Bool) (a b : Fin n) (hab : a ≠ b) (v : K)
    (t : T3 n) (hk : t.ang ≠ ang) (p q : Fin n) (hpq : FirstTwoFree ([a, b] ++ t.labels) p q)
    (hs : t.s ∉ t.m) (z : K) (g1 : HeadOk ang (r a) (l a))
    (g2 : ∀ ps1, setTwo c T ang a b v ps = .ok ps1 → HeadGuard ps1 t) (g3 : SpecSquare (l p) (l q) ≠ 0) :
    ∃ ps', pair2N c T ps ang a b v t.str z = .ok ps' ∧ GoodPoint c ps' ∧ twoVal ang a b ps' = .ok v ∧
      t.str.value ps' = .ok z ∧ ∀ k, k ≠ b → k ≠ t.s → k ≠ p → k ≠ q → ps' k = ps k := by
  obtain ⟨hcan, hplan⟩ := plan_three hk hpq (Or.inl rfl : t = t ∨ t = t.rev)
  rw [if_pos rfl] at hplan
  refine C98_returns c T hT ps r l h ang a b hab v t.str t.str t.wf hplan (by simpa [T3.str] using hs) (Or.inl rfl)
    (Or.inl ?_) p q false hcan z g1 g2 ?_
  · show openOf t.ang ≠ openOf ang
    revert hk; cases t.ang <;> cases ang <;> decide
  · intro ps2 r2 l2 e s
    rw [if_neg (by simp)]
    obtain ⟨ps1, e1, e2⟩ := andThen_inv e
    obtain ⟨ps1', r1, l1, e1', h1, -, o1, -⟩ := setTwo_spec hT (h : Spin c ps r l) hab v g1
    rw [e1] at e1'
    injection e1' with e1'
    subst e1'
    obtain ⟨ps2', r2', l2', e2', h2, -, o2, -⟩ := setThree_head hT h1 hs z (g2 ps1 e1)
    have e2'' : setStr c T t.str 1 z ps1 = .ok ps2' := e2'
    rw [e2] at e2''
    injection e2'' with e2''
    subst e2''
    have np : ∀ k, k ∈ [a, b] ++ t.labels → k ≠ p ∧ k ≠ q := fun k hk => firstTwoFree_ne hpq hk
    have nb := np b (by simp)
    have ns := np t.s (by simp [mem_t3])
    have el : ∀ k, k ≠ b → k ≠ t.s → l2 k = l k := fun k hb hs' => by
      have a1 := (s k).l_d
      rw [(o2 k hs').1, (o1 k hb).1, (h k).l_d] at a1
      injection a1 with a1
      exact a1.symm
    rw [el p nb.1.symm ns.1.symm, el q nb.2.symm ns.2.symm]
    exact g3

/-- C98 fails when the head so chosen occurs in the slot and the other end, which does not, is the first label of the
two-bracket: the string is then set through that end, which changes a spinor of the two-bracket. Whenever the method
returns, compared exactly, the two-bracket does not have its value, unless the string had its value by chance or a
component of the other spinor vanishes. -/
theorem C98_disturbed_partial [NeZero (2 : K)] (c : Ctx K) (T : Tol K Γ) (hT : ∀ x, T.abs x ≤ T.tol → x = 0) (ps : Point K n)
    (r l : Fin n → V2 K) (h : ∀ k, IsMassless c (ps k) (r k) (l k)) (ang : Bool) (a b : Fin n) (hab : a ≠ b) (v : K)
    (t : T3 n) (hk : t.ang ≠ ang) (p q : Fin n) (hpq : FirstTwoFree ([a, b] ++ t.labels) p q)
    (hs : t.s ∈ t.m) (he : t.e ∉ t.m) (hea : t.e = a) (z : K)
    (g : ∀ ps1 r1 l1, setTwo c T ang a b v ps = .ok ps1 → Spin c ps1 r1 l1 →
      t.str.value ps1 ≠ .ok z ∧ if ang then r1 b 0 ≠ 0 else l1 b 1 ≠ 0)
    (ps' : Point K n) (hr : pair2N c T ps ang a b v t.str z = .ok ps') : twoVal ang a b ps' ≠ .ok v := by
  obtain ⟨hcan, hplan⟩ := plan_three hk hpq (Or.inl rfl : t = t ∨ t = t.rev)
  rw [if_pos rfl] at hplan
  have hplan' : plan2N ang a b t.str = .ok (t.str, 1) := hplan
  unfold pair2N at hr
  rw [hplan'] at hr
  obtain ⟨ps2, hr, e3⟩ := andThen_inv hr
  obtain ⟨ps1, e1, e2⟩ := andThen_inv hr
  have e1' := e1
  obtain ⟨e1, y, hy, hy'⟩ := setThen_inv e1
  obtain ⟨e2, x, hx, hx'⟩ := setThen_inv e2
  have hs0 : Spin c ps r l := h
  obtain ⟨r1, l1, h1⟩ : ∃ r1 l1, Spin c ps1 r1 l1 := by
    split_ifs at e1
    · obtain ⟨r', o⟩ := setA2_only hs0 e1; exact ⟨r', l, o.after⟩
    · obtain ⟨l', o⟩ := setS2_only hs0 e1; exact ⟨r, l', o.after⟩
  obtain ⟨g1, g2⟩ := g ps1 r1 l1 e1' h1
  have hyv : y = v := sub_eq_zero.mp (hT _ hy')
  have hxz : x = z := sub_eq_zero.mp (hT _ hx')
  subst hyv hxz
  -- the string is set through its end
  have hne : t.s ≠ t.e := fun e => he (e ▸ hs)
  have hue : t.str.uniqueEnd = some true := by
    unfold Str.uniqueEnd
    rw [if_neg (fun hh => hh.1 (by simpa [T3.str] using hs)), if_pos ⟨by simpa [T3.str] using he, Or.inl rfl⟩]
  have hur : t.str.reverse.uniqueEnd = some false :=
    uniqueEnd_head (fun hh => he (by simpa [T3.str, Str.reverse] using hh)) (Or.inl rfl)
  have hhead : setHead c ps1 t.str.reverse x = .ok ps2 := by
    rw [setNB] at e2
    simp only [Bool.false_eq_true, and_false, if_false, Option.getD_none, Option.isSome_none] at e2
    rw [if_pos (Or.inl ⟨Or.inl (by rw [hue]; rfl), trivial⟩), if_pos hue, setNB] at e2
    simp only [Bool.false_eq_true, and_false, if_false, Option.getD_none, Option.isSome_none] at e2
    rw [if_pos (Or.inl ⟨Or.inl (by rw [hur]; rfl), trivial⟩), if_neg (by rw [hur]; simp)] at e2
    cases hq : setHead c ps1 t.str.reverse x with
    | error er => rw [hq] at e2; cases e2
    | ok q0 => rw [hq] at e2; exact e2
  obtain ⟨r2, l2, o2, comp⟩ := setHead_component h1 (by rintro ⟨-, h2⟩; simp [T3.str, Str.reverse] at h2) hhead
  have h2 := o2.after
  have hkind : t.str.reverse.first = '⟨' ↔ ang = true := by
    show mirror (closeOf !t.ang) = '⟨' ↔ _
    revert hk; cases t.ang <;> cases ang <;> decide
  have hse : t.str.reverse.s = a := hea
  rw [hse] at o2 comp
  simp only [hkind] at comp
  have hval : t.str.value ps2 ≠ t.str.value ps1 := by rw [hx]; exact fun e => g1 e.symm
  -- the other component changed, else the string would not have
  have hch : if ang then r2 a 1 ≠ r1 a 1 else l2 a 0 ≠ l1 a 0 := by
    have hrl : ¬(r2 = r1 ∧ l2 = l1) := by
      rintro ⟨rfl, rfl⟩
      exact hval (by rw [Str.value_eq h2 t.wf, Str.value_eq h1 t.wf,
        chain_congr' (ps := ps1) (ps' := ps2) fun k hk => (o2.rest k (fun e => he (by
          have := occurs_plus hk
          rw [e, ← hea] at this
          simpa [T3.str] using this))).1])
    have kept := o2.kept
    cases ang
    · simp only [hkind, Bool.false_eq_true, decide_false, if_false] at kept comp ⊢
      intro e
      refine hrl ⟨kept, funext fun k => ?_⟩
      by_cases hka : k = a
      · subst hka; ext i; fin_cases i
        · exact e
        · exact comp
      · exact (o2.rest k hka).2.2
    · simp only [hkind, decide_true, if_true] at kept comp ⊢
      intro e
      refine hrl ⟨funext fun k => ?_, kept⟩
      by_cases hka : k = a
      · subst hka; ext i; fin_cases i
        · exact comp
        · exact e
      · exact (o2.rest k hka).2.1
  obtain ⟨neq, s1, s2⟩ := canFix_safe t.wf hcan
  have hfix : fixAxis1 c ps2 p q = .ok ps' := by
    unfold fixStr at e3
    rw [hcan] at e3
    simpa using e3
  obtain ⟨ps3, r3, l3, e4, hc, ho⟩ := fixPair_only c ps2 r2 l2 h2 neq false (by
    rw [if_neg (by simp)]; exact fixAxis1_ne h2 hfix)
  have : ps3 = ps' := by
    have : fixPair c ps2 p q false = .ok ps' := by simpa [fixPair] using hfix
    rw [e4] at this; injection this
  subst this
  have e5 : twoVal ang a b ps3 = twoVal ang a b ps2 := by
    obtain ⟨t1, t2⟩ := s1.value ho
    unfold twoVal
    cases ang
    · simpa using t2 rfl
    · simpa using t1 rfl
  rw [e5]
  intro hbad
  rw [twoVal_eq h2] at hbad
  rw [twoVal_eq h1] at hy
  have hb := o2.rest b hab.symm
  cases ang
  · simp only [Bool.false_eq_true, if_false] at hbad hy comp hch g2
    injection hbad with hbad
    injection hy with hy
    rw [← hy, hb.2.2] at hbad
    simp only [SpecSquare, comp] at hbad
    exact hch (mul_right_cancel₀ g2 (by linear_combination hbad))
  · simp only [if_true] at hbad hy comp hch g2
    injection hbad with hbad
    injection hy with hy
    rw [← hy, hb.2.1] at hbad
    simp only [SpecAngle, comp] at hbad
    exact hch (mul_right_cancel₀ g2 (by linear_combination hbad))

end Lips

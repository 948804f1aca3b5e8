import Verif.Props.Brackets

/-!
C60 for six to nine particles: constructing `Invariants`.

At six and seven points every combination of flags constructs, except the one that already fails at five. At eight and nine
points it depends on the order in which Python traverses its sets, which changes with the seed of its hash function: if sets
are traversed in ascending order, `Invariants(n)` raises ValueError, in descending order it does not.
-/

namespace Lips

/-! ### Labels and slots -/

/-- The texts of the labels. -/
def labelTexts (n : ℕ) : List PStr := (List.range' 1 n).map pyStr

theorem labelTexts_nodup (n : ℕ) : (labelTexts n).Nodup := (List.nodup_range' (s := 1) (n := n) (step := 1)).map fun _ _ h => pyStr_inj h

theorem mem_labelTexts {n a : ℕ} : pyStr a ∈ labelTexts n ↔ 1 ≤ a ∧ a ≤ n := by
  constructor
  · intro h
    obtain ⟨b, hb, e⟩ := List.mem_map.1 h
    rw [List.mem_range'_1] at hb
    have := pyStr_inj e
    omega
  · intro h
    exact List.mem_map.2 ⟨a, List.mem_range'_1.2 (by omega), rfl⟩

theorem labelTexts_lt {n : ℕ} (h9 : n ≤ 9) : (labelTexts n).Pairwise (· < ·) := by
  interval_cases n <;> decide +kernel

theorem labelTexts_chars {n : ℕ} (h9 : n ≤ 9) : ((List.range' 1 n).flatMap pyStr).map (fun c => [c]) = labelTexts n := by
  interval_cases n <;> decide +kernel

/-- What a slot beside the label `a` is. -/
structure SlotOf (n a : ℕ) (m : List PStr) : Prop where
  sub : m.Sublist (labelTexts n)
  two : 2 ≤ m.length
  half : m.length ≤ n / 2
  away : pyStr a ∉ m

theorem pyRemove_sublist {β : Type*} [DecidableEq β] {l r : List β} {x : β} (h : pyRemove l x = .ok r) : r.Sublist l := by
  unfold pyRemove at h
  split at h
  · cases h; exact List.erase_sublist
  · cases h

/-- Removing from a list without repetitions. -/
theorem pyRemove_filter {β : Type*} [DecidableEq β] {l : List β} {x : β} (hl : l.Nodup) (h : x ∈ l) :
    pyRemove l x = .ok (l.filter fun y => decide (y ≠ x)) := by
  unfold pyRemove
  rw [if_pos h, hl.erase_eq_filter]
  congr 1
  refine List.filter_congr fun y _ => ?_
  by_cases hy : y = x <;> simp [hy]

theorem dropRepeats_sublist {n a1 a2 : ℕ} : ∀ (fuel i : ℕ) {comb r : List (List PStr)}, dropRepeats n a1 a2 fuel i comb = .ok r → r.Sublist comb
  | 0, _, comb, r, h => by cases h; exact .refl _
  | fuel + 1, i, comb, r, h => by
    unfold dropRepeats at h
    split at h
    · cases h; exact .refl _
    · split at h
      · cases h
      · split at h
        · cases h
        · next hc => exact (dropRepeats_sublist fuel (i + 1) h).trans (pyRemove_sublist hc)

theorem innerBracket_sublist {n length a1 a2 : ℕ} (h9 : n ≤ 9) {c : List (List PStr)} (h : innerBracket n length a1 a2 = .ok (some c)) :
    c.Sublist ((combs length (labelTexts n)).filter fun e => decide (pyStr a1 ∉ e ∧ pyStr a2 ∉ e)) := by
  unfold innerBracket at h
  rw [labelTexts_chars h9] at h
  dsimp only at h
  split at h
  · split at h
    · next hd => cases h; exact dropRepeats_sublist _ _ hd
    · cases h
  · split at h
    · cases h
    · cases h; exact .refl _

theorem loopLengths_spec {n a1 a2 : ℕ} (h9 : n ≤ 9) : ∀ (k s : ℕ) {r : List (List PStr)},
    loopLengths (fun length => innerBracket n length a1 a2) (List.range' s k) = .ok r →
    r.Nodup ∧ ∀ m ∈ r, m.Sublist (labelTexts n) ∧ s ≤ m.length ∧ m.length < s + k ∧ pyStr a1 ∉ m ∧ pyStr a2 ∉ m
  | 0, s, r, h => by cases h; simp
  | k + 1, s, r, h => by
    rw [List.range'_succ] at h
    unfold loopLengths at h
    split at h
    · cases h
    · cases h; simp
    · next c hc =>
      split at h
      · cases h
      · next r' hr =>
        cases h
        obtain ⟨h1, h2⟩ := loopLengths_spec h9 k (s + 1) hr
        have hs := innerBracket_sublist h9 hc
        have hm : ∀ m ∈ c, m.Sublist (labelTexts n) ∧ m.length = s ∧ pyStr a1 ∉ m ∧ pyStr a2 ∉ m := by
          intro m hm
          have := List.mem_filter.1 (hs.subset hm)
          have h3 := mem_combs.1 this.1
          have h4 := of_decide_eq_true this.2
          exact ⟨h3.1, h3.2, h4⟩
        refine ⟨((nodup_combs (labelTexts_nodup n) s).filter _ |>.sublist hs).append h1 ?_, ?_⟩
        · intro m hm1 hm2
          have := hm m hm1
          have := h2 m hm2
          omega
        · intro m hmm
          rcases List.mem_append.1 hmm with hmm | hmm
          · obtain ⟨x1, x2, x3⟩ := hm m hmm
            exact ⟨x1, by omega, by omega, x3⟩
          · obtain ⟨x1, x2, x3, x4⟩ := h2 m hmm
            exact ⟨x1, by omega, by omega, x4⟩

set_option maxRecDepth 100000 in
theorem slots_isOk : ∀ n ∈ List.range' 6 4, ∀ a ∈ List.range' 1 n, ∀ b ∈ List.range (n + 1), (slotsFor n a b).isOk = true := by
  decide +kernel

/-- The slots are found, without repetition. -/
theorem slotsFor_ok {n a b : ℕ} (h6 : 6 ≤ n) (h9 : n ≤ 9) (ha : 1 ≤ a ∧ a ≤ n) (hb : b ≤ n) :
    ∃ S, slotsFor n a b = .ok S ∧ S.Nodup ∧ ∀ m ∈ S, SlotOf n a m ∧ pyStr b ∉ m := by
  obtain ⟨S, hS⟩ := isOk_iff.1 (slots_isOk n (List.mem_range'_1.2 (by omega)) a (List.mem_range'_1.2 (by omega)) b (List.mem_range.2 (by omega)))
  obtain ⟨h1, h2⟩ := loopLengths_spec h9 _ _ hS
  refine ⟨S, hS, h1, fun m hm => ?_⟩
  obtain ⟨x1, x2, x3, x4, x5⟩ := h2 m hm
  exact ⟨⟨x1, x2, by omega, x4⟩, x5⟩

/-! ### Complements -/

theorem foldlM_pyRemove {n : ℕ} : ∀ (l acc : List PStr), acc.Nodup → l.Nodup → (∀ x ∈ l, x ∈ acc) →
    l.foldlM pyRemove acc = Except.ok (acc.filter fun x => decide (x ∉ l))
  | [], acc, _, _, _ => by simp [pure, Except.pure]
  | x :: l, acc, ha, hl, h => by
    simp only [List.foldlM_cons]
    rw [pyRemove_filter ha (h x (by simp))]
    have hl' := List.nodup_cons.1 hl
    refine (foldlM_pyRemove (n := n) l _ (ha.filter _) hl'.2 fun y hy => List.mem_filter.2 ⟨h y (by simp [hy]), by simpa using (fun e => hl'.1 (e ▸ hy) : ¬ y = x)⟩).trans ?_
    rw [List.filter_filter]
    congr 1
    refine List.filter_congr fun y _ => ?_
    by_cases h1 : y = x <;> by_cases h2 : y ∈ l <;> simp [h1, h2]

theorem compStr_ok {n : ℕ} {l : List PStr} (hl : l.Nodup) (h : ∀ x ∈ l, x ∈ labelTexts n) :
    compStr n l = .ok ((labelTexts n).filter fun x => decide (x ∉ l)) :=
  foldlM_pyRemove (n := n) l _ (labelTexts_nodup n) hl h

/-- The labels of neither slot, besides the label `a`. -/
def restOf (n a : ℕ) (m0 m1 : List PStr) : List PStr := (labelTexts n).filter fun x => decide (x ∉ m0 ∧ x ∉ m1 ∧ x ≠ pyStr a)

/-- The labels outside a slot and different from `a`. -/
def offOf (n a : ℕ) (m : List PStr) : List PStr := (labelTexts n).filter fun x => decide (x ∉ m ∧ x ≠ pyStr a)

theorem altOf_ok {n a : ℕ} {m : List PStr} (h6 : 6 ≤ n) (ha : 1 ≤ a ∧ a ≤ n) (hm : SlotOf n a m) : altOf n m a = .ok (offOf n a m) := by
  have hc : compStr n (m ++ [pyStr a]).dedup = .ok (offOf n a m) := by
    rw [compStr_ok (List.nodup_dedup _)]
    · congr 1
      refine List.filter_congr fun x _ => ?_
      simp [List.mem_dedup, not_or]
    · intro x hx
      rw [List.mem_dedup, List.mem_append] at hx
      rcases hx with hx | hx
      · exact hm.sub.subset hx
      · rw [List.mem_singleton.1 hx]; exact mem_labelTexts.2 ha
  have hne : offOf n a m ≠ [] := by
    intro h0
    have hsub : labelTexts n ⊆ pyStr a :: m := by
      intro x hx
      by_contra hn
      have : x ∈ offOf n a m := List.mem_filter.2 ⟨hx, by simp at hn; simp [hn]⟩
      rw [h0] at this
      cases this
    have := ((labelTexts_nodup n).subperm hsub).length_le
    have h1 := hm.half
    simp [labelTexts] at this
    omega
  unfold altOf
  rw [hc]
  split
  · next h => cases h
  · next h => exact absurd (Except.ok.inj h) hne
  · next h => rw [← Except.ok.inj h]

theorem subS_iff {x y : List PStr} : subS x y = true ↔ x ⊆ y := by
  unfold subS
  rw [List.all_eq_true]
  exact ⟨fun h e he => of_decide_eq_true (h e he), fun h e he => decide_eq_true (h he)⟩

theorem subS_off {n a : ℕ} {m0 m1 : List PStr} (h0 : SlotOf n a m0) : subS m0 (offOf n a m1) = true ↔ m0.Disjoint m1 := by
  rw [subS_iff]
  constructor
  · intro h x hx hx1
    have := of_decide_eq_true (List.mem_filter.1 (h hx)).2
    exact this.1 hx1
  · intro h x hx
    exact List.mem_filter.2 ⟨h0.sub.subset hx, decide_eq_true ⟨fun h1 => h hx h1, fun e => h0.away (e ▸ hx)⟩⟩

theorem diffS_off (n a : ℕ) (m0 m1 : List PStr) : diffS (offOf n a m1) m0 = restOf n a m0 m1 := by
  unfold diffS offOf restOf
  rw [List.filter_filter]
  refine List.filter_congr fun x _ => ?_
  by_cases h0 : x ∈ m0 <;> by_cases h1 : x ∈ m1 <;> by_cases h2 : x = pyStr a <;> simp [h0, h1, h2]

theorem restOf_comm (n a : ℕ) (m0 m1 : List PStr) : restOf n a m0 m1 = restOf n a m1 m0 := by
  unfold restOf
  refine List.filter_congr fun x _ => ?_
  by_cases h0 : x ∈ m0 <;> by_cases h1 : x ∈ m1 <;> simp [h0, h1]

/-- Lists of labels in their order are determined by their members. -/
theorem sublist_ext {n : ℕ} {x y : List PStr} (hx : x.Sublist (labelTexts n)) (hy : y.Sublist (labelTexts n)) (h : ∀ t, t ∈ x ↔ t ∈ y) : x = y := by
  have hf : ∀ z : List PStr, z.Sublist (labelTexts n) → z = (labelTexts n).filter fun t => decide (t ∈ z) := by
    intro z hz
    generalize hL : labelTexts n = L at hz
    have hn : L.Nodup := hL ▸ labelTexts_nodup n
    clear hL
    induction hz with
    | slnil => rfl
    | @cons l₁ l₂ a hs ih =>
      have hn' := List.nodup_cons.1 hn
      rw [List.filter_cons_of_neg (by simpa using fun h => hn'.1 (hs.subset h))]
      exact ih hn'.2
    | @cons_cons l₁ l₂ a hs ih =>
      have hn' := List.nodup_cons.1 hn
      rw [List.filter_cons_of_pos (by simp)]
      congr 1
      refine (ih hn'.2).trans (List.filter_congr fun t ht => ?_)
      have : t ≠ a := fun e => hn'.1 (e ▸ ht)
      simp [this]
  rw [hf x hx, hf y hy]
  exact List.filter_congr fun t _ => by simp [h t]

/-- The third slot determines the second. -/
theorem rest_rest {n a : ℕ} {m0 m1 : List PStr} (h1 : SlotOf n a m1) (hd : m0.Disjoint m1) : restOf n a m0 (restOf n a m0 m1) = m1 := by
  refine sublist_ext List.filter_sublist h1.sub fun t => ?_
  unfold restOf
  simp only [List.mem_filter, decide_eq_true_eq]
  constructor
  · rintro ⟨a1, a2, a3, a4⟩
    by_contra hn
    exact a3 ⟨a1, a2, hn, a4⟩
  · intro ht
    exact ⟨h1.sub.subset ht, fun h => hd h ht, fun h => h.2.2.1 ht, fun e => h1.away (e ▸ ht)⟩

/-! ### The strings with two slots -/

/-- The slots beside one label. -/
def slotList (n a b : ℕ) : List (List PStr) :=
  match slotsFor n a b with
  | .ok S => S
  | .error _ => []

theorem slotsFor_eq {n a b : ℕ} (h6 : 6 ≤ n) (h9 : n ≤ 9) (ha : 1 ≤ a ∧ a ≤ n) (hb : b ≤ n) :
    slotsFor n a b = .ok (slotList n a b) ∧ (slotList n a b).Nodup ∧ ∀ m ∈ slotList n a b, SlotOf n a m ∧ pyStr b ∉ m := by
  obtain ⟨S, h1, h2⟩ := slotsFor_ok h6 h9 ha hb
  unfold slotList
  rw [h1]
  exact ⟨rfl, h2⟩

/-- The pairs of slots between two labels. -/
def pairList (n a d : ℕ) : List (List (List PStr)) :=
  (slotList n d 0).flatMap fun m2 => (slotList n a 0).flatMap fun m1 =>
    if m1 = m2 then [] else if a = d ∧ greaterSlot m1 m2 = true then [] else [[m1, m2]]

/-- The strings between two labels. -/
def blockOf (n a d : ℕ) : List Brk :=
  if a > d then [] else ((pairList n a d).map fun m => (⟨'⟨', a, m, d, '⟩'⟩ : Brk)) ++ (pairList n a d).map fun m => (⟨'[', a, m, d, ']'⟩ : Brk)

def rawOf (n : ℕ) : List Brk := (List.range' 1 n).flatMap fun a => (List.range' 1 n).flatMap fun d => blockOf n a d

theorem collect_eq {β γ : Type*} {f : β → Except Err (List γ)} {g : β → List γ} : ∀ {l : List β}, (∀ x ∈ l, f x = .ok (g x)) →
    collect f l = .ok (l.flatMap g)
  | [], _ => rfl
  | x :: l, h => by
    unfold collect
    rw [h x (by simp), collect_eq fun y hy => h y (by simp [hy])]
    rfl

theorem all4raw_eq {n : ℕ} (h6 : 6 ≤ n) (h9 : n ≤ 9) : all4raw n = .ok (rawOf n) := by
  unfold all4raw rawOf
  refine collect_eq fun a ha => collect_eq fun d hd => ?_
  rw [List.mem_range'_1] at ha hd
  unfold blockOf
  split
  · rfl
  · have hp : slotPairs n a d = .ok (pairList n a d) := by
      unfold slotPairs pairList
      rw [(slotsFor_eq h6 h9 (by omega) (by omega)).1, (slotsFor_eq h6 h9 (by omega) (by omega)).1]
    rw [hp]

/-- What the generated strings are. -/
structure GoodBrk (n : ℕ) (b : Brk) : Prop where
  a1 : 1 ≤ b.a
  le : b.a ≤ b.d
  dn : b.d ≤ n
  kind : (b.first = '⟨' ∧ b.last = '⟩') ∨ (b.first = '[' ∧ b.last = ']')
  mids : ∃ m0 ∈ slotList n b.a 0, ∃ m1 ∈ slotList n b.d 0, m0 ≠ m1 ∧ (b.a = b.d → greaterSlot m0 m1 = false) ∧ b.mids = [m0, m1]

theorem mem_pairList {n a d : ℕ} {ms : List (List PStr)} : ms ∈ pairList n a d ↔
    ∃ m0 ∈ slotList n a 0, ∃ m1 ∈ slotList n d 0, m0 ≠ m1 ∧ (a = d → greaterSlot m0 m1 = false) ∧ ms = [m0, m1] := by
  unfold pairList
  simp only [List.mem_flatMap]
  constructor
  · rintro ⟨m1, h1, m0, h0, h⟩
    split at h
    · cases h
    · next hne =>
      split at h
      · cases h
      · next hg =>
        refine ⟨m0, h0, m1, h1, hne, fun e => ?_, List.mem_singleton.1 h⟩
        simpa [e] using hg
  · rintro ⟨m0, h0, m1, h1, hne, hg, rfl⟩
    refine ⟨m1, h1, m0, h0, ?_⟩
    rw [if_neg hne, if_neg (fun h => by rw [hg h.1] at h; exact absurd h.2 (by decide))]
    simp

theorem mem_rawOf {n : ℕ} {b : Brk} : b ∈ rawOf n ↔ GoodBrk n b := by
  unfold rawOf blockOf
  simp only [List.mem_flatMap, List.mem_range'_1]
  constructor
  · rintro ⟨a, ha, d, hd, h⟩
    split at h
    · cases h
    · rcases List.mem_append.1 h with h | h
      · obtain ⟨m, hm, rfl⟩ := List.mem_map.1 h
        exact ⟨ha.1, by dsimp only; omega, by dsimp only; omega, .inl ⟨rfl, rfl⟩, mem_pairList.1 hm⟩
      · obtain ⟨m, hm, rfl⟩ := List.mem_map.1 h
        exact ⟨ha.1, by dsimp only; omega, by dsimp only; omega, .inr ⟨rfl, rfl⟩, mem_pairList.1 hm⟩
  · intro h
    obtain ⟨f, a, m, d, l⟩ := b
    obtain ⟨h1, h2, h3, h4, h5⟩ := h
    dsimp only at *
    refine ⟨a, by omega, d, by omega, ?_⟩
    rw [if_neg (by omega), List.mem_append]
    rcases h4 with ⟨rfl, rfl⟩ | ⟨rfl, rfl⟩
    · exact .inl (List.mem_map.2 ⟨m, mem_pairList.2 h5, rfl⟩)
    · exact .inr (List.mem_map.2 ⟨m, mem_pairList.2 h5, rfl⟩)

/-- In which order the strings stand. -/
def BrkBefore (n : ℕ) (b c : Brk) : Prop :=
  b ≠ c ∧ (b.first = c.first → b.a = c.a → b.d = c.d → ∀ m0 m0' m1, b.mids = [m0, m1] → c.mids = [m0', m1] →
    (slotList n b.a 0).idxOf m0 < (slotList n b.a 0).idxOf m0')

theorem pairwise_idxOf {β : Type*} [BEq β] [LawfulBEq β] {l : List β} (h : l.Nodup) : l.Pairwise fun x y => l.idxOf x < l.idxOf y := by
  rw [List.pairwise_iff_getElem]
  intro i j hi hj hij
  rw [h.idxOf_getElem i hi, h.idxOf_getElem j hj]
  exact hij

theorem pairList_pairwise {n a d : ℕ} (h0 : (slotList n a 0).Nodup) (h1 : (slotList n d 0).Nodup) :
    (pairList n a d).Pairwise fun x y => x ≠ y ∧ ∀ m0 m0' m1, x = [m0, m1] → y = [m0', m1] →
      (slotList n a 0).idxOf m0 < (slotList n a 0).idxOf m0' := by
  unfold pairList
  rw [List.pairwise_flatMap]
  constructor
  · intro m2 _
    rw [List.pairwise_flatMap]
    constructor
    · intro m1 _
      split
      · simp
      · split <;> simp
    · refine (pairwise_idxOf h0).imp fun {m m'} hlt x hx y hy => ?_
      split at hx
      · cases hx
      split at hx
      · cases hx
      split at hy
      · cases hy
      split at hy
      · cases hy
      rw [List.mem_singleton.1 hx, List.mem_singleton.1 hy]
      refine ⟨fun e => ?_, fun u u' v e e' => ?_⟩
      · rw [(List.cons.inj e).1] at hlt
        exact absurd hlt (lt_irrefl _)
      · rw [← (List.cons.inj e).1, ← (List.cons.inj e').1]
        exact hlt
  · refine h1.imp fun {m m'} hne x hx y hy => ?_
    obtain ⟨u, _, hx⟩ := List.mem_flatMap.1 hx
    obtain ⟨u', _, hy⟩ := List.mem_flatMap.1 hy
    split at hx
    · cases hx
    split at hx
    · cases hx
    split at hy
    · cases hy
    split at hy
    · cases hy
    rw [List.mem_singleton.1 hx, List.mem_singleton.1 hy]
    refine ⟨fun e => hne ?_, fun v v' w e e' => (hne ?_).elim⟩
    · injection e with _ e
      injection e
    · simp only [List.cons.injEq, and_true] at e e'
      rw [e.2, e'.2]

theorem rawOf_pairwise {n : ℕ} (h6 : 6 ≤ n) (h9 : n ≤ 9) : (rawOf n).Pairwise (BrkBefore n) := by
  unfold rawOf
  have blk : ∀ a d, ∀ b ∈ blockOf n a d, b.a = a ∧ b.d = d := by
    intro a d b hb
    unfold blockOf at hb
    split at hb
    · cases hb
    · rcases List.mem_append.1 hb with hb | hb
      · obtain ⟨m, _, rfl⟩ := List.mem_map.1 hb
        exact ⟨rfl, rfl⟩
      · obtain ⟨m, _, rfl⟩ := List.mem_map.1 hb
        exact ⟨rfl, rfl⟩
  rw [List.pairwise_flatMap]
  refine ⟨fun a ha => ?_, ?_⟩
  · rw [List.pairwise_flatMap]
    refine ⟨fun d hd => ?_, ?_⟩
    · rw [List.mem_range'_1] at ha hd
      unfold blockOf
      split
      · simp
      · have hp := pairList_pairwise (n := n) (slotsFor_eq (a := a) (b := 0) h6 h9 (by omega) (by omega)).2.1
          (slotsFor_eq (a := d) (b := 0) h6 h9 (by omega) (by omega)).2.1
        rw [List.pairwise_append]
        refine ⟨List.pairwise_map.2 (hp.imp fun {x y} h => ⟨fun e => h.1 (Brk.mk.inj e).2.2.1, fun _ _ _ => h.2⟩),
          List.pairwise_map.2 (hp.imp fun {x y} h => ⟨fun e => h.1 (Brk.mk.inj e).2.2.1, fun _ _ _ => h.2⟩), ?_⟩
        intro x hx y hy
        obtain ⟨m, _, rfl⟩ := List.mem_map.1 hx
        obtain ⟨m', _, rfl⟩ := List.mem_map.1 hy
        exact ⟨fun e => absurd (Brk.mk.inj e).1 (by decide), fun e => absurd (show '⟨' = '[' from e) (by decide)⟩
    · refine (List.nodup_range' (s := 1) (n := n) (step := 1)).imp fun {d d'} hne x hx y hy => ?_
      have e1 := blk _ _ x hx
      have e2 := blk _ _ y hy
      exact ⟨fun e => hne (by rw [← e1.2, ← e2.2, e]), fun _ _ e => (hne (by rw [← e1.2, ← e2.2, e])).elim⟩
  · refine (List.nodup_range' (s := 1) (n := n) (step := 1)).imp fun {a a'} hne x hx y hy => ?_
    obtain ⟨d, _, hx⟩ := List.mem_flatMap.1 hx
    obtain ⟨d', _, hy⟩ := List.mem_flatMap.1 hy
    have e1 := blk _ _ x hx
    have e2 := blk _ _ y hy
    exact ⟨fun e => hne (by rw [← e1.1, ← e2.1, e]), fun _ e => (hne (by rw [← e1.1, ← e2.1, e])).elim⟩

/-! ### Loops that remove from what they run over -/

/-- A loop over a copy that removes some of its elements. -/
def ownLoop (P : Brk → Except Err Bool) : List Brk → List Brk → Except Err (List Brk)
  | [], r => .ok r
  | b :: bs, r =>
    match P b with
    | .error e => .error e
    | .ok false => ownLoop P bs r
    | .ok true =>
      match pyRemove r b with
      | .error e => .error e
      | .ok r' => ownLoop P bs r'

theorem ownLoop_ok {P : Brk → Except Err Bool} : ∀ {bs r : List Brk}, (∀ b ∈ bs, ∃ t, P b = .ok t) → bs.Nodup → r.Nodup → bs ⊆ r →
    ∃ r', ownLoop P bs r = .ok r' ∧ r'.Sublist r ∧ ∀ x, x ∈ r' ↔ x ∈ r ∧ ¬ (x ∈ bs ∧ P x = .ok true)
  | [], r, _, _, _, _ => ⟨r, rfl, .refl _, by simp⟩
  | b :: bs, r, hP, hb, hr, hs => by
    have hb' := List.nodup_cons.1 hb
    obtain ⟨t, ht⟩ := hP b (by simp)
    unfold ownLoop
    rw [ht]
    cases t with
    | false =>
      obtain ⟨r', h1, h2, h3⟩ := ownLoop_ok (P := P) (fun x hx => hP x (by simp [hx])) hb'.2 hr fun x hx => hs (by simp [hx])
      refine ⟨r', h1, h2, fun x => (h3 x).trans (and_congr_right fun _ => not_congr ?_)⟩
      constructor
      · exact fun h => ⟨by simp [h.1], h.2⟩
      · rintro ⟨h, h'⟩
        rcases List.mem_cons.1 h with rfl | h
        · rw [ht] at h'; cases h'
        · exact ⟨h, h'⟩
    | true =>
      have hm : b ∈ r := hs (by simp)
      simp only
      rw [pyRemove_filter hr hm]
      obtain ⟨r', h1, h2, h3⟩ := ownLoop_ok (P := P) (bs := bs) (r := r.filter fun y => decide (y ≠ b)) (fun x hx => hP x (by simp [hx])) hb'.2
        (hr.filter _) fun x hx => List.mem_filter.2 ⟨hs (by simp [hx]), by simpa using (fun e => hb'.1 (e ▸ hx) : ¬ x = b)⟩
      refine ⟨r', h1, h2.trans List.filter_sublist, fun x => (h3 x).trans ?_⟩
      rw [List.mem_filter]
      simp only [decide_eq_true_eq, List.mem_cons]
      constructor
      · rintro ⟨⟨x1, x2⟩, x3⟩
        exact ⟨x1, fun h => x3 ⟨h.1.resolve_left x2, h.2⟩⟩
      · rintro ⟨x1, x2⟩
        exact ⟨⟨x1, fun e => x2 ⟨.inl e, e ▸ ht⟩⟩, fun h => x2 ⟨.inr h.1, h.2⟩⟩

theorem removeReducible_own (n : ℕ) : ∀ bs r : List Brk, removeReducible n bs r = ownLoop (reducible n) bs r
  | [], _ => rfl
  | b :: bs, r => by
    unfold removeReducible ownLoop
    rcases reducible n b with e | t
    · rfl
    · cases t
      · exact removeReducible_own n bs r
      · dsimp only
        rcases pyRemove r b with e | r'
        · rfl
        · exact removeReducible_own n bs r'

/-- The condition of `Purge3Brackets`. -/
def purge3Test (n : ℕ) (b : Brk) : Except Err Bool :=
  match b.mids with
  | m :: _ =>
    match compStr n (m ++ [pyStr b.a] ++ [pyStr b.d]).dedup with
    | .error e => .error e
    | .ok comp => .ok (needsRemoval3 n b.a (m.map intOf) b.d && needsRemoval3 n b.a (comp.map intOf) b.d)
  | [] => .error .indexError

theorem purge3_own (n : ℕ) : ∀ bs r : List Brk, purge3 n bs r = ownLoop (purge3Test n) bs r
  | [], _ => rfl
  | b :: bs, r => by
    unfold purge3 ownLoop purge3Test
    rcases b.mids with _ | ⟨m, ms⟩
    · rfl
    · dsimp only
      rcases compStr n (m ++ [pyStr b.a] ++ [pyStr b.d]).dedup with e | c
      · rfl
      · dsimp only
        split
        · next h =>
          rw [h]
          dsimp only
          rcases pyRemove r b with e | r'
          · rfl
          · exact purge3_own n bs r'
        · next h =>
          rw [Bool.eq_false_iff.2 h]
          exact purge3_own n bs r

/-- The condition of `Purge4Brackets`. -/
def purge4Test (n : ℕ) (further : Bool) (b : Brk) : Except Err Bool :=
  if b.mids.any fun m => decide (3 < (['+'].intercalate m).length) then .ok true
  else if further then
    match neigh4 n b with
    | .error e => .error e
    | .ok t => .ok !t
  else .error .typeError

theorem purge4_own (n : ℕ) (further : Bool) : ∀ bs r : List Brk, purge4 n further bs r = ownLoop (purge4Test n further) bs r
  | [], _ => rfl
  | b :: bs, r => by
    unfold purge4 ownLoop
    by_cases hl : (b.mids.any fun m => decide (3 < (['+'].intercalate m).length)) = true
    · rw [if_pos hl, show purge4Test n further b = .ok true from if_pos hl]
      dsimp only
      rcases pyRemove r b with e | r'
      · rfl
      · exact purge4_own n further bs r'
    · rw [if_neg hl]
      cases further with
      | false => rw [show purge4Test n false b = .error .typeError from if_neg hl]; rfl
      | true =>
        rw [if_pos rfl]
        rcases ht : neigh4 n b with e | t
        · rw [show purge4Test n true b = .error e from (if_neg hl).trans (by rw [if_pos rfl, ht])]
        · rw [show purge4Test n true b = .ok !t from (if_neg hl).trans (by rw [if_pos rfl, ht])]
          cases t
          · dsimp only [Bool.not_false]
            rcases pyRemove r b with e | r'
            · rfl
            · exact purge4_own n true bs r'
          · exact purge4_own n true bs r

/-! ### No other exceptions -/

section
variable {n : ℕ} (h6 : 6 ≤ n) (h9 : n ≤ 9)
include h6 h9

theorem GoodBrk.slots {b : Brk} (h : GoodBrk n b) : ∃ m0 m1, b.mids = [m0, m1] ∧ m0 ∈ slotList n b.a 0 ∧ m1 ∈ slotList n b.d 0 ∧
    SlotOf n b.a m0 ∧ SlotOf n b.d m1 ∧ (b.a = b.d → greaterSlot m0 m1 = false) := by
  obtain ⟨m0, h0, m1, h1, -, hg, e⟩ := h.mids
  have ha := h.a1; have hl := h.le; have hd := h.dn
  exact ⟨m0, m1, e, h0, h1, ((slotsFor_eq h6 h9 (by omega) (by omega)).2.2 m0 h0).1, ((slotsFor_eq h6 h9 (by omega) (by omega)).2.2 m1 h1).1, hg⟩

theorem reducible_ok {b : Brk} (h : GoodBrk n b) : ∃ t, reducible n b = .ok t := by
  obtain ⟨m0, m1, e, -, -, h0, h1, -⟩ := h.slots h6 h9
  have ha := h.a1; have hl := h.le; have hd := h.dn
  unfold reducible
  rw [e]
  dsimp only
  rw [altOf_ok h6 (by omega) h0, altOf_ok h6 (by omega) h1]
  exact ⟨_, rfl⟩

omit h6 h9 in
theorem nearHalf_ok {k a : ℤ} {m : List PStr} (h : 2 ≤ m.length) : ∃ t, nearHalf k a m = .ok t := by
  obtain _ | ⟨x, _ | ⟨y, m⟩⟩ := m
  · simp at h
  · simp at h
  · exact ⟨_, rfl⟩

theorem neigh4_ok {b : Brk} (h : GoodBrk n b) : ∃ t, neigh4 n b = .ok t := by
  obtain ⟨m0, m1, e, -, -, h0, h1, -⟩ := h.slots h6 h9
  obtain ⟨t0, e0⟩ := nearHalf_ok (k := n) (a := b.a) h0.two
  obtain ⟨t1, e1⟩ := nearHalf_ok (k := n) (a := b.d) h1.two
  unfold neigh4
  rw [e]
  dsimp only
  rw [e0]
  cases t0
  · exact ⟨_, rfl⟩
  · exact ⟨_, e1⟩

/-- The strings before the doubles are removed. -/
theorem reduced_ok : ∃ r4, removeReducible n (rawOf n) (rawOf n) = .ok r4 ∧ r4.Pairwise (BrkBefore n) ∧
    ∀ b, b ∈ r4 ↔ GoodBrk n b ∧ reducible n b ≠ .ok true := by
  have hp := rawOf_pairwise h6 h9
  have hn : (rawOf n).Nodup := hp.imp fun h => h.1
  rw [removeReducible_own]
  obtain ⟨r, h1, h2, h3⟩ := ownLoop_ok (P := reducible n) (bs := rawOf n) (r := rawOf n) (fun b hb => reducible_ok h6 h9 (mem_rawOf.1 hb)) hn hn
    fun _ h => h
  refine ⟨r, h1, hp.sublist h2, fun b => (h3 b).trans ?_⟩
  rw [mem_rawOf]
  exact ⟨fun h => ⟨h.1, fun e => h.2 ⟨h.1, e⟩⟩, fun h => ⟨h.1, fun e => h.2 e.2⟩⟩

/-! ### One step of the removal of doubles -/

/-- The first equal string, as written in ascending order. -/
def twinA (n : ℕ) (b : Brk) (m0 m1 : List PStr) : Brk := ⟨b.first, b.a, [m0, restOf n b.a m0 m1], b.d, b.last⟩

/-- The second one. -/
def twinB (n : ℕ) (b : Brk) (m0 m1 : List PStr) : Brk := ⟨b.first, b.a, [restOf n b.a m0 m1, m1], b.d, b.last⟩

/-- What a step does: `r` becomes `r'`, or it raises. -/
inductive Step (n i : ℕ) (copy : List Brk) (b : Brk) (m0 m1 : List PStr) (r : List Brk) : Except Err (List Brk) → Prop
  | keep : Step n i copy b m0 m1 r (.ok r)
  | later : twinA n b m0 m1 ∈ r → neigh4 n (twinA n b m0 m1) = .ok true → neigh4 n b = .ok true → i < copy.idxOf (twinA n b m0 m1) →
      Step n i copy b m0 m1 r (.ok (r.filter fun y => decide (y ≠ twinA n b m0 m1)))
  | own : twinA n b m0 m1 ∈ r → neigh4 n (twinA n b m0 m1) = .ok true → neigh4 n b = .ok false → b ∈ r →
      Step n i copy b m0 m1 r (.ok (r.filter fun y => decide (y ≠ b)))
  | fails : twinA n b m0 m1 ∈ r → neigh4 n (twinA n b m0 m1) = .ok true → neigh4 n b = .ok false → b ∉ r →
      Step n i copy b m0 m1 r (.error .valueError)
  | other : twinA n b m0 m1 ∈ r → neigh4 n (twinA n b m0 m1) = .ok false → neigh4 n b = .ok false →
      Step n i copy b m0 m1 r (.ok (r.filter fun y => decide (y ≠ twinA n b m0 m1)))

/-- The second half of a step. -/
def secondStep (i : ℕ) (copy : List Brk) (F : Brk) (r : List Brk) : Except Err (List Brk) :=
  if F ∈ r ∧ i < copy.idxOf F then pyRemove r F else .ok r

omit h6 h9 in
/-- A rearrangement in ascending order is the list itself. -/
theorem order_eq {x y : List PStr} (hx : x.Sublist (labelTexts n)) (hy : y.Sublist (labelTexts n)) (h : x.Perm y) : x = y := by
  exact sublist_ext hx hy fun t => h.mem_iff

/-- A step on a string with equal ends and slots apart. -/
theorem removeDouble_shape {ord : SetOrder} {copy r : List Brk} {i : ℕ} {b : Brk} (h : GoodBrk n b) {m0 m1 : List PStr} (e : b.mids = [m0, m1])
    (had : b.a = b.d) (hdis : m0.Disjoint m1) : removeDouble n ord copy i b r =
      (firstDouble n copy i b ⟨b.first, b.a, [ord (4 * i) m0, ord (4 * i + 1) (restOf n b.a m0 m1)], b.d, b.last⟩ r).bind
        (secondStep i copy ⟨b.first, b.a, [ord (4 * i + 2) (restOf n b.a m0 m1), ord (4 * i + 3) m1], b.d, b.last⟩) := by
  obtain ⟨w0, w1, ew, -, -, h0, h1, -⟩ := h.slots h6 h9
  rw [e] at ew
  simp only [List.cons.injEq, and_true] at ew
  obtain ⟨rfl, rfl⟩ := ew
  have ha := h.a1; have hl := h.le; have hd := h.dn
  rw [← had] at h1
  have n1 : subS m0 (offOf n b.a m1) = true := (subS_off h0).2 hdis
  have n2 : subS m1 (offOf n b.a m0) = true := (subS_off h1).2 hdis.symm
  have e1 := altOf_ok h6 (by omega) h1
  unfold removeDouble
  rw [if_neg (fun hn => hn had), e]
  dsimp only
  rw [altOf_ok h6 (by omega) h0, show altOf n m1 b.d = .ok (offOf n b.a m1) by rw [← had]; exact e1]
  dsimp only
  rw [if_pos n1, diffS_off, diffS_off, restOf_comm n b.a m1 m0]
  rcases firstDouble n copy i b ⟨b.first, b.a, [ord (4 * i) m0, ord (4 * i + 1) (restOf n b.a m0 m1)], b.d, b.last⟩ r with x | r'
  · rfl
  · dsimp only
    rw [if_pos n2]
    rfl

/-- A step, for orders that are rearrangements. -/
theorem removeDouble_step {ord : SetOrder} (hord : ∀ k l, (ord k l).Perm l) {copy r : List Brk} (hr : r.Nodup)
    (hg : ∀ b ∈ r, GoodBrk n b) {i : ℕ} {b : Brk} (h : GoodBrk n b) :
    removeDouble n ord copy i b r = .ok r ∨
    ∃ m0 m1, b.mids = [m0, m1] ∧ b.a = b.d ∧ m0.Disjoint m1 ∧ ∃ x, Step n i copy b m0 m1 r x ∧
      ∃ F : Brk, (F = twinB n b m0 m1 ∨ ∀ s : List Brk, s.Sublist r → F ∉ s) ∧ removeDouble n ord copy i b r = x.bind (secondStep i copy F) := by
  obtain ⟨m0, m1, e, -, -, h0, h1, -⟩ := h.slots h6 h9
  have ha := h.a1; have hl := h.le; have hd := h.dn
  by_cases had : b.a = b.d
  swap
  · left
    unfold removeDouble
    rw [if_pos had]
  rw [← had] at h1
  have e0 := altOf_ok h6 (by omega) h0
  have e1 := altOf_ok h6 (by omega) h1
  by_cases hdis : m0.Disjoint m1
  swap
  · left
    unfold removeDouble
    rw [if_neg (fun hn => hn had), e]
    dsimp only
    rw [← had, e0, e1]
    dsimp only
    have n1 : subS m0 (offOf n b.a m1) ≠ true := fun hs => hdis ((subS_off h0).1 hs)
    have n2 : subS m1 (offOf n b.a m0) ≠ true := fun hs => hdis ((subS_off h1).1 hs).symm
    rw [if_neg n1]
    dsimp only
    rw [if_neg n2]
  right
  refine ⟨m0, m1, e, had, hdis, ?_⟩
  set E : Brk := ⟨b.first, b.a, [ord (4 * i) m0, ord (4 * i + 1) (restOf n b.a m0 m1)], b.d, b.last⟩ with hE
  set F : Brk := ⟨b.first, b.a, [ord (4 * i + 2) (restOf n b.a m0 m1), ord (4 * i + 3) m1], b.d, b.last⟩ with hF
  have rs : (restOf n b.a m0 m1).Sublist (labelTexts n) := List.filter_sublist
  have hEt : E ∈ r → E = twinA n b m0 m1 := by
    intro hm
    obtain ⟨u, v, eu, -, -, hu, hv, -⟩ := (hg E hm).slots h6 h9
    simp only [hE, List.cons.injEq, and_true] at eu
    rw [hE, order_eq (eu.1 ▸ hu.sub) h0.sub (hord _ _), order_eq (eu.2 ▸ hv.sub) rs (hord _ _)]
    rfl
  have hFt : F = twinB n b m0 m1 ∨ ∀ s : List Brk, s.Sublist r → F ∉ s := by
    by_cases hm : F ∈ r
    · left
      obtain ⟨u, v, eu, -, -, hu, hv, -⟩ := (hg F hm).slots h6 h9
      simp only [hF, List.cons.injEq, and_true] at eu
      rw [hF, order_eq (eu.1 ▸ hu.sub) rs (hord _ _), order_eq (eu.2 ▸ hv.sub) h1.sub (hord _ _)]
      rfl
    · exact .inr fun s hs hm' => hm (hs.subset hm')
  have hshape : ∀ x, firstDouble n copy i b E r = x → removeDouble n ord copy i b r = x.bind (secondStep i copy F) :=
    fun x hx => hx ▸ removeDouble_shape h6 h9 h e had hdis
  by_cases hm : E ∈ r
  swap
  · exact ⟨_, .keep, F, hFt, hshape _ (if_neg hm)⟩
  unfold firstDouble at hshape
  have hEe := hEt hm
  obtain ⟨tb, htb⟩ := neigh4_ok h6 h9 h
  obtain ⟨tE, htE⟩ := neigh4_ok h6 h9 (hg E hm)
  rw [if_pos hm, htE, htb] at hshape
  rw [hEe] at hm htE hshape
  cases tE <;> cases tb <;> dsimp only at hshape
  · rw [pyRemove_filter hr hm] at hshape
    exact ⟨_, .other hm htE htb, F, hFt, hshape _ rfl⟩
  · exact ⟨_, .keep, F, hFt, hshape _ rfl⟩
  · by_cases hbr : b ∈ r
    · rw [pyRemove_filter hr hbr] at hshape
      exact ⟨_, .own hm htE htb hbr, F, hFt, hshape _ rfl⟩
    · exact ⟨_, .fails hm htE htb hbr, F, hFt, hshape _ (by unfold pyRemove; rw [if_neg hbr])⟩
  · by_cases hi : i < copy.idxOf (twinA n b m0 m1)
    · rw [if_pos hi, pyRemove_filter hr hm] at hshape
      exact ⟨_, .later hm htE htb hi, F, hFt, hshape _ rfl⟩
    · exact ⟨_, .keep, F, hFt, hshape _ (if_neg hi)⟩

omit h6 h9 in
theorem Step.total {i : ℕ} {copy r : List Brk} {b : Brk} {m0 m1 : List PStr} {x : Except Err (List Brk)} (h : Step n i copy b m0 m1 r x) :
    (∃ r', x = .ok r' ∧ r'.Sublist r) ∨ x = .error .valueError := by
  cases h with
  | keep => exact .inl ⟨_, rfl, .refl _⟩
  | later => exact .inl ⟨_, rfl, List.filter_sublist⟩
  | own => exact .inl ⟨_, rfl, List.filter_sublist⟩
  | fails => exact .inr rfl
  | other => exact .inl ⟨_, rfl, List.filter_sublist⟩

omit h6 h9 in
/-- Strings with different ends stay. -/
theorem Step.stays {i : ℕ} {copy r : List Brk} {b : Brk} {m0 m1 : List PStr} {r' : List Brk} (h : Step n i copy b m0 m1 r (.ok r')) (had : b.a = b.d)
    {c : Brk} (hc : c ∈ r) (hcd : c.a ≠ c.d) : c ∈ r' := by
  have n1 : c ≠ twinA n b m0 m1 := fun e => hcd (by rw [e]; exact had)
  have n2 : c ≠ b := fun e => hcd (by rw [e]; exact had)
  cases h with
  | keep => exact hc
  | later => exact List.mem_filter.2 ⟨hc, decide_eq_true n1⟩
  | own => exact List.mem_filter.2 ⟨hc, decide_eq_true n2⟩
  | other => exact List.mem_filter.2 ⟨hc, decide_eq_true n1⟩

omit h6 h9 in
/-- The second half of a step never raises. -/
theorem secondStep_ok {i : ℕ} {copy r : List Brk} {F : Brk} (hr : r.Nodup) : ∃ r', secondStep i copy F r = .ok r' ∧ r'.Sublist r ∧
    ∀ y, y ∈ r' ↔ y ∈ r ∧ ¬ (y = F ∧ i < copy.idxOf F) := by
  unfold secondStep
  split
  · next h =>
    rw [pyRemove_filter hr h.1]
    refine ⟨_, rfl, List.filter_sublist, fun y => ?_⟩
    rw [List.mem_filter]
    simp only [decide_eq_true_eq]
    exact ⟨fun hy => ⟨hy.1, fun e => hy.2 e.1⟩, fun hy => ⟨hy.1, fun e => hy.2 ⟨e, h.2⟩⟩⟩
  · next h =>
    refine ⟨_, rfl, .refl _, fun y => ⟨fun hy => ⟨hy, fun e => h ⟨e.1 ▸ hy, e.2⟩⟩, fun hy => hy.1⟩⟩

/-! ### Six and seven particles -/

/-- The step on `b` would remove `b`. -/
def Doomed (n : ℕ) (copy : List Brk) (b : Brk) : Prop :=
  ∃ m0 m1, b.mids = [m0, m1] ∧ b.a = b.d ∧ m0.Disjoint m1 ∧ twinA n b m0 m1 ∈ copy ∧ neigh4 n (twinA n b m0 m1) = .ok true ∧
    neigh4 n b = .ok false

/-- No string that removes itself is removed by an earlier one. -/
def Spared (n : ℕ) (copy : List Brk) : Prop :=
  ∀ b ∈ copy, ∀ m0 m1, b.mids = [m0, m1] → b.a = b.d → m0.Disjoint m1 → twinB n b m0 m1 ∈ copy → BrkBefore n b (twinB n b m0 m1) →
    ¬ Doomed n copy (twinB n b m0 m1)

omit h6 h9 in
theorem getElem_idx_before {copy : List Brk} (hp : copy.Pairwise (BrkBefore n)) {i : ℕ} {b F : Brk} (hb : copy[i]? = some b) (hF : F ∈ copy)
    (hi : i < copy.idxOf F) : BrkBefore n b F := by
  rw [List.pairwise_iff_getElem] at hp
  obtain ⟨hlt, hb'⟩ := List.getElem?_eq_some_iff.1 hb
  have hF' := List.idxOf_lt_length_iff.2 hF
  have := hp i _ hlt hF' hi
  rw [hb', List.getElem_idxOf] at this
  exact this

theorem removeDoubles_spared {ord : SetOrder} (hord : ∀ k l, (ord k l).Perm l) {copy : List Brk} (hp : copy.Pairwise (BrkBefore n))
    (hg : ∀ b ∈ copy, GoodBrk n b) (hs : Spared n copy) : ∀ (bs : List Brk) (i : ℕ) (r : List Brk), copy.drop i = bs → r.Sublist copy →
    (∀ b ∈ bs, Doomed n copy b → b ∈ r) → ∃ r', removeDoubles n ord copy i bs r = .ok r' ∧ r'.Sublist r ∧ ∀ c ∈ r, c.a ≠ c.d → c ∈ r'
  | [], i, r, _, _, _ => ⟨r, rfl, .refl _, fun _ h _ => h⟩
  | b :: bs, i, r, hd, hsub, hdoom => by
    have hn : copy.Nodup := hp.imp fun h => h.1
    have hbi : copy[i]? = some b := by
      have := congrArg List.head? hd
      rwa [List.head?_drop] at this
    have hbc : b ∈ copy := List.mem_of_getElem? hbi
    have hd' : copy.drop (i + 1) = bs := by
      rw [← List.drop_drop, hd]
      rfl
    have hnb : b ∉ bs := by
      have : (b :: bs).Nodup := hd ▸ hn.sublist (List.drop_sublist _ _)
      exact (List.nodup_cons.1 this).1
    have key : ∃ r', removeDouble n ord copy i b r = .ok r' ∧ r'.Sublist r ∧ (∀ c ∈ bs, Doomed n copy c → c ∈ r') ∧
        ∀ c ∈ r, c.a ≠ c.d → c ∈ r' := by
      rcases removeDouble_step h6 h9 hord (copy := copy) (hn.sublist hsub) (fun x hx => hg x (hsub.subset hx)) (i := i) (hg b hbc) with
        he | ⟨m0, m1, em, had, hdis, x, hx, F, hF, he⟩
      · exact ⟨r, he, .refl _, fun c hc => hdoom c (by simp [hc]), fun _ h _ => h⟩
      have hx0 := hx
      have hx' : ∃ r1, x = .ok r1 ∧ r1.Sublist r ∧ ∀ c ∈ bs, Doomed n copy c → c ∈ r1 := by
        have hcr : ∀ c ∈ bs, Doomed n copy c → c ∈ r := fun c hc => hdoom c (by simp [hc])
        cases hx with
        | keep => exact ⟨r, rfl, .refl _, hcr⟩
        | later hm ht hb hi =>
          refine ⟨_, rfl, List.filter_sublist, fun c hc hD => List.mem_filter.2 ⟨hcr c hc hD, decide_eq_true ?_⟩⟩
          intro e
          obtain ⟨-, -, -, -, -, -, -, hf⟩ := hD
          rw [e, ht] at hf
          cases hf
        | own hm ht hb hbr =>
          exact ⟨_, rfl, List.filter_sublist, fun c hc hD => List.mem_filter.2 ⟨hcr c hc hD, by simpa using fun e : c = b => hnb (e ▸ hc)⟩⟩
        | fails hm ht hb hbr => exact absurd (hdoom b (by simp) ⟨m0, m1, em, had, hdis, hsub.subset hm, ht, hb⟩) hbr
        | other hm ht hb =>
          refine ⟨_, rfl, List.filter_sublist, fun c hc hD => List.mem_filter.2 ⟨hcr c hc hD, decide_eq_true ?_⟩⟩
          intro e
          obtain ⟨u, v, eu, -, -, -, htr, -⟩ := hD
          subst e
          simp only [twinA, List.cons.injEq, and_true] at eu
          obtain ⟨rfl, rfl⟩ := eu
          obtain ⟨w0, w1, ew, -, -, -, hw1, -⟩ := (hg b hbc).slots h6 h9
          rw [em] at ew
          simp only [List.cons.injEq, and_true] at ew
          rw [← had, ← ew.2] at hw1
          have : twinA n (twinA n b m0 m1) m0 (restOf n b.a m0 m1) = b := by
            obtain ⟨f, a, ms, d, l⟩ := b
            simp only at em had
            simp only [twinA, rest_rest hw1 hdis, em]
          rw [this, hb] at htr
          cases htr
      obtain ⟨r1, rfl, hr1, hc1⟩ := hx'
      obtain ⟨r2, e2, hr2, hm2⟩ := secondStep_ok (i := i) (copy := copy) (F := F) (hn.sublist (hr1.trans hsub))
      refine ⟨r2, he.trans e2, hr2.trans hr1, fun c hc hD => (hm2 c).2 ⟨hc1 c hc hD, fun hcF => ?_⟩, fun c hc hcd =>
        (hm2 c).2 ⟨hx0.stays had hc hcd, fun hcF => ?_⟩⟩
      swap
      · rcases hF with hF | hF
        · exact hcd (by rw [hcF.1, hF]; exact had)
        · exact hF r1 hr1 (hcF.1 ▸ hx0.stays had hc hcd)
      rcases hF with hF | hF
      · have hFc : F ∈ copy := (hr1.trans hsub).subset (hcF.1 ▸ hc1 c hc hD)
        have hbef := getElem_idx_before hp hbi hFc hcF.2
        refine hs b hbc m0 m1 em had hdis (hF ▸ hFc) (hF ▸ hbef) ?_
        rw [← hF, ← hcF.1]
        exact hD
      · exact hF r1 hr1 (hcF.1 ▸ hc1 c hc hD)
    obtain ⟨r1, e1, hr1, hc1, ho1⟩ := key
    obtain ⟨r2, e2, hr2, ho2⟩ := removeDoubles_spared hord hp hg hs bs (i + 1) r1 hd' (hr1.trans hsub) hc1
    refine ⟨r2, ?_, hr2.trans hr1, fun c hc hcd => ho2 c (ho1 c hc hcd) hcd⟩
    unfold removeDoubles
    rw [e1]
    exact e2

/-- The condition `Spared` on slots. -/
def sparedSlots (n a : ℕ) : Bool :=
  (slotList n a 0).all fun m0 => (slotList n a 0).all fun m1 =>
    !(subS m0 (offOf n a m1) && decide (2 ≤ (restOf n a m0 m1).length) && !greaterSlot m0 m1 && !greaterSlot (restOf n a m0 m1) m1 &&
      !greaterSlot (restOf n a m0 m1) m0 && decide (restOf n a m0 m1 ∈ slotList n a 0) &&
      decide ((slotList n a 0).idxOf m0 < (slotList n a 0).idxOf (restOf n a m0 m1)) &&
      (match nearHalf n a (restOf n a m0 m1), nearHalf n a m1, nearHalf n a m0 with
        | .ok t2, .ok t1, .ok t0 => !(t2 && t1) && (t2 && t0)
        | _, _, _ => false))

set_option maxRecDepth 100000 in
omit h6 h9 in
theorem sparedSlots_seven : ∀ n ∈ [6, 7], ∀ a ∈ List.range' 1 n, sparedSlots n a = true := by
  decide +kernel

omit h6 h9 in
theorem neigh4_eq {b : Brk} {m0 m1 : List PStr} {t : Bool} (e : b.mids = [m0, m1]) (h : neigh4 n b = .ok t) :
    (nearHalf n b.a m0 = .ok false ∧ t = false) ∨ (nearHalf n b.a m0 = .ok true ∧ nearHalf n b.d m1 = .ok t) := by
  unfold neigh4 at h
  rw [e] at h
  dsimp only at h
  split at h
  · cases h
  · next h0 => cases h; exact .inl ⟨h0, rfl⟩
  · next h0 => exact .inr ⟨h0, h⟩

theorem spared_of_slots (hs : ∀ a ∈ List.range' 1 n, sparedSlots n a = true) {copy : List Brk} (hg : ∀ b ∈ copy, GoodBrk n b) : Spared n copy := by
  rintro b hb m0 m1 em had hdis hF hbef ⟨u, v, eu, -, -, hE, htE, htF⟩
  simp only [twinB, List.cons.injEq, and_true] at eu
  obtain ⟨rfl, rfl⟩ := eu
  obtain ⟨w0, w1, ew, hw0m, hw1m, hw0, hw1, hgr⟩ := (hg b hb).slots h6 h9
  rw [em] at ew
  simp only [List.cons.injEq, and_true] at ew
  obtain ⟨rfl, rfl⟩ := ew
  rw [← had] at hw1 hw1m
  have er : restOf n b.a (restOf n b.a m0 m1) m1 = m0 := by
    rw [restOf_comm n b.a m0 m1, restOf_comm, rest_rest hw0 hdis.symm]
  have eE : twinA n (twinB n b m0 m1) (restOf n b.a m0 m1) m1 = ⟨b.first, b.a, [restOf n b.a m0 m1, m0], b.d, b.last⟩ := by
    simp only [twinA, twinB, er]
  rw [eE] at hE htE
  obtain ⟨x0, x1, ex, hx0m, -, hx0, -, hxg⟩ := (hg _ hE).slots h6 h9
  simp only [List.cons.injEq, and_true] at ex
  obtain ⟨rfl, rfl⟩ := ex
  obtain ⟨y0, y1, ey, -, -, -, -, hyg⟩ := (hg _ hF).slots h6 h9
  simp only [twinB, List.cons.injEq, and_true] at ey
  obtain ⟨rfl, rfl⟩ := ey
  have h1 := hs b.a (List.mem_range'_1.2 (by have := (hg b hb).a1; have := (hg b hb).dn; omega))
  unfold sparedSlots at h1
  have h2 := List.all_eq_true.1 (List.all_eq_true.1 h1 m0 hw0m) m1 hw1m
  have hlt : (slotList n b.a 0).idxOf m0 < (slotList n b.a 0).idxOf (restOf n b.a m0 m1) := hbef.2 rfl rfl rfl m0 _ m1 em rfl
  have hdis' : subS m0 (offOf n b.a m1) = true := (subS_off hw0).2 hdis
  have hm2 : (match nearHalf n b.a (restOf n b.a m0 m1), nearHalf n b.a m1, nearHalf n b.a m0 with
        | .ok t2, .ok t1, .ok t0 => !(t2 && t1) && (t2 && t0)
        | _, _, _ => false) = true := by
    obtain ⟨t1, et1⟩ := nearHalf_ok (k := n) (a := b.a) hw1.two
    have e1 := neigh4_eq (b := ⟨b.first, b.a, [restOf n b.a m0 m1, m0], b.d, b.last⟩) rfl htE
    have e2 := neigh4_eq (b := twinB n b m0 m1) rfl htF
    simp only [twinB] at e1 e2
    rw [← had] at e1 e2
    rcases e1 with e1 | e1
    · exact absurd e1.2 (by decide)
    rcases e2 with e2 | e2
    · rw [e1.1] at e2
      exact absurd e2.1 (by simp)
    rw [e1.1, e1.2, e2.2]
    rfl
  have g1 := hgr had
  have g2 : greaterSlot (restOf n b.a m0 m1) m1 = false := hyg had
  have g3 : greaterSlot (restOf n b.a m0 m1) m0 = false := hxg had
  rw [hdis', g1, g2, g3, hm2, decide_eq_true hx0.two, decide_eq_true hx0m, decide_eq_true hlt] at h2
  exact absurd h2 (by decide)

/-! ### Sets that are not traversed in ascending order -/

theorem removeDoubles_descending {ord : SetOrder} (hord : ∀ k l, 2 ≤ l.length → l.Pairwise (· < ·) → ¬ (ord k l).Pairwise (· < ·))
    {copy r : List Brk} (hg : ∀ b ∈ r, GoodBrk n b) : ∀ (bs : List Brk) (i : ℕ), (∀ b ∈ bs, GoodBrk n b) → removeDoubles n ord copy i bs r = .ok r
  | [], _, _ => rfl
  | b :: bs, i, hb => by
    have key : removeDouble n ord copy i b r = .ok r := by
      have h := hb b (by simp)
      obtain ⟨m0, m1, e, -, -, h0, h1, -⟩ := h.slots h6 h9
      have ha := h.a1; have hl := h.le; have hd := h.dn
      by_cases had : b.a = b.d
      swap
      · unfold removeDouble
        rw [if_pos had]
      have asc : ∀ {m : List PStr}, m.Sublist (labelTexts n) → m.Pairwise (· < ·) := fun hm => (labelTexts_lt h9).sublist hm
      by_cases hdis : m0.Disjoint m1
      · rw [removeDouble_shape h6 h9 h e had hdis]
        have nE : ∀ x y z w, (⟨x, y, [ord (4 * i) m0, z], b.d, w⟩ : Brk) ∉ r := by
          intro x y z w hm
          obtain ⟨u, v, eu, -, -, hu, -, -⟩ := (hg _ hm).slots h6 h9
          simp only [List.cons.injEq] at eu
          rw [← eu.1] at hu
          exact hord _ _ h0.two (asc h0.sub) (asc hu.sub)
        have nF : ∀ x y z w, (⟨x, y, [z, ord (4 * i + 3) m1], b.d, w⟩ : Brk) ∉ r := by
          intro x y z w hm
          obtain ⟨u, v, eu, -, -, -, hv, -⟩ := (hg _ hm).slots h6 h9
          simp only [List.cons.injEq, and_true] at eu
          rw [← eu.2] at hv
          exact hord _ _ h1.two (asc h1.sub) (asc hv.sub)
        unfold firstDouble
        rw [if_neg (nE _ _ _ _)]
        change secondStep _ _ _ _ = _
        unfold secondStep
        rw [if_neg (fun hm => nF _ _ _ _ hm.1)]
      · rw [← had] at h1
        have e1 := altOf_ok h6 (by omega) h1
        unfold removeDouble
        rw [if_neg (fun hn => hn had), e]
        dsimp only
        rw [altOf_ok h6 (by omega) h0, show altOf n m1 b.d = .ok (offOf n b.a m1) by rw [← had]; exact e1]
        dsimp only
        rw [if_neg (fun hs => hdis ((subS_off h0).1 hs))]
        dsimp only
        rw [if_neg (fun hs => hdis ((subS_off h1).1 hs).symm)]
    unfold removeDoubles
    rw [key]
    exact removeDoubles_descending hord hg bs (i + 1) fun c hc => hb c (by simp [hc])

/-! ### Sets that are traversed in ascending order -/

omit h6 h9 in
theorem removeDoubles_append (ord : SetOrder) (copy : List Brk) : ∀ (xs ys : List Brk) (i : ℕ) (r : List Brk),
    removeDoubles n ord copy i (xs ++ ys) r = (removeDoubles n ord copy i xs r).bind (removeDoubles n ord copy (i + xs.length) ys)
  | [], ys, i, r => rfl
  | x :: xs, ys, i, r => by
    rw [List.cons_append]
    unfold removeDoubles
    rcases removeDouble n ord copy i x r with e | r'
    · rfl
    · dsimp only
      rw [removeDoubles_append ord copy xs ys (i + 1) r', List.length_cons, Nat.add_assoc, Nat.add_comm 1]

/-- A step gives a shorter list or raises ValueError. -/
theorem removeDouble_total {ord : SetOrder} (hord : ∀ k l, (ord k l).Perm l) {copy r : List Brk} (hr : r.Nodup)
    (hg : ∀ b ∈ r, GoodBrk n b) {i : ℕ} {b : Brk} (h : GoodBrk n b) :
    (∃ r', removeDouble n ord copy i b r = .ok r' ∧ r'.Sublist r) ∨ removeDouble n ord copy i b r = .error .valueError := by
  rcases removeDouble_step h6 h9 hord (copy := copy) hr hg (i := i) h with he | ⟨m0, m1, -, -, -, x, hx, F, -, he⟩
  · exact .inl ⟨r, he, .refl _⟩
  · rcases hx.total with ⟨r1, rfl, hr1⟩ | rfl
    · obtain ⟨r2, e2, hr2, -⟩ := secondStep_ok (i := i) (copy := copy) (F := F) (hr.sublist hr1)
      exact .inl ⟨r2, he.trans e2, hr2.trans hr1⟩
    · exact .inr he

/-- The same for the loop, with a string that every step keeps. -/
theorem removeDoubles_total {ord : SetOrder} (hord : ∀ k l, (ord k l).Perm l) {copy : List Brk} {Y : Brk}
    (hY : ∀ i b r r', GoodBrk n b → r.Nodup → (∀ c ∈ r, GoodBrk n c) → removeDouble n ord copy i b r = .ok r' → Y ∈ r → Y ∈ r') :
    ∀ (bs : List Brk) (i : ℕ) (r : List Brk), (∀ b ∈ bs, GoodBrk n b) → r.Nodup → (∀ b ∈ r, GoodBrk n b) →
    (∃ r', removeDoubles n ord copy i bs r = .ok r' ∧ r'.Sublist r ∧ (Y ∈ r → Y ∈ r')) ∨ removeDoubles n ord copy i bs r = .error .valueError
  | [], i, r, _, _, _ => .inl ⟨r, rfl, .refl _, id⟩
  | b :: bs, i, r, hb, hr, hg => by
    unfold removeDoubles
    rcases removeDouble_total h6 h9 hord (copy := copy) hr hg (i := i) (hb b (by simp)) with ⟨r', e, hr'⟩ | e
    · rw [e]
      rcases removeDoubles_total hord hY bs (i + 1) r' (fun c hc => hb c (by simp [hc])) (hr.sublist hr') fun c hc => hg c (hr'.subset hc) with
        ⟨r2, e2, hr2, hy2⟩ | e2
      · exact .inl ⟨r2, e2, hr2.trans hr', fun hy => hy2 (hY i b r r' (hb b (by simp)) hr hg e hy)⟩
      · exact .inr e2
    · rw [e]
      exact .inr rfl

omit h6 h9 in
/-- The two slots of the string that removes the second one. -/
def s45 : List PStr := [['4'], ['5']]
def s67 : List PStr := [['6'], ['7']]

/-- Labels 1, 2, 8 and, at nine points, 9. -/
def sFar (n : ℕ) : List PStr := restOf n 3 s45 s67

def trap (m0 m1 : List PStr) : Brk := ⟨'⟨', 3, [m0, m1], 3, '⟩'⟩

/-- The facts about these strings. -/
structure Trap (n : ℕ) : Prop where
  first : GoodBrk n (trap s45 s67) ∧ reducible n (trap s45 s67) ≠ .ok true
  second : GoodBrk n (trap (sFar n) s67) ∧ reducible n (trap (sFar n) s67) ≠ .ok true
  third : GoodBrk n (trap (sFar n) s45) ∧ reducible n (trap (sFar n) s45) ≠ .ok true
  near2 : neigh4 n (trap (sFar n) s67) = .ok false
  near3 : neigh4 n (trap (sFar n) s45) = .ok true
  idx : (slotList n 3 0).idxOf s45 < (slotList n 3 0).idxOf (sFar n)
  rest1 : restOf n 3 (sFar n) s45 = s67
  rest2 : restOf n 3 (sFar n) s67 = s45
  apart1 : s45.Disjoint s67
  apart2 : (sFar n).Disjoint s67

set_option maxRecDepth 100000 in
omit h6 h9 in
theorem trap_holds (h : n = 8 ∨ n = 9) : Trap n := by
  have good : ∀ m0 m1, m0 ∈ slotList n 3 0 → m1 ∈ slotList n 3 0 → m0 ≠ m1 → greaterSlot m0 m1 = false → GoodBrk n (trap m0 m1) :=
    fun m0 m1 h0 h1 hne hg => ⟨show 1 ≤ 3 by decide, le_refl 3, show 3 ≤ n by omega, .inl ⟨rfl, rfl⟩, m0, h0, m1, h1, hne, fun _ => hg, rfl⟩
  have dis : ∀ {x y : List PStr}, (x.all fun t => decide (t ∉ y)) = true → x.Disjoint y := fun hx t h1 h2 =>
    of_decide_eq_true (List.all_eq_true.1 hx t h1) h2
  have ne : ∀ {x : Except Err Bool}, x = .ok false → x ≠ .ok true := fun e h => by rw [e] at h; cases h
  rcases h with rfl | rfl
  · exact ⟨⟨good _ _ (by decide +kernel) (by decide +kernel) (by decide) (by decide), ne rfl⟩,
      ⟨good _ _ (by decide +kernel) (by decide +kernel) (by decide) (by decide), ne rfl⟩,
      ⟨good _ _ (by decide +kernel) (by decide +kernel) (by decide) (by decide), ne rfl⟩, rfl, rfl, by decide +kernel, by decide, by decide,
      dis (by decide), dis (by decide)⟩
  · exact ⟨⟨good _ _ (by decide +kernel) (by decide +kernel) (by decide) (by decide), ne rfl⟩,
      ⟨good _ _ (by decide +kernel) (by decide +kernel) (by decide) (by decide), ne rfl⟩,
      ⟨good _ _ (by decide +kernel) (by decide +kernel) (by decide) (by decide), ne rfl⟩, rfl, rfl, by decide +kernel, by decide, by decide,
      dis (by decide), dis (by decide)⟩

/-- No step removes the third string. -/
theorem trap_keeps (ht : Trap n) {ord : SetOrder} (hord : ∀ k l, (ord k l).Perm l) {copy : List Brk} (i : ℕ) (b : Brk) (r r' : List Brk)
    (hb : GoodBrk n b) (hr : r.Nodup) (hg : ∀ c ∈ r, GoodBrk n c) (h : removeDouble n ord copy i b r = .ok r')
    (hy : trap (sFar n) s45 ∈ r) : trap (sFar n) s45 ∈ r' := by
  rcases removeDouble_step h6 h9 hord (copy := copy) hr hg (i := i) hb with he | ⟨m0, m1, em, had, hdis, x, hx, F, hF, he⟩
  · rw [h] at he
    cases he
    exact hy
  obtain ⟨w0, w1, ew, -, -, hw0, hw1, hgr⟩ := hb.slots h6 h9
  rw [em] at ew
  simp only [List.cons.injEq, and_true] at ew
  obtain ⟨rfl, rfl⟩ := ew
  rw [← had] at hw1
  have nA : trap (sFar n) s45 = twinA n b m0 m1 → neigh4 n b = .ok false := by
    intro e
    obtain ⟨f, a, ms, d, l⟩ := b
    simp only [trap, twinA, Brk.mk.injEq, List.cons.injEq, and_true] at e em
    obtain ⟨rfl, rfl, ⟨rfl, e4⟩, rfl, rfl⟩ := e
    have e5 : m1 = s67 := by
      rw [← ht.rest1, e4]
      exact (rest_rest hw1 hdis).symm
    rw [em, e5]
    exact ht.near2
  have nB : trap (sFar n) s45 ≠ twinB n b m0 m1 := by
    intro e
    obtain ⟨f, a, ms, d, l⟩ := b
    simp only [trap, twinB, Brk.mk.injEq, List.cons.injEq, and_true] at e em
    obtain ⟨rfl, rfl, ⟨e3, rfl⟩, rfl, rfl⟩ := e
    have e5 : m0 = s67 := by
      rw [← ht.rest1, e3, restOf_comm n 3 m0 s45, restOf_comm n 3 _ s45]
      exact (rest_rest hw0 hdis.symm).symm
    have := hgr rfl
    rw [e5] at this
    exact absurd this (by decide)
  have nb : neigh4 n b = .ok false → trap (sFar n) s45 ≠ b := by
    rintro h1 rfl
    rw [ht.near3] at h1
    cases h1
  have h1 : ∃ r1, x = .ok r1 ∧ trap (sFar n) s45 ∈ r1 ∧ r1.Sublist r := by
    cases hx with
    | keep => exact ⟨r, rfl, hy, .refl _⟩
    | later hm h1 h2 h3 =>
      refine ⟨_, rfl, List.mem_filter.2 ⟨hy, decide_eq_true fun e => ?_⟩, List.filter_sublist⟩
      rw [nA e] at h2
      cases h2
    | own hm h1 h2 h3 => exact ⟨_, rfl, List.mem_filter.2 ⟨hy, decide_eq_true (nb h2)⟩, List.filter_sublist⟩
    | fails => rw [h] at he; cases he
    | other hm h1 h2 =>
      refine ⟨_, rfl, List.mem_filter.2 ⟨hy, decide_eq_true fun e => ?_⟩, List.filter_sublist⟩
      rw [← e, ht.near3] at h1
      cases h1
  obtain ⟨r1, rfl, hy1, hs1⟩ := h1
  obtain ⟨r2, e2, -, hm2⟩ := secondStep_ok (i := i) (copy := copy) (F := F) (hr.sublist hs1)
  rw [h] at he
  have : r' = r2 := Except.ok.inj (he.trans e2)
  rw [this]
  refine (hm2 _).2 ⟨hy1, fun e => ?_⟩
  rcases hF with hF | hF
  · exact nB (e.1.trans hF)
  · exact hF r1 hs1 (e.1 ▸ hy1)

theorem removeDoubles_ascending (ht : Trap n) {ord : SetOrder} (hord : ∀ k l, (ord k l).Perm l) (hasc : ∀ k l, l.Pairwise (· < ·) → ord k l = l)
    {copy : List Brk} (hp : copy.Pairwise (BrkBefore n)) (hc : ∀ b, b ∈ copy ↔ GoodBrk n b ∧ reducible n b ≠ .ok true) :
    removeDoubles n ord copy 0 copy copy = .error .valueError := by
  have hn : copy.Nodup := hp.imp fun h => h.1
  have hg : ∀ b ∈ copy, GoodBrk n b := fun b hb => ((hc b).1 hb).1
  have asc : ∀ {m : List PStr}, m.Sublist (labelTexts n) → ∀ k, ord k m = m := fun hm k => hasc k _ ((labelTexts_lt h9).sublist hm)
  have tot := removeDoubles_total h6 h9 hord (copy := copy) (trap_keeps h6 h9 ht hord)
  obtain ⟨p, s, hs⟩ := List.append_of_mem ((hc _).2 ht.first)
  have hX : trap (sFar n) s67 ∈ copy := (hc _).2 ht.second
  have hXs : trap (sFar n) s67 ∉ p ∧ trap (sFar n) s67 ∈ s := by
    have hidx := ht.idx
    have hne : trap (sFar n) s67 ≠ trap s45 s67 := fun e => by
      simp only [trap, Brk.mk.injEq, List.cons.injEq, and_true, true_and] at e
      rw [e] at hidx
      exact lt_irrefl _ hidx
    have hnp : trap (sFar n) s67 ∉ p := fun hm => by
      rw [hs, List.pairwise_append] at hp
      have := (hp.2.2 _ hm (trap s45 s67) (by simp)).2 rfl rfl rfl _ _ _ rfl rfl
      exact absurd this (by simp only [trap]; omega)
    rw [hs] at hX
    rcases List.mem_append.1 hX with h | h
    · exact absurd h hnp
    · rcases List.mem_cons.1 h with h | h
      · exact absurd h hne
      · exact ⟨hnp, h⟩
  obtain ⟨q, t, hq⟩ := List.append_of_mem hXs.2
  have hlen : p.length < copy.idxOf (trap (sFar n) s67) := by
    rw [hs, List.idxOf_append_of_notMem hXs.1, List.idxOf_cons_ne]
    · omega
    · intro e
      have h1 := hn
      rw [hs] at h1
      have h2 := (List.nodup_append.1 h1).2.1
      exact (List.nodup_cons.1 h2).1 (e ▸ hXs.2)
  have hmem : ∀ x ∈ p ++ trap s45 s67 :: (q ++ trap (sFar n) s67 :: t), GoodBrk n x := fun x hx => hg x (by rw [hs, hq]; exact hx)
  have e0 : removeDoubles n ord copy 0 copy copy = removeDoubles n ord copy 0 (p ++ trap s45 s67 :: (q ++ trap (sFar n) s67 :: t)) copy := by
    conv_lhs => rw [show removeDoubles n ord copy 0 copy copy = removeDoubles n ord copy 0 (p ++ trap s45 s67 :: s) copy from by rw [← hs]]
    rw [hq]
  rw [e0, removeDoubles_append]
  rcases tot p 0 copy (fun b hb => hmem b (by simp [hb])) hn hg with ⟨r1, e1, hr1, hy1⟩ | e1
  swap
  · rw [e1]; rfl
  rw [e1]
  change removeDoubles n ord copy (0 + p.length) (trap s45 s67 :: (q ++ trap (sFar n) s67 :: t)) r1 = _
  have hg1 : ∀ b ∈ r1, GoodBrk n b := fun b hb => hg b (hr1.subset hb)
  have hnr1 := hn.sublist hr1
  have hY1 := hy1 ((hc _).2 ht.third)
  have sl1 := ht.first.1.slots h6 h9
  obtain ⟨u, v, eu, -, -, hu, hv, -⟩ := sl1
  simp only [trap, List.cons.injEq, and_true] at eu
  obtain ⟨rfl, rfl⟩ := eu
  simp only [trap] at hu hv
  have sl2 := ht.second.1.slots h6 h9
  obtain ⟨u, v, eu, -, -, hfar, -, -⟩ := sl2
  simp only [trap, List.cons.injEq, and_true] at eu
  obtain ⟨rfl, rfl⟩ := eu
  simp only [trap] at hfar
  unfold removeDoubles
  rcases removeDouble_total h6 h9 hord (copy := copy) hnr1 hg1 (i := 0 + p.length) ht.first.1 with ⟨r2, e2, hr2⟩ | e2
  swap
  · rw [e2]
  have hX2 : trap (sFar n) s67 ∉ r2 := by
    have h1 := removeDouble_shape h6 h9 (ord := ord) (copy := copy) (r := r1) (i := 0 + p.length) ht.first.1 (m0 := s45) (m1 := s67) rfl rfl ht.apart1
    rw [e2] at h1
    have hrest : (trap s45 s67).a = 3 := rfl
    rcases hf : firstDouble n copy (0 + p.length) (trap s45 s67) ⟨(trap s45 s67).first, (trap s45 s67).a, [ord (4 * (0 + p.length)) s45,
        ord (4 * (0 + p.length) + 1) (restOf n (trap s45 s67).a s45 s67)], (trap s45 s67).d, (trap s45 s67).last⟩ r1 with e | r1'
    · rw [hf] at h1
      cases h1
    · rw [hf] at h1
      change Except.ok r2 = secondStep _ _ _ r1' at h1
      have hsub : r1'.Nodup := by
        unfold firstDouble at hf
        split at hf
        · split at hf
          · cases hf
          · cases hf
          · split at hf
            · exact hnr1.sublist (pyRemove_sublist hf)
            · cases hf; exact hnr1
          · exact hnr1.sublist (pyRemove_sublist hf)
          · exact hnr1.sublist (pyRemove_sublist hf)
          · cases hf; exact hnr1
        · cases hf; exact hnr1
      obtain ⟨r2', e2', -, hm2⟩ := secondStep_ok (i := 0 + p.length) (copy := copy) (F := trap (sFar n) s67) hsub
      have eF : (⟨(trap s45 s67).first, (trap s45 s67).a, [ord (4 * (0 + p.length) + 2) (restOf n (trap s45 s67).a s45 s67),
          ord (4 * (0 + p.length) + 3) s67], (trap s45 s67).d, (trap s45 s67).last⟩ : Brk) = trap (sFar n) s67 := by
        rw [show ord (4 * (0 + p.length) + 2) (restOf n (trap s45 s67).a s45 s67) = restOf n (trap s45 s67).a s45 s67 from asc List.filter_sublist _, asc hv.sub]
        rfl
      rw [eF, e2'] at h1
      rw [Except.ok.inj h1]
      intro hm
      exact ((hm2 _).1 hm).2 ⟨rfl, by omega⟩
  have hY2 := trap_keeps h6 h9 ht hord _ _ _ _ ht.first.1 hnr1 hg1 e2 hY1
  rw [e2]
  dsimp only
  rw [removeDoubles_append]
  have hg2 : ∀ b ∈ r2, GoodBrk n b := fun b hb => hg1 b (hr2.subset hb)
  have hnr2 := hnr1.sublist hr2
  rcases tot q (0 + p.length + 1) r2 (fun b hb => hmem b (by simp [hb])) hnr2 hg2 with ⟨r3, e3, hr3, hy3⟩ | e3
  swap
  · rw [e3]; rfl
  rw [e3]
  change removeDoubles n ord copy (0 + p.length + 1 + q.length) (trap (sFar n) s67 :: t) r3 = _
  have hX3 : trap (sFar n) s67 ∉ r3 := fun h => hX2 (hr3.subset h)
  have hY3 := hy3 hY2
  unfold removeDoubles
  rw [removeDouble_shape h6 h9 ht.second.1 (m0 := sFar n) (m1 := s67) rfl rfl ht.apart2]
  have eE : (⟨(trap (sFar n) s67).first, (trap (sFar n) s67).a, [ord (4 * (0 + p.length + 1 + q.length)) (sFar n),
      ord (4 * (0 + p.length + 1 + q.length) + 1) (restOf n (trap (sFar n) s67).a (sFar n) s67)], (trap (sFar n) s67).d,
      (trap (sFar n) s67).last⟩ : Brk) = trap (sFar n) s45 := by
    rw [asc hfar.sub, show restOf n (trap (sFar n) s67).a (sFar n) s67 = s45 from ht.rest2, asc hu.sub]
    rfl
  rw [eE]
  have : firstDouble n copy (0 + p.length + 1 + q.length) (trap (sFar n) s67) (trap (sFar n) s45) r3 = .error .valueError := by
    unfold firstDouble
    rw [if_pos hY3, ht.near3, ht.near2]
    dsimp only
    unfold pyRemove
    rw [if_neg hX3]
  rw [this]
  rfl

/-! ### The strings with one slot -/

def all3List (n : ℕ) : List Brk :=
  (List.range' 1 n).flatMap fun a => (List.range' 1 n).flatMap fun d => (slotList n a d).map fun m => ⟨'⟨', a, [m], d, ']'⟩

theorem all3_eq : all3 n = .ok (all3List n) := by
  unfold all3 all3List
  refine collect_eq fun a ha => collect_eq fun d hd => ?_
  rw [List.mem_range'_1] at ha hd
  rw [(slotsFor_eq h6 h9 (by omega) (by omega)).1]

theorem all3_nodup : (all3List n).Nodup := by
  unfold all3List
  rw [List.nodup_flatMap]
  refine ⟨fun a ha => ?_, ?_⟩
  · rw [List.nodup_flatMap]
    refine ⟨fun d hd => ?_, ?_⟩
    · rw [List.mem_range'_1] at ha hd
      exact (slotsFor_eq h6 h9 (by omega) (by omega)).2.1.map fun x y h => by simpa using h
    · refine (List.nodup_range' (s := 1) (n := n) (step := 1)).imp fun {d d'} hne x hx hy => ?_
      obtain ⟨m, _, rfl⟩ := List.mem_map.1 hx
      obtain ⟨m', _, e⟩ := List.mem_map.1 hy
      exact hne (Brk.mk.inj e).2.2.2.1.symm
  · refine (List.nodup_range' (s := 1) (n := n) (step := 1)).imp fun {a a'} hne x hx hy => ?_
    obtain ⟨d, _, hx⟩ := List.mem_flatMap.1 hx
    obtain ⟨d', _, hy⟩ := List.mem_flatMap.1 hy
    obtain ⟨m, _, rfl⟩ := List.mem_map.1 hx
    obtain ⟨m', _, e⟩ := List.mem_map.1 hy
    exact hne (Brk.mk.inj e).2.1.symm

theorem purge3_ok : ∃ p, purge3 n (all3List n) (all3List n) = .ok p := by
  rw [purge3_own]
  suffices hP : ∀ b ∈ all3List n, ∃ t, purge3Test n b = .ok t by
    obtain ⟨r, h, -⟩ := ownLoop_ok hP (all3_nodup h6 h9) (all3_nodup h6 h9) fun _ h => h
    exact ⟨r, h⟩
  intro b hb
  unfold all3List at hb
  obtain ⟨a, ha, hb⟩ := List.mem_flatMap.1 hb
  obtain ⟨d, hd, hb⟩ := List.mem_flatMap.1 hb
  obtain ⟨m, hm, rfl⟩ := List.mem_map.1 hb
  rw [List.mem_range'_1] at ha hd
  have hs := ((slotsFor_eq h6 h9 (by omega) (by omega)).2.2 m hm).1
  unfold purge3Test
  dsimp only
  rw [compStr_ok (List.nodup_dedup _)]
  · exact ⟨_, rfl⟩
  · intro x hx
    rw [List.mem_dedup, List.mem_append, List.mem_append] at hx
    rcases hx with (hx | hx) | hx
    · exact hs.sub.subset hx
    · rw [List.mem_singleton.1 hx]; exact mem_labelTexts.2 (by omega)
    · rw [List.mem_singleton.1 hx]; exact mem_labelTexts.2 (by omega)

theorem purge4_ok {r4 : List Brk} (hn : r4.Nodup) (hg : ∀ b ∈ r4, GoodBrk n b) : ∃ p, purge4 n true r4 r4 = .ok p := by
  rw [purge4_own]
  suffices hP : ∀ b ∈ r4, ∃ t, purge4Test n true b = .ok t by
    obtain ⟨r, h, -⟩ := ownLoop_ok hP hn hn fun _ h => h
    exact ⟨r, h⟩
  intro b hb
  unfold purge4Test
  split
  · exact ⟨_, rfl⟩
  · rw [if_pos rfl]
    obtain ⟨t, ht⟩ := neigh4_ok h6 h9 (hg b hb)
    rw [ht]
    exact ⟨_, rfl⟩

omit h6 h9 in
theorem ownLoop_raises {P : Brk → Except Err Bool} {e : Err} : ∀ {bs r : List Brk}, (∀ b ∈ bs, P b = .ok true ∨ P b = .error e) → bs.Nodup →
    r.Nodup → bs ⊆ r → (∃ b ∈ bs, P b = .error e) → ownLoop P bs r = .error e
  | [], _, _, _, _, _, ⟨b, hb, _⟩ => by cases hb
  | b :: bs, r, hP, hb, hr, hs, ⟨w, hw, he⟩ => by
    have hb' := List.nodup_cons.1 hb
    unfold ownLoop
    rcases hP b (by simp) with h | h
    · rw [h]
      dsimp only
      rw [pyRemove_filter hr (hs (by simp))]
      dsimp only
      refine ownLoop_raises (fun x hx => hP x (by simp [hx])) hb'.2 (hr.filter _) (fun x hx => List.mem_filter.2 ⟨hs (by simp [hx]), ?_⟩) ⟨w, ?_, he⟩
      · exact decide_eq_true fun e => hb'.1 (e ▸ hx)
      · rcases List.mem_cons.1 hw with rfl | hw
        · rw [h] at he; cases he
        · exact hw
    · rw [h]

omit h6 h9 in
/-- A string with short slots. -/
def shortBrk : Brk := ⟨'⟨', 1, [[['3'], ['4']], [['4'], ['5']]], 2, '⟩'⟩

set_option maxRecDepth 100000 in
theorem shortBrk_good : GoodBrk n shortBrk ∧ reducible n shortBrk ≠ .ok true := by
  have ne : ∀ {x : Except Err Bool}, x = .ok false → x ≠ .ok true := fun e h => by rw [e] at h; cases h
  have h0 : [['3'], ['4']] ∈ slotList n 1 0 ∧ [['4'], ['5']] ∈ slotList n 2 0 := by
    interval_cases n <;> decide +kernel
  refine ⟨⟨show 1 ≤ 1 by decide, show 1 ≤ 2 by decide, show 2 ≤ n by omega, .inl ⟨rfl, rfl⟩, _, h0.1, _, h0.2, by decide, fun h => absurd h (by decide),
    rfl⟩, ?_⟩
  interval_cases n <;> exact ne rfl

theorem purge4_raises {r4 : List Brk} (hn : r4.Nodup) (hw : shortBrk ∈ r4) : purge4 n false r4 r4 = .error .typeError := by
  have _ := h6; have _ := h9
  rw [purge4_own]
  refine ownLoop_raises (fun b _ => ?_) hn hn (fun _ h => h) ⟨shortBrk, hw, rfl⟩
  unfold purge4Test
  split
  · exact .inl rfl
  · exact .inr rfl

/-- From the list of strings with two slots to the constructor. -/
theorem generate_of_all4 {ord : SetOrder} {r4 : List Brk} (h4 : all4 n ord = .ok r4) (hn : r4.Nodup) (hg : ∀ b ∈ r4, GoodBrk n b)
    (hw : shortBrk ∈ r4) (hard : Except Err (List PStr)) (f : Flags) :
    if f.restrict4 = true ∧ f.further4 = false then generate n ord hard f = .error .typeError
    else if n = 6 ∧ f.noHard = false then (∀ e, hard = .error e → generate n ord hard f = .error e) ∧
      ∀ l, hard = .ok l → ∃ r, generate n ord hard f = .ok r
    else ∃ r, generate n ord hard f = .ok r := by
  obtain ⟨p, hp⟩ := purge3_ok h6 h9
  obtain ⟨q, hq⟩ := purge4_ok h6 h9 hn hg
  have hq' := purge4_raises h6 h9 hn hw
  obtain ⟨p3, hp3⟩ : ∃ p3, (if f.restrict3 then purge3 n (all3List n) (all3List n) else .ok (all3List n)) = .ok p3 := by
    split
    · exact ⟨p, hp⟩
    · exact ⟨_, rfl⟩
  split
  next h =>
    refine generate_error (all3_eq h6 h9) h4 hp3 ?_
    rw [if_pos h.1, h.2]
    exact hq'
  next h =>
    obtain ⟨p4, hp4⟩ : ∃ p4, (if f.restrict4 then purge4 n f.further4 r4 r4 else .ok r4) = .ok p4 := by
      split
      next h4 =>
        have : f.further4 = true := by
          cases hf : f.further4
          · exact absurd ⟨h4, hf⟩ h
          · rfl
        rw [this]
        exact ⟨q, hq⟩
      next => exact ⟨r4, rfl⟩
    unfold generate
    rw [all3_eq h6 h9]
    dsimp only
    rw [h4]
    dsimp only
    rw [hp3]
    dsimp only
    rw [hp4]
    dsimp only
    split
    next h' =>
      constructor
      · rintro er rfl
        rfl
      · rintro l rfl
        exact ⟨_, rfl⟩
    next h' => exact ⟨_, rfl⟩

theorem all4_eq (ord : SetOrder) {r4 : List Brk} (h : removeReducible n (rawOf n) (rawOf n) = .ok r4) :
    all4 n ord = removeDoubles n ord r4 0 r4 r4 := by
  unfold all4
  rw [all4raw_eq h6 h9]
  dsimp only
  rw [h]

end

/-! ### C60 -/

/-- C60 at six and seven points, whatever the order in which sets are traversed: restricting the strings with two slots without
restricting them further raises TypeError. Otherwise the lists are generated; at six points the block for hard-coded strings,
unless it is switched off, may raise what it raises. -/
theorem C60_six_seven {n : ℕ} (h : n = 6 ∨ n = 7) {ord : SetOrder} (hord : ∀ k l, (ord k l).Perm l) (hard : Except Err (List PStr)) (f : Flags) :
    if f.restrict4 = true ∧ f.further4 = false then generate n ord hard f = .error .typeError
    else if n = 6 ∧ f.noHard = false then (∀ e, hard = .error e → generate n ord hard f = .error e) ∧
      ∀ l, hard = .ok l → ∃ r, generate n ord hard f = .ok r
    else ∃ r, generate n ord hard f = .ok r := by
  have h6 : 6 ≤ n := by omega
  have h9 : n ≤ 9 := by omega
  obtain ⟨r4, e4, hp, hm⟩ := reduced_ok h6 h9
  have hg : ∀ b ∈ r4, GoodBrk n b := fun b hb => ((hm b).1 hb).1
  have hs : Spared n r4 := spared_of_slots h6 h9 (sparedSlots_seven n (by rcases h with rfl | rfl <;> simp)) hg
  obtain ⟨r, er, hr, ho⟩ := removeDoubles_spared h6 h9 hord hp hg hs r4 0 r4 rfl (.refl _) fun b hb _ => hb
  have hn : r4.Nodup := hp.imp fun h => h.1
  exact generate_of_all4 h6 h9 ((all4_eq h6 h9 ord e4).trans er) (hn.sublist hr) (fun b hb => hg b (hr.subset hb))
    (ho _ ((hm _).2 (shortBrk_good h6 h9)) (by decide)) hard f

/-- C60 at eight and nine points when Python traverses no set of two or more labels in ascending order. -/
theorem C60_eight_nine_partial {n : ℕ} (h : n = 8 ∨ n = 9) {ord : SetOrder}
    (hord : ∀ k l, 2 ≤ l.length → l.Pairwise (· < ·) → ¬ (ord k l).Pairwise (· < ·)) (hard : Except Err (List PStr)) (f : Flags) :
    if f.restrict4 = true ∧ f.further4 = false then generate n ord hard f = .error .typeError
    else ∃ r, generate n ord hard f = .ok r := by
  have h6 : 6 ≤ n := by omega
  have h9 : n ≤ 9 := by omega
  obtain ⟨r4, e4, hp, hm⟩ := reduced_ok h6 h9
  have hg : ∀ b ∈ r4, GoodBrk n b := fun b hb => ((hm b).1 hb).1
  have er := removeDoubles_descending h6 h9 hord (copy := r4) hg r4 0 hg
  have hn : r4.Nodup := hp.imp fun h => h.1
  have := generate_of_all4 h6 h9 ((all4_eq h6 h9 ord e4).trans er) hn hg ((hm _).2 (shortBrk_good h6 h9)) hard f
  rwa [if_neg (show ¬ (n = 6 ∧ f.noHard = false) from fun h' => by omega)] at this

/-- C60 refuted at eight and nine points: when Python happens to traverse sets of labels in ascending order, `Invariants(n)` raises
ValueError, whatever the flags: ⟨3|(4+5)|(6+7)|3⟩ removes ⟨3|(1+2+8)|(6+7)|3⟩, which later is to remove itself. -/
theorem C60_eight_nine_raise {n : ℕ} (h : n = 8 ∨ n = 9) {ord : SetOrder} (hord : ∀ k l, (ord k l).Perm l)
    (hasc : ∀ k l, l.Pairwise (· < ·) → ord k l = l) (hard : Except Err (List PStr)) (f : Flags) :
    generate n ord hard f = .error .valueError := by
  have h6 : 6 ≤ n := by omega
  have h9 : n ≤ 9 := by omega
  obtain ⟨r4, e4, hp, hm⟩ := reduced_ok h6 h9
  have er := removeDoubles_ascending h6 h9 (trap_holds h) hord hasc hp hm
  unfold generate
  rw [all3_eq h6 h9]
  dsimp only
  rw [all4_eq h6 h9 ord e4, er]

/-- Ascending and descending orders exist. -/
example (hard : Except Err (List PStr)) (f : Flags) : generate 8 (fun _ l => l) hard f = .error .valueError :=
  C60_eight_nine_raise (.inl rfl) (fun _ _ => .refl _) (fun _ _ _ => rfl) hard f

theorem descending (l : List PStr) (h : 2 ≤ l.length) (hl : l.Pairwise (· < ·)) : ¬ l.reverse.Pairwise (· < ·) := by
  obtain _ | ⟨x, _ | ⟨y, l⟩⟩ := l
  · simp at h
  · simp at h
  · intro hr
    rw [List.pairwise_reverse] at hr
    have h1 := (List.pairwise_cons.1 hl).1 y (by simp)
    have h2 := (List.pairwise_cons.1 hr).1 y (by simp)
    exact List.lt_asymm h1 h2

example (hard : Except Err (List PStr)) : ∃ r, generate 9 (fun _ l => l.reverse) hard ⟨true, true, true, true, true⟩ = .ok r := by
  have := C60_eight_nine_partial (.inr rfl) (fun _ l => descending l) hard ⟨true, true, true, true, true⟩
  rwa [if_neg (by decide)] at this

example (hard : Except Err (List PStr)) : ∃ r, generate 7 (fun _ l => l.reverse) hard ⟨true, true, true, true, true⟩ = .ok r := by
  have := C60_six_seven (.inr rfl) (fun _ l => l.reverse_perm) hard ⟨true, true, true, true, true⟩
  rwa [if_neg (by decide), if_neg (by decide)] at this

end Lips

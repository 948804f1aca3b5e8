import Verif.Props.BracketsMore
import Verif.Props.Dispatch
import Verif.Props.Construct
import Verif.Props.Neighbours
import Mathlib.Data.Finset.Sort

/-!
C110: the strings with one slot that are generated. Up to nine particles each ⟨a|P|d] is zero, a product of two brackets, or,
up to sign, exactly one of the generated strings.
-/

namespace Lips

open Finset

variable {K : Type*} [Field K] {n : ℕ}

/-! ### Specification -/

/-- The text ⟨a|(P)|d]; labels are written from one on, in increasing order. -/
def threeText (a d : Fin n) (P : Finset (Fin n)) : List Char :=
  stringText '⟨' (a + 1) [(true, (P.sort (· ≤ ·)).map fun k : Fin n => (true, (k : ℕ) + 1))] (d + 1) ']'

/-- The value of ⟨a|(P)|d]. -/
def threeVal (r l : Fin n → V2 K) (a d : Fin n) (P : Finset (Fin n)) : K :=
  ∑ k ∈ P, SpecAngle (r a) (r k) * SpecSquare (l k) (l d)

/-- The labels beside the two ends. -/
def others (a d : Fin n) : Finset (Fin n) := {a, d}ᶜ

/-- The slots that are listed: the smaller one of a slot and its complement, or else the one with the smallest label. -/
structure ListedSlot (a d : Fin n) (P : Finset (Fin n)) : Prop where
  sub : P ⊆ others a d
  two : 2 ≤ #P
  small : #P < #(others a d \ P) ∨ (#P = #(others a d \ P) ∧ ∃ y ∈ P, ∀ x ∈ others a d \ P, y < x)

/-! ### The slots -/

def othersList (n a d : ℕ) : List ℕ := (List.range' 1 n).filter fun x => decide (x ≠ a ∧ x ≠ d)

/-- The condition on the size of a slot, for lists. -/
def smallIn (o m : List ℕ) : Bool :=
  decide (2 * m.length < o.length) || (decide (2 * m.length = o.length) && m.any fun y => o.all fun x => decide (x ∈ m ∨ y < x))

def listedSlots (n a d : ℕ) : List (List ℕ) :=
  (List.range' 2 (n / 2 - 1)).flatMap fun k => (combs k (othersList n a d)).filter fun m => smallIn (othersList n a d) m

set_option maxRecDepth 100000 in
theorem slots_listed : ∀ n ∈ List.range 10, ∀ a ∈ List.range' 1 n, ∀ d ∈ List.range' 1 n,
    (slotsFor n a d).toOption = some ((listedSlots n a d).map fun m => m.map pyStr) := by
  decide +kernel

theorem slotsFor_listed (h9 : n ≤ 9) {a d : ℕ} (ha : 1 ≤ a ∧ a ≤ n) (hd : 1 ≤ d ∧ d ≤ n) :
    slotsFor n a d = .ok ((listedSlots n a d).map fun m => m.map pyStr) := by
  have h := slots_listed n (List.mem_range.2 (by omega)) a (List.mem_range'_1.2 (by omega)) d (List.mem_range'_1.2 (by omega))
  rcases e : slotsFor n a d with er | S
  · rw [e] at h; cases h
  · rw [e] at h; rw [Option.some.inj h]

/-- A list of labels in increasing order and the set of these labels. -/
theorem sort_labels {m : List ℕ} (hm : m.Pairwise (· < ·)) (hr : ∀ x ∈ m, 1 ≤ x ∧ x ≤ n) :
    ((univ.filter fun k : Fin n => (k : ℕ) + 1 ∈ m).sort (· ≤ ·)).map (fun k : Fin n => (k : ℕ) + 1) = m := by
  set P := univ.filter fun k : Fin n => (k : ℕ) + 1 ∈ m
  have h1 : ((P.sort (· ≤ ·)).map fun k : Fin n => (k : ℕ) + 1).Pairwise (· < ·) := by
    rw [List.pairwise_map]
    exact (Finset.sortedLT_sort P).pairwise.imp fun h => by have := Fin.lt_def.1 h; omega
  refine List.Perm.eq_of_pairwise (le := (· < ·)) (fun a b _ _ h1 h2 => absurd h1 (lt_asymm h2)) h1 hm ?_
  refine (List.perm_ext_iff_of_nodup (h1.imp fun h => ne_of_lt h) (hm.imp fun h => ne_of_lt h)).2 fun x => ?_
  rw [List.mem_map]
  constructor
  · rintro ⟨k, hk, rfl⟩
    exact (mem_filter.1 ((Finset.mem_sort _).1 hk)).2
  · intro hx
    have := hr x hx
    exact ⟨⟨x - 1, by omega⟩, (Finset.mem_sort _).2 (mem_filter.2 ⟨mem_univ _, by simpa [Nat.sub_add_cancel this.1] using hx⟩),
      Nat.sub_add_cancel this.1⟩

/-- A set of labels as a list. -/
def setList (P : Finset (Fin n)) : List ℕ := (P.sort (· ≤ ·)).map fun k : Fin n => (k : ℕ) + 1

theorem mem_setList {P : Finset (Fin n)} {k : Fin n} : (k : ℕ) + 1 ∈ setList P ↔ k ∈ P := by
  unfold setList
  rw [List.mem_map]
  constructor
  · rintro ⟨j, hj, e⟩
    rw [show k = j from Fin.ext (by omega)]
    exact (Finset.mem_sort _).1 hj
  · exact fun h => ⟨k, (Finset.mem_sort _).2 h, rfl⟩

theorem setList_length (P : Finset (Fin n)) : (setList P).length = #P := by simp [setList]

theorem setList_lt (P : Finset (Fin n)) : (setList P).Pairwise (· < ·) := by
  unfold setList
  rw [List.pairwise_map]
  exact (Finset.sortedLT_sort P).pairwise.imp fun h => by have := Fin.lt_def.1 h; omega

theorem setList_range {P : Finset (Fin n)} {x : ℕ} (hx : x ∈ setList P) : ∃ k ∈ P, x = (k : ℕ) + 1 := by
  obtain ⟨k, hk, rfl⟩ := List.mem_map.1 hx
  exact ⟨k, (Finset.mem_sort _).1 hk, rfl⟩

theorem setList_of {m : List ℕ} (hm : m.Pairwise (· < ·)) (hr : ∀ x ∈ m, 1 ≤ x ∧ x ≤ n) : ∃ P : Finset (Fin n), setList P = m :=
  ⟨_, sort_labels hm hr⟩

theorem setList_inj {P Q : Finset (Fin n)} (h : setList P = setList Q) : P = Q := by
  ext k
  rw [← mem_setList, h, mem_setList]

theorem othersList_lt (n a d : ℕ) : (othersList n a d).Pairwise (· < ·) := List.Pairwise.filter _ List.pairwise_lt_range'

theorem othersList_eq (a d : Fin n) : othersList n (a + 1) (d + 1) = setList (others a d) := by
  refine List.Perm.eq_of_pairwise (le := (· < ·)) (fun a b _ _ h1 h2 => absurd h1 (lt_asymm h2)) (othersList_lt _ _ _) (setList_lt _) ?_
  refine (List.perm_ext_iff_of_nodup ((othersList_lt _ _ _).imp fun h => ne_of_lt h) ((setList_lt _).imp fun h => ne_of_lt h)).2 fun x => ?_
  unfold othersList
  rw [List.mem_filter, List.mem_range'_1, decide_eq_true_eq]
  constructor
  · rintro ⟨h1, h2⟩
    have e : x = ((⟨x - 1, by omega⟩ : Fin n) : ℕ) + 1 := by simp only; omega
    rw [e]
    refine mem_setList.2 ?_
    rw [others, mem_compl, mem_insert, mem_singleton, Fin.ext_iff, Fin.ext_iff]
    simp only
    omega
  · intro hx
    obtain ⟨k, hk, rfl⟩ := setList_range hx
    rw [others, mem_compl, mem_insert, mem_singleton, Fin.ext_iff, Fin.ext_iff] at hk
    omega

theorem smallIn_iff {a d : Fin n} {P : Finset (Fin n)} (hs : P ⊆ others a d) : smallIn (othersList n (a + 1) (d + 1)) (setList P) = true ↔
    #P < #(others a d \ P) ∨ (#P = #(others a d \ P) ∧ ∃ y ∈ P, ∀ x ∈ others a d \ P, y < x) := by
  have hc := card_sdiff_add_card_eq_card hs
  unfold smallIn
  rw [Bool.or_eq_true, Bool.and_eq_true, decide_eq_true_eq, decide_eq_true_eq, List.any_eq_true, othersList_eq, setList_length, setList_length]
  refine or_congr (by omega) (and_congr (by omega) ?_)
  constructor
  · rintro ⟨y, hy, h⟩
    obtain ⟨y, hy', rfl⟩ := setList_range hy
    refine ⟨y, hy', fun x hx => ?_⟩
    have := of_decide_eq_true (List.all_eq_true.1 h _ (mem_setList.2 (mem_sdiff.1 hx).1))
    rw [mem_setList] at this
    have := this.resolve_left (mem_sdiff.1 hx).2
    rw [Fin.lt_def]; omega
  · rintro ⟨y, hy, h⟩
    refine ⟨_, mem_setList.2 hy, List.all_eq_true.2 fun x hx => decide_eq_true ?_⟩
    obtain ⟨x, hx', rfl⟩ := setList_range hx
    rw [mem_setList]
    by_cases hp : x ∈ P
    · exact .inl hp
    · have := Fin.lt_def.1 (h x (mem_sdiff.2 ⟨hx', hp⟩))
      exact .inr (by omega)

theorem mem_listedSlots {a d : Fin n} {m : List ℕ} : m ∈ listedSlots n (a + 1) (d + 1) ↔ ∃ P, ListedSlot a d P ∧ m = setList P := by
  unfold listedSlots
  simp only [List.mem_flatMap, List.mem_filter, List.mem_range'_1, mem_combs]
  constructor
  · rintro ⟨k, hk, ⟨hs, hl⟩, hsm⟩
    have hs' := hs
    rw [othersList_eq] at hs'
    obtain ⟨P, rfl⟩ := setList_of (n := n) ((othersList_lt n _ _).sublist hs) fun x hx => by
      obtain ⟨k, -, rfl⟩ := setList_range (hs'.subset hx)
      omega
    have hsub : P ⊆ others a d := fun k hk => mem_setList.1 (hs'.subset (mem_setList.2 hk))
    refine ⟨P, ⟨hsub, ?_, (smallIn_iff hsub).1 hsm⟩, rfl⟩
    rw [setList_length] at hl
    omega
  · rintro ⟨P, h, rfl⟩
    have hsub : (setList P).Sublist (othersList n (a + 1) (d + 1)) := by
      rw [othersList_eq]
      refine List.sublist_of_subperm_of_pairwise (r := (· ≤ ·)) (List.subperm_of_subset ((setList_lt P).imp fun h => ne_of_lt h) fun x hx => ?_)
        ((setList_lt _).imp Nat.le_of_lt) ((setList_lt _).imp Nat.le_of_lt)
      obtain ⟨k, hk, rfl⟩ := setList_range hx
      exact mem_setList.2 (h.sub hk)
    refine ⟨#P, ⟨h.two, ?_⟩, ⟨hsub, setList_length P⟩, (smallIn_iff h.sub).2 h.small⟩
    have hc := card_sdiff_add_card_eq_card h.sub
    have h1 : #(others a d) ≤ n := by simpa using card_le_univ (others a d)
    have := h.small
    have := h.two
    omega

/-! ### The texts -/

theorem intercalate_plus : ∀ (x : ℕ) (xs : List ℕ), ['+'].intercalate ((x :: xs).map pyStr) = slotBody ((x :: xs).map fun k => (true, k))
  | x, [] => by simp [slotBody, List.intercalate]
  | x, y :: xs => by
    have h := intercalate_plus y xs
    simp only [List.map_cons, slotBody, List.flatMap_cons, if_true] at h ⊢
    rw [show ['+'].intercalate (pyStr x :: pyStr y :: xs.map pyStr) = pyStr x ++ ['+'] ++ ['+'].intercalate (pyStr y :: xs.map pyStr) by
      simp [List.intercalate, List.intersperse], h]
    simp

theorem three_text {a d : Fin n} {P : Finset (Fin n)} (hP : P.Nonempty) :
    Brk.text ⟨'⟨', a + 1, [(setList P).map pyStr], d + 1, ']'⟩ = threeText a d P := by
  obtain ⟨x, xs, e⟩ : ∃ x xs, setList P = x :: xs := by
    rcases h : setList P with _ | ⟨x, xs⟩
    · have := setList_length P
      rw [h] at this
      exact absurd (card_eq_zero.1 this.symm) hP.ne_empty
    · exact ⟨x, xs, rfl⟩
  have e' : (P.sort (· ≤ ·)).map (fun k : Fin n => (true, (k : ℕ) + 1)) = (x :: xs).map fun k => (true, k) := by
    rw [← e, setList, List.map_map]
    rfl
  unfold threeText Brk.text
  rw [e', e]
  simp only [List.map_cons (l := ([] : List (List PStr))), intercalate_plus]
  generalize (x :: xs).map (fun k => (true, k)) = m
  simp [stringText, slotText, List.intercalate, List.intersperse]

theorem threeText_inj {a d a' d' : Fin n} {P P' : Finset (Fin n)} (hP : P.Nonempty) (hP' : P'.Nonempty)
    (h : threeText a d P = threeText a' d' P') : a = a' ∧ d = d' ∧ P = P' := by
  have sl : ∀ {P : Finset (Fin n)}, P.Nonempty → ∃ s : Slot n, SlotWritten s ∧ s.map Prod.snd = P.sort (· ≤ ·) ∧
      ∀ a d : Fin n, threeText a d P = stringText '⟨' (a + 1) ([(true, s)].map slotOf) (d + 1) ']' := by
    intro P hP
    refine ⟨(P.sort (· ≤ ·)).map fun k => (true, k), ?_, ?_, ?_⟩
    · rcases h : P.sort (· ≤ ·) with _ | ⟨x, xs⟩
      · have := P.length_sort (· ≤ ·)
        rw [h] at this
        exact absurd (card_eq_zero.1 this.symm) hP.ne_empty
      · exact ⟨x, _, rfl⟩
    · rw [List.map_map]; exact List.map_id _
    · intro a d
      simp only [threeText, slotOf, List.map_cons, List.map_nil, List.map_map]
      rfl
  obtain ⟨s, w, e, t⟩ := sl hP
  obtain ⟨s', w', e', t'⟩ := sl hP'
  rw [t, t'] at h
  have c := fun (s : Slot n) (w : SlotWritten s) (a d : Fin n) => classify_string '⟨' (a + 1) ([(true, s)].map slotOf) (d + 1) ']' (by decide) (by decide) (by simp)
    (slotsOf_ne [(true, s)] (by simpa using w))
  have := (c s w a d).symm.trans ((congrArg classify h).trans (c s' w' a' d'))
  simp only [Form.string.injEq, List.map_cons, List.map_nil, List.cons.injEq, and_true, true_and] at this
  obtain ⟨h1, h2, h3⟩ := this
  refine ⟨Fin.ext (by have := pyStr_inj h1; omega), Fin.ext (by have := pyStr_inj h3; omega), ?_⟩
  have r := (readSlot_ok (true, s) w).symm.trans ((congrArg (readSlot n) h2).trans (readSlot_ok (true, s') w'))
  have : s = s' := Except.ok.inj r
  ext k
  rw [← Finset.mem_sort (· ≤ ·), ← e, this, e', Finset.mem_sort]

/-! ### The list -/

set_option maxRecDepth 100000 in
theorem listed_nodup : ∀ n ∈ List.range 10, ∀ a ∈ List.range' 1 n, ∀ d ∈ List.range' 1 n, (listedSlots n a d).Nodup := by
  decide +kernel

def listed3 (n : ℕ) : List Brk :=
  (List.range' 1 n).flatMap fun a => (List.range' 1 n).flatMap fun d => (listedSlots n a d).map fun m => ⟨'⟨', a, [m.map pyStr], d, ']'⟩

theorem all3_listed (h9 : n ≤ 9) : all3 n = .ok (listed3 n) := by
  unfold all3 listed3
  refine collect_eq fun a ha => collect_eq fun d hd => ?_
  rw [List.mem_range'_1] at ha hd
  rw [slotsFor_listed h9 (by omega) (by omega)]
  simp only [List.map_map]
  rfl

theorem mem_listed3 {b : Brk} : b ∈ listed3 n ↔ ∃ (a d : Fin n) (P : Finset (Fin n)), ListedSlot a d P ∧
    b = ⟨'⟨', a + 1, [(setList P).map pyStr], d + 1, ']'⟩ := by
  unfold listed3
  simp only [List.mem_flatMap, List.mem_range'_1, List.mem_map]
  constructor
  · rintro ⟨a, ha, d, hd, m, hm, rfl⟩
    have ea : a = ((⟨a - 1, by omega⟩ : Fin n) : ℕ) + 1 := by simp only; omega
    have ed : d = ((⟨d - 1, by omega⟩ : Fin n) : ℕ) + 1 := by simp only; omega
    rw [ea, ed] at hm
    obtain ⟨P, hP, rfl⟩ := mem_listedSlots.1 hm
    exact ⟨_, _, P, hP, by rw [← ea, ← ed]⟩
  · rintro ⟨a, d, P, hP, rfl⟩
    exact ⟨a + 1, by omega, d + 1, by omega, setList P, mem_listedSlots.2 ⟨P, hP, rfl⟩, rfl⟩

theorem ListedSlot.ne {a d : Fin n} {P : Finset (Fin n)} (h : ListedSlot a d P) : P.Nonempty := card_pos.1 (by have := h.two; omega)

theorem listed3_nodup (h9 : n ≤ 9) : (listed3 n).Nodup := by
  unfold listed3
  rw [List.nodup_flatMap]
  refine ⟨fun a ha => ?_, ?_⟩
  · rw [List.nodup_flatMap]
    refine ⟨fun d hd => ?_, ?_⟩
    · refine (listed_nodup n (List.mem_range.2 (by omega)) a ha d hd).map fun x y h => ?_
      exact List.map_injective_iff.2 (fun _ _ h => pyStr_inj h) (by simpa using h)
    · refine (List.nodup_range' (s := 1) (n := n) (step := 1)).imp fun {d d'} hne x hx hy => ?_
      obtain ⟨m, _, rfl⟩ := List.mem_map.1 hx
      obtain ⟨m', _, e⟩ := List.mem_map.1 hy
      exact hne (Brk.mk.inj e).2.2.2.1.symm
  · refine (List.nodup_range' (s := 1) (n := n) (step := 1)).imp fun {a a'} hne x hx hy => ?_
    obtain ⟨d, _, hx⟩ := List.mem_flatMap.1 hx
    obtain ⟨d', _, hy⟩ := List.mem_flatMap.1 hy
    obtain ⟨m, _, rfl⟩ := List.mem_map.1 hx
    obtain ⟨m', _, e⟩ := List.mem_map.1 hy
    exact hne (Brk.mk.inj e).2.1.symm

/-- C110: up to nine particles the strings ⟨a|(P)|d] are generated, each once, for all ends and all slots that are listed. -/
theorem C110_list (h9 : n ≤ 9) : ∃ L, all3 n = .ok L ∧ (L.map Brk.text).Nodup ∧
    ∀ t, t ∈ L.map Brk.text ↔ ∃ (a d : Fin n) (P : Finset (Fin n)), ListedSlot a d P ∧ t = threeText a d P := by
  refine ⟨listed3 n, all3_listed h9, List.Nodup.map_on ?_ (listed3_nodup h9), fun t => ?_⟩
  · intro x hx y hy h
    obtain ⟨a, d, P, hP, rfl⟩ := mem_listed3.1 hx
    obtain ⟨a', d', P', hP', rfl⟩ := mem_listed3.1 hy
    rw [three_text hP.ne, three_text hP'.ne] at h
    obtain ⟨rfl, rfl, rfl⟩ := threeText_inj hP.ne hP'.ne h
    rfl
  · rw [List.mem_map]
    constructor
    · rintro ⟨b, hb, rfl⟩
      obtain ⟨a, d, P, hP, rfl⟩ := mem_listed3.1 hb
      exact ⟨a, d, P, hP, three_text hP.ne⟩
    · rintro ⟨a, d, P, hP, rfl⟩
      exact ⟨_, mem_listed3.2 ⟨a, d, P, hP, rfl⟩, three_text hP.ne⟩

/-- C110: of a slot and its complement exactly one is listed, if both have at least two labels. -/
theorem C110_one_of_two {a d : Fin n} {P : Finset (Fin n)} (hs : P ⊆ others a d) (h2 : 2 ≤ #P) (h2' : 2 ≤ #(others a d \ P)) :
    ∃! T, (T = P ∨ T = others a d \ P) ∧ ListedSlot a d T := by
  have cc : others a d \ (others a d \ P) = P := Finset.sdiff_sdiff_eq_self hs
  have hcm : ∃ y ∈ others a d, ∀ x ∈ others a d, y ≤ x := by
    obtain ⟨z, hz⟩ := card_pos.1 (show 0 < #P by omega)
    exact ⟨_, min'_mem _ ⟨z, hs hz⟩, fun x hx => min'_le _ _ hx⟩
  obtain ⟨y, hy, hmin⟩ := hcm
  -- which one
  by_cases hw : #P < #(others a d \ P) ∨ (#P = #(others a d \ P) ∧ y ∈ P)
  · refine ⟨P, ⟨.inl rfl, hs, h2, hw.imp id fun h => ⟨h.1, y, h.2, fun x hx => ?_⟩⟩, ?_⟩
    · exact lt_of_le_of_ne (hmin x (mem_sdiff.1 hx).1) fun e => (mem_sdiff.1 hx).2 (e ▸ h.2)
    · rintro T ⟨rfl | rfl, hT⟩
      · rfl
      · exfalso
        have h3 := hT.small
        rw [cc] at h3
        rcases h3 with h3 | ⟨h3, z, hz, h4⟩
        · rcases hw with hw | hw <;> omega
        · rcases hw with hw | ⟨-, hw⟩
          · omega
          · exact absurd (h4 y hw) (not_lt.2 (hmin z (mem_sdiff.1 hz).1))
  · have hw' : #(others a d \ P) < #P ∨ (#(others a d \ P) = #P ∧ y ∉ P) := by
      by_cases hy' : y ∈ P <;> simp only [hy', and_true, and_false, or_false, not_true, not_false_iff] at hw ⊢ <;> omega
    refine ⟨others a d \ P, ⟨.inr rfl, sdiff_subset, h2', ?_⟩, ?_⟩
    · rw [cc]
      refine hw'.imp id fun h => ⟨h.1, y, mem_sdiff.2 ⟨hy, h.2⟩, fun x hx => ?_⟩
      exact lt_of_le_of_ne (hmin x (hs hx)) fun e => h.2 (e ▸ hx)
    · rintro T ⟨rfl | rfl, hT⟩
      · exfalso
        rcases hT.small with h3 | ⟨h3, z, hz, h4⟩
        · exact hw (.inl h3)
        · refine hw (.inr ⟨h3, ?_⟩)
          by_contra hn
          exact absurd (h4 y (mem_sdiff.2 ⟨hy, hn⟩)) (not_lt.2 (hmin z (hs hz)))
      · rfl

/-! ### Values -/

theorem angle_self (v : V2 K) : SpecAngle v v = 0 := by unfold SpecAngle; ring
theorem square_self (v : V2 K) : SpecSquare v v = 0 := by unfold SpecSquare; ring

theorem sum_between {r l : Fin n → V2 K} (h : SumZero r l) (u v : V2 K) : ∑ k, SpecAngle u (r k) * SpecSquare (l k) v = 0 := by
  have e : ∀ k, SpecAngle u (r k) * SpecSquare (l k) v = ∑ i, ∑ j, (![u 1, -u 0] i * SpecSquare (![![1, 0], ![0, 1]] j) v) * (r k i * l k j) := by
    intro k
    unfold SpecAngle SpecSquare
    simp only [Fin.sum_univ_two, Matrix.cons_val_zero, Matrix.cons_val_one]
    ring
  rw [sum_congr rfl fun k _ => e k, sum_comm]
  refine sum_eq_zero fun i _ => ?_
  rw [sum_comm]
  refine sum_eq_zero fun j _ => ?_
  rw [← mul_sum, h i j, mul_zero]

theorem three_inter (r l : Fin n → V2 K) (a d : Fin n) (P : Finset (Fin n)) : threeVal r l a d P = threeVal r l a d (P ∩ others a d) := by
  unfold threeVal
  refine (sum_subset inter_subset_left fun k hk hn => ?_).symm
  have : k = a ∨ k = d := by
    by_contra h
    exact hn (mem_inter.2 ⟨hk, by rw [others, mem_compl, mem_insert, mem_singleton]; exact h⟩)
  rcases this with rfl | rfl
  · rw [angle_self, zero_mul]
  · rw [square_self, mul_zero]

theorem three_compl {r l : Fin n → V2 K} (h : SumZero r l) (a d : Fin n) (P : Finset (Fin n)) :
    threeVal r l a d P = -threeVal r l a d (others a d \ P) := by
  rw [three_inter, eq_neg_iff_add_eq_zero, inter_comm]
  have e := (three_inter r l a d univ).symm.trans (show threeVal r l a d univ = 0 from sum_between h _ _)
  rw [univ_inter] at e
  rw [← e]
  unfold threeVal
  exact sum_inter_add_sum_sdiff _ _ _

/-- C110: compute reads the texts and returns the values. -/
theorem C110_value {c : Ctx K} {ps : Point K n} {r l : Fin n → V2 K} (h : Spin c ps r l) (fuel : ℕ) (a d : Fin n) {P : Finset (Fin n)}
    (hP : P.Nonempty) : computeText ps fuel (threeText a d P) = some (.ok (.num (threeVal r l a d P))) := by
  have w : SlotWritten ((P.sort (· ≤ ·)).map fun k => (true, k)) := by
    rcases h : P.sort (· ≤ ·) with _ | ⟨x, xs⟩
    · have := P.length_sort (· ≤ ·)
      rw [h] at this
      exact absurd (card_eq_zero.1 this.symm) hP.ne_empty
    · exact ⟨x, _, rfl⟩
  have t : threeText a d P = stringText '⟨' (a + 1) ([(true, (P.sort (· ≤ ·)).map fun k => (true, k))].map slotOf) (d + 1) ']' := by
    simp only [threeText, slotOf, List.map_cons, List.map_nil, List.map_map]
    rfl
  rw [t, C82_string ps fuel '⟨' ']' (by decide) (by decide) a d _ (by simp) (by simpa using w)]
  have x := ((C17_expansion c ps r l a d [(P.sort (· ≤ ·)).map fun k => (true, k)] (h a).toHasSpinors (h d).toHasSpinors fun k _ => h k).2 rfl).1
  simp only [List.map_cons, List.map_nil]
  rw [x]
  simp only [asNum, specString, List.map_map, Function.comp_def, sgn, if_true, one_mul]
  rw [threeVal, ← List.sum_toFinset _ (Finset.sort_nodup _ _), Finset.sort_toFinset]

/-- C110: for a massless point that conserves momentum, every ⟨a|(P)|d] is zero, a product of two brackets, or up to sign one of the generated
strings; which one is determined by `C110_one_of_two`. -/
theorem C110_complete (h9 : n ≤ 9) {L : List Brk} (hL : all3 n = .ok L) {c : Ctx K} {ps : Point K n} {r l : Fin n → V2 K} (h : Spin c ps r l)
    (hc : Conserves ps) (fuel : ℕ) (a d : Fin n) {P : Finset (Fin n)} (hP : P.Nonempty) :
    ∃ v, computeText ps fuel (threeText a d P) = some (.ok (.num v)) ∧
      (P ∩ others a d = ∅ ∨ others a d \ P = ∅ → v = 0) ∧
      (∀ k, P ∩ others a d = {k} → v = SpecAngle (r a) (r k) * SpecSquare (l k) (l d)) ∧
      (∀ k, others a d \ P = {k} → v = -(SpecAngle (r a) (r k) * SpecSquare (l k) (l d))) ∧
      (2 ≤ #(P ∩ others a d) → 2 ≤ #(others a d \ P) → ∃ T, (T = P ∩ others a d ∨ T = others a d \ P) ∧ threeText a d T ∈ L.map Brk.text ∧
        computeText ps fuel (threeText a d T) = some (.ok (.num (if T = P ∩ others a d then v else -v)))) := by
  have hz := h.conserves_iff.mp hc
  have e1 := three_inter r l a d P
  have e2 := three_compl hz a d P
  refine ⟨_, C110_value h fuel a d hP, ?_, ?_, ?_, ?_⟩
  · rintro (h0 | h0)
    · rw [e1, h0]; rfl
    · rw [e2, h0]; exact neg_zero
  · intro k hk
    rw [e1, hk, threeVal, sum_singleton]
  · intro k hk
    rw [e2, hk, threeVal, sum_singleton]
  · intro h2 h2'
    have hd : others a d \ (P ∩ others a d) = others a d \ P := by rw [inter_comm, sdiff_inter_self_left]
    obtain ⟨T, ⟨hT, hl⟩, -⟩ := C110_one_of_two (a := a) (d := d) (P := P ∩ others a d) inter_subset_right h2 (by rw [hd]; exact h2')
    rw [hd] at hT
    obtain ⟨L', hL', -, hm⟩ := C110_list h9 (n := n)
    obtain rfl : L = L' := Except.ok.inj (hL.symm.trans hL')
    refine ⟨T, hT, (hm _).2 ⟨a, d, T, hl, rfl⟩, ?_⟩
    rw [C110_value h fuel a d hl.ne]
    split
    · next hT' => rw [hT', ← e1]
    · next hT' => rw [hT.resolve_left hT', e2, neg_neg]

/-! ### The restriction to neighbouring labels -/

/-- The function of the loop in `needsRemoval3`. -/
def grow3 (n : ℤ) (near : List ℤ) (x : ℤ) : List ℤ := if x ∈ near then near ++ [x, x + 1, x - 1] ++ wrapped n x else near

theorem mem_grow3 {n : ℤ} {near : List ℤ} {x y : ℤ} : y ∈ grow3 n near x ↔ y ∈ growNear n near x := by
  unfold grow3 growNear
  split
  · next h =>
    simp only [List.mem_append, List.mem_cons, List.not_mem_nil, or_false]
    constructor
    · rintro ((h1 | rfl | h1) | h1)
      · exact .inl (.inl h1)
      · exact .inl (.inl h)
      · exact .inl (.inr h1)
      · exact .inr h1
    · rintro ((h1 | h1) | h1)
      · exact .inl (.inl h1)
      · exact .inl (.inr (.inr h1))
      · exact .inr h1
  · rfl

theorem grow_congr {n : ℤ} : ∀ (l near near' : List ℤ), (∀ y, y ∈ near ↔ y ∈ near') → ∀ y, y ∈ l.foldl (grow3 n) near ↔ y ∈ l.foldl (growNear n) near'
  | [], _, _, h => h
  | x :: l, near, near', h => grow_congr l _ _ fun y => by rw [mem_grow3, mem_growNear, mem_growNear, h, h]

theorem needs3_neighbouring {n a d : ℤ} (m : List ℤ) :
    (needsRemoval3 n a m d = false ↔ checkNeighbouring n (a :: d :: m) = .ok true) := by
  set mid := a :: d :: m with hmid
  set near0 : List ℤ := [a, a + 1, a - 1] ++ wrapped n a with h0
  set near1 : List ℤ := [a, a - 1, a + 1] ++ wrapped n a with h1
  have e01 : ∀ y, y ∈ near0 ↔ y ∈ near1 := fun y => by
    simp only [h0, h1, List.mem_append, List.mem_cons, List.not_mem_nil, or_false]
    tauto
  -- the same sets after every pass
  have same : ∀ k y, y ∈ (fun near => m.foldl (grow3 n) (grow3 n near d))^[k] near0 ↔ y ∈ (fun near => mid.foldl (growNear n) near)^[k] near1 := by
    intro k
    induction k with
    | zero => exact e01
    | succ k ih =>
      intro y
      rw [Function.iterate_succ_apply', Function.iterate_succ_apply']
      refine grow_congr (d :: m) _ _ (fun z => ?_) y
      rw [ih, mem_growNear]
      refine ⟨.inl, fun h => h.elim id fun h => iterate_mono near1 k ?_⟩
      rw [h1]
      simp only [List.mem_append, List.mem_cons, List.not_mem_nil, or_false, mem_wrapped]
      have := h.2
      unfold Adj at this
      tauto
  have ha : ∀ k, a ∈ (fun near => mid.foldl (growNear n) near)^[k] near1 := fun k => iterate_mono near1 k (by simp [h1])
  -- one pass less is enough
  have enough : (∀ x ∈ mid, x ∈ (fun near => mid.foldl (growNear n) near)^[m.length + 1] near1) ↔
      ∀ x ∈ mid, x ∈ (fun near => mid.foldl (growNear n) near)^[mid.length] near1 := by
    rw [show mid.length = (m.length + 1) + 1 from rfl, Function.iterate_succ_apply' (n := m.length + 1)]
    constructor
    · exact fun h x hx => grow_mono _ _ (h x hx)
    · intro h
      rcases passes (n := n) (mid := mid) near1 ⟨a, by simp [hmid], by simp [h1]⟩ (m.length + 1) with hc | hc
      · intro x hx
        exact grow_sound (P := fun y => y ∈ (fun near => mid.foldl (growNear n) near)^[m.length + 1] near1)
          (fun x hx hxn y hy hadj => hc x hx hxn y hy hadj) mid _ (fun _ h => h) (fun y hy _ => hy) x (h x hx) hx
      · intro x hx
        have hle := List.toFinset_card_le mid
        have hlen : mid.length = m.length + 1 + 1 := rfl
        have hf : mid.toFinset.filter (· ∈ (fun near => mid.foldl (growNear n) near)^[m.length + 1] near1) = mid.toFinset :=
          eq_of_subset_of_card_le (filter_subset _ _) (by omega)
        have : x ∈ mid.toFinset.filter (· ∈ (fun near => mid.foldl (growNear n) near)^[m.length + 1] near1) := by
          rw [hf]; exact List.mem_toFinset.2 hx
        exact (mem_filter.1 this).2
  have hc : checkNeighbouring n mid = .ok (mid.all fun x => decide (x ∈ (fun near => mid.foldl (growNear n) near)^[mid.length] near1)) := rfl
  rw [hc, Except.ok.injEq, List.all_eq_true]
  simp only [decide_eq_true_eq]
  rw [← enough]
  have hn : needsRemoval3 n a m d = !(decide (d ∈ (fun near => m.foldl (grow3 n) (grow3 n near d))^[m.length + 1] near0) &&
    m.all fun x => decide (x ∈ (fun near => m.foldl (grow3 n) (grow3 n near d))^[m.length + 1] near0)) := rfl
  rw [hn, Bool.not_eq_false', Bool.and_eq_true, decide_eq_true_eq, List.all_eq_true]
  simp only [decide_eq_true_eq, same]
  constructor
  · rintro ⟨hd, hm⟩ x hx
    rcases List.mem_cons.1 hx with rfl | hx
    · exact ha _
    rcases List.mem_cons.1 hx with rfl | hx
    · exact hd
    · exact hm x hx
  · exact fun h => ⟨h d (by simp [hmid]), fun x hx => h x (by simp [hmid, hx])⟩

/-- The labels of a set as numbers from one on. -/
def labelsOf (P : Finset (Fin n)) : Finset ℕ := P.image fun k : Fin n => (k : ℕ) + 1

theorem setList_toFinset (P : Finset (Fin n)) : (setList P).toFinset = labelsOf P := by
  ext x
  rw [List.mem_toFinset, labelsOf, mem_image]
  constructor
  · intro h
    obtain ⟨k, hk, rfl⟩ := setList_range h
    exact ⟨k, hk, rfl⟩
  · rintro ⟨k, hk, rfl⟩
    exact mem_setList.2 hk

theorem needs3_iff (a d : Fin n) (P : Finset (Fin n)) : needsRemoval3 n ((a + 1 : ℕ) : ℤ) ((setList P).map fun k : ℕ => (k : ℤ)) ((d + 1 : ℕ) : ℤ) = false ↔
    IsCyclicInterval n (labelsOf ({a, d} ∪ P)) := by
  rw [needs3_neighbouring]
  obtain ⟨b, h1, h2⟩ := C58_neighbouring n ((a + 1 : ℕ) :: (d + 1 : ℕ) :: setList P) (by simp) fun x hx => by
    rcases List.mem_cons.1 hx with rfl | hx
    · omega
    rcases List.mem_cons.1 hx with rfl | hx
    · omega
    obtain ⟨k, -, rfl⟩ := setList_range hx
    omega
  have e : ((a + 1 : ℕ) : ℤ) :: ((d + 1 : ℕ) : ℤ) :: ((setList P).map fun k : ℕ => (k : ℤ)) = ((a + 1 : ℕ) :: (d + 1 : ℕ) :: setList P).map Int.ofNat := rfl
  have e' : ((a + 1 : ℕ) :: (d + 1 : ℕ) :: setList P).toFinset = labelsOf ({a, d} ∪ P) := by
    rw [List.toFinset_cons, List.toFinset_cons, setList_toFinset]
    simp [labelsOf, image_insert]
  rw [e, h1, Except.ok.injEq, h2, e']

set_option maxRecDepth 10000 in
theorem intOf_pyStr : ∀ k ∈ List.range 10, intOf (pyStr k) = k := by decide +kernel

theorem ints_of (h9 : n ≤ 9) (P : Finset (Fin n)) : ((setList P).map pyStr).map intOf = (setList P).map fun k : ℕ => (k : ℤ) := by
  rw [List.map_map]
  refine List.map_congr_left fun k hk => ?_
  obtain ⟨j, -, rfl⟩ := setList_range hk
  exact intOf_pyStr _ (List.mem_range.2 (by omega))

theorem comp_of {a d : Fin n} {P : Finset (Fin n)} :
    compStr n ((setList P).map pyStr ++ [pyStr (a + 1)] ++ [pyStr (d + 1)]).dedup = .ok ((setList (others a d \ P)).map pyStr) := by
  rw [compStr_ok (List.nodup_dedup _)]
  · congr 1
    unfold labelTexts
    rw [List.filter_map]
    congr 1
    refine List.Perm.eq_of_pairwise (le := (· < ·)) (fun a b _ _ h1 h2 => absurd h1 (lt_asymm h2)) (List.Pairwise.filter _ List.pairwise_lt_range') (setList_lt _) ?_
    refine (List.perm_ext_iff_of_nodup (List.Nodup.filter _ List.nodup_range') ((setList_lt _).imp fun h => ne_of_lt h)).2 fun x => ?_
    rw [List.mem_filter, List.mem_range'_1, Function.comp, decide_eq_true_eq, List.mem_dedup, List.mem_append, List.mem_append, List.mem_singleton,
      List.mem_singleton, List.mem_map_of_injective (fun _ _ h => pyStr_inj h)]
    constructor
    · rintro ⟨h1, h2⟩
      rw [not_or, not_or] at h2
      have e : x = ((⟨x - 1, by omega⟩ : Fin n) : ℕ) + 1 := by simp only; omega
      have k1 : x ≠ a + 1 := fun e => h2.1.2 (congrArg pyStr e)
      have k2 : x ≠ d + 1 := fun e => h2.2 (congrArg pyStr e)
      have k3 := h2.1.1
      rw [e, mem_setList] at k3
      rw [e, mem_setList]
      refine mem_sdiff.2 ⟨?_, k3⟩
      rw [others, mem_compl, mem_insert, mem_singleton, Fin.ext_iff, Fin.ext_iff]
      simp only
      omega
    · intro hx
      obtain ⟨k, hk, rfl⟩ := setList_range hx
      obtain ⟨hk1, hk2⟩ := mem_sdiff.1 hk
      rw [others, mem_compl, mem_insert, mem_singleton, Fin.ext_iff, Fin.ext_iff] at hk1
      refine ⟨by omega, ?_⟩
      rintro ((h | h) | h)
      · exact hk2 (mem_setList.1 h)
      · have := pyStr_inj h; omega
      · have := pyStr_inj h; omega
  · intro x hx
    rw [List.mem_dedup, List.mem_append, List.mem_append] at hx
    rcases hx with (hx | hx) | hx
    · obtain ⟨y, hy, rfl⟩ := List.mem_map.1 hx
      obtain ⟨k, -, rfl⟩ := setList_range hy
      exact mem_labelTexts.2 (by omega)
    · rw [List.mem_singleton.1 hx]; exact mem_labelTexts.2 (by omega)
    · rw [List.mem_singleton.1 hx]; exact mem_labelTexts.2 (by omega)

/-- C110: the restriction keeps, in their order, exactly the strings whose labels are neighbours: the ends together with the slot, or with its
complement, form a cyclic interval. -/
theorem C110_restricted (h9 : n ≤ 9) {L : List Brk} (hL : all3 n = .ok L) : ∃ L', purge3 n L L = .ok L' ∧ L'.Sublist L ∧
    ∀ t, t ∈ L'.map Brk.text ↔ ∃ (a d : Fin n) (P : Finset (Fin n)), ListedSlot a d P ∧ t = threeText a d P ∧
      (IsCyclicInterval n (labelsOf ({a, d} ∪ P)) ∨ IsCyclicInterval n (labelsOf ({a, d} ∪ (others a d \ P)))) := by
  obtain rfl : listed3 n = L := Except.ok.inj ((all3_listed h9).symm.trans hL)
  rw [purge3_own]
  have test : ∀ a d P, ListedSlot (n := n) a d P → purge3Test n ⟨'⟨', a + 1, [(setList P).map pyStr], d + 1, ']'⟩ =
      .ok (needsRemoval3 n ((a + 1 : ℕ) : ℤ) ((setList P).map fun k : ℕ => (k : ℤ)) ((d + 1 : ℕ) : ℤ) &&
        needsRemoval3 n ((a + 1 : ℕ) : ℤ) ((setList (others a d \ P)).map fun k : ℕ => (k : ℤ)) ((d + 1 : ℕ) : ℤ)) := by
    intro a d P _
    unfold purge3Test
    dsimp only
    rw [comp_of]
    dsimp only
    rw [ints_of h9, ints_of h9]
  obtain ⟨r, h1, h2, h3⟩ := ownLoop_ok (P := purge3Test n) (bs := listed3 n) (r := listed3 n) (fun b hb => by
    obtain ⟨a, d, P, hP, rfl⟩ := mem_listed3.1 hb
    exact ⟨_, test a d P hP⟩) (listed3_nodup h9) (listed3_nodup h9) fun _ h => h
  have kept : ∀ a d P, ListedSlot (n := n) a d P → ((⟨'⟨', a + 1, [(setList P).map pyStr], d + 1, ']'⟩ : Brk) ∈ r ↔
      (IsCyclicInterval n (labelsOf ({a, d} ∪ P)) ∨ IsCyclicInterval n (labelsOf ({a, d} ∪ (others a d \ P))))) := by
    intro a d P hP
    have hm := mem_listed3.2 ⟨a, d, P, hP, rfl⟩
    rw [h3, test a d P hP, ← needs3_iff, ← needs3_iff, Except.ok.injEq, Bool.and_eq_true]
    constructor
    · rintro ⟨-, h⟩
      by_contra hn
      rw [not_or, Bool.not_eq_false, Bool.not_eq_false] at hn
      exact h ⟨hm, hn⟩
    · rintro h
      refine ⟨hm, fun hn => ?_⟩
      rcases h with h | h
      · rw [h] at hn; exact absurd hn.2.1 (by decide)
      · rw [h] at hn; exact absurd hn.2.2 (by decide)
  refine ⟨r, h1, h2, fun t => ?_⟩
  rw [List.mem_map]
  constructor
  · rintro ⟨b, hb, rfl⟩
    obtain ⟨a, d, P, hP, rfl⟩ := mem_listed3.1 (h2.subset hb)
    exact ⟨a, d, P, hP, three_text hP.ne, (kept a d P hP).1 hb⟩
  · rintro ⟨a, d, P, hP, rfl, h⟩
    exact ⟨_, (kept a d P hP).2 h, three_text hP.ne⟩

end Lips

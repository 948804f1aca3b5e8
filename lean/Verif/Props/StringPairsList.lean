import Verif.Props.StringPairs

/-!
C111: which strings with two slots are generated, and which are lost.
-/

namespace Lips

open Finset

variable {K : Type*} [Field K] {n : ℕ}

/-! ### Specification -/

/-- The other labels. -/
def restSet (a : Fin n) (P : Finset (Fin n)) : Finset (Fin n) := {a}ᶜ \ P

/-- At the first place where the labels of `P` and `Q`, in increasing order, differ, `P` has the greater one. -/
def LaterSlot (P Q : Finset (Fin n)) : Prop := ∃ y ∈ Q \ P, (∀ x ∈ P \ Q, y < x) ∧ ∃ x ∈ P, y < x

/-- The strings that are removed because they are taken to be products. -/
def Removed (a d : Fin n) (P Q : Finset (Fin n)) : Prop :=
  (∃ P' ∈ ({P, restSet a P} : Finset (Finset (Fin n))), ∃ Q' ∈ ({Q, restSet d Q} : Finset (Finset (Fin n))),
    P' = Q' ∨ P' \ Q' = {d} ∨ Q' \ P' = {a}) ∨
  (a = d ∧ ((P ⊆ Q ∧ #(Q \ P) = 1) ∨ (P ⊆ restSet d Q ∧ #(restSet d Q \ P) = 1) ∨ (Q ⊆ P ∧ #(P \ Q) = 1) ∨
    (Q ⊆ restSet a P ∧ #(restSet a P \ Q) = 1)))

/-- The strings that are left. -/
structure Kept (a d : Fin n) (P Q : Finset (Fin n)) : Prop where
  le : a ≤ d
  left : ListedSlot a a P
  right : ListedSlot d d Q
  ne : P ≠ Q
  order : a = d → ¬ LaterSlot P Q
  stay : ¬ Removed a d P Q

/-- Both slots are the same set or its complement, beside the ends. -/
def Factors (a d : Fin n) (P Q : Finset (Fin n)) : Prop := ∃ S p q, IsSlot a S P p ∧ IsSlot d S Q q

/-- The slots differ by one label, or those of them whose complement is taken. -/
def OneApart (a : Fin n) (P Q : Finset (Fin n)) : Prop := ∃ S x p q, x ∉ S ∧ x ≠ a ∧ IsSlot a S P p ∧ IsSlot a (insert x S) Q q

/-! ### Sets of labels and lists of texts -/

/-- A set of labels as a list of texts. -/
def tx (P : Finset (Fin n)) : List PStr := (setList P).map pyStr

theorem mem_tx {P : Finset (Fin n)} {t : PStr} : t ∈ tx P ↔ ∃ k ∈ P, t = pyStr ((k : ℕ) + 1) := by
  unfold tx
  rw [List.mem_map]
  constructor
  · rintro ⟨x, hx, rfl⟩
    obtain ⟨k, hk, rfl⟩ := setList_range hx
    exact ⟨k, hk, rfl⟩
  · rintro ⟨k, hk, rfl⟩
    exact ⟨_, mem_setList.2 hk, rfl⟩

theorem py_mem_tx {P : Finset (Fin n)} {k : Fin n} : pyStr ((k : ℕ) + 1) ∈ tx P ↔ k ∈ P := by
  rw [mem_tx]
  constructor
  · rintro ⟨j, hj, e⟩
    rwa [Fin.ext (show (k : ℕ) = j by have := pyStr_inj e; omega)]
  · exact fun h => ⟨k, h, rfl⟩

theorem tx_sublist (P : Finset (Fin n)) : (tx P).Sublist (labelTexts n) := by
  refine List.Sublist.map _ ?_
  refine List.sublist_of_subperm_of_pairwise (r := (· ≤ ·)) (List.subperm_of_subset ((setList_lt P).imp fun h => ne_of_lt h) fun x hx => ?_)
    ((setList_lt _).imp Nat.le_of_lt) (List.Pairwise.imp (R := (· < ·)) Nat.le_of_lt List.pairwise_lt_range')
  obtain ⟨k, hk, rfl⟩ := setList_range hx
  exact List.mem_range'_1.2 (by omega)

theorem tx_length (P : Finset (Fin n)) : (tx P).length = #P := by rw [tx, List.length_map, setList_length]

theorem tx_inj {P Q : Finset (Fin n)} : tx P = tx Q ↔ P = Q := by
  refine ⟨fun h => ?_, congrArg _⟩
  ext k
  rw [← py_mem_tx, h, py_mem_tx]

theorem tx_subset {P Q : Finset (Fin n)} : subS (tx P) (tx Q) = true ↔ P ⊆ Q := by
  rw [subS_iff]
  constructor
  · exact fun h k hk => py_mem_tx.1 (h (py_mem_tx.2 hk))
  · intro h t ht
    obtain ⟨k, hk, rfl⟩ := mem_tx.1 ht
    exact py_mem_tx.2 (h hk)

theorem tx_equal {P Q : Finset (Fin n)} : eqS (tx P) (tx Q) = true ↔ P = Q := by
  unfold eqS
  rw [Bool.and_eq_true, tx_subset, tx_subset]
  exact ⟨fun h => Subset.antisymm h.1 h.2, fun h => h ▸ ⟨Subset.refl _, Subset.refl _⟩⟩

theorem tx_disjoint {P Q : Finset (Fin n)} : (tx P).Disjoint (tx Q) ↔ Disjoint P Q := by
  rw [disjoint_left]
  constructor
  · exact fun h k h1 h2 => h (py_mem_tx.2 h1) (py_mem_tx.2 h2)
  · intro h t h1 h2
    obtain ⟨k, hk, rfl⟩ := mem_tx.1 h1
    exact h hk (py_mem_tx.1 h2)

theorem mem_labels {t : PStr} : t ∈ labelTexts n ↔ ∃ k : Fin n, t = pyStr ((k : ℕ) + 1) := by
  constructor
  · intro h
    obtain ⟨x, hx, rfl⟩ := List.mem_map.1 h
    rw [List.mem_range'_1] at hx
    exact ⟨⟨x - 1, by omega⟩, by simp only; congr 1; omega⟩
  · rintro ⟨k, rfl⟩
    exact mem_labelTexts.2 (by omega)

theorem tx_diff (P Q : Finset (Fin n)) : diffS (tx P) (tx Q) = tx (P \ Q) := by
  refine sublist_ext (n := n) (List.filter_sublist.trans (tx_sublist P)) (tx_sublist _) fun t => ?_
  unfold diffS
  rw [List.mem_filter, decide_eq_true_eq]
  constructor
  · rintro ⟨h1, h2⟩
    obtain ⟨k, hk, rfl⟩ := mem_tx.1 h1
    exact py_mem_tx.2 (mem_sdiff.2 ⟨hk, fun h => h2 (py_mem_tx.2 h)⟩)
  · intro h
    obtain ⟨k, hk, rfl⟩ := mem_tx.1 h
    rw [py_mem_tx, py_mem_tx]
    exact mem_sdiff.1 hk

theorem tx_single (d : Fin n) : tx {d} = [pyStr ((d : ℕ) + 1)] := by
  simp [tx, setList]

theorem tx_left {P Q : Finset (Fin n)} {d : Fin n} : onlyLeft (tx P) (tx Q) (d + 1) = true ↔ P \ Q = {d} := by
  unfold onlyLeft
  rw [decide_eq_true_eq, tx_diff, ← tx_single, tx_inj]

theorem tx_off (a : Fin n) (P : Finset (Fin n)) : offOf n (a + 1) (tx P) = tx (restSet a P) := by
  refine sublist_ext (n := n) List.filter_sublist (tx_sublist _) fun t => ?_
  unfold offOf
  rw [List.mem_filter, decide_eq_true_eq]
  constructor
  · rintro ⟨h1, h2, h3⟩
    obtain ⟨k, rfl⟩ := mem_labels.1 h1
    refine py_mem_tx.2 (mem_sdiff.2 ⟨mem_compl.2 fun h => h3 ?_, fun h => h2 (py_mem_tx.2 h)⟩)
    rw [mem_singleton.1 h]
  · intro h
    obtain ⟨k, hk, rfl⟩ := mem_tx.1 h
    rw [restSet, mem_sdiff, mem_compl, mem_singleton] at hk
    rw [py_mem_tx]
    exact ⟨mem_labels.2 ⟨k, rfl⟩, hk.2, fun e => hk.1 (Fin.ext (by have := pyStr_inj e; omega))⟩

theorem tx_rest (a : Fin n) (P Q : Finset (Fin n)) : restOf n (a + 1) (tx P) (tx Q) = tx (restSet a (P ∪ Q)) := by
  rw [← diffS_off, tx_off, tx_diff]
  congr 1
  ext k
  simp only [restSet, mem_sdiff, mem_union]
  tauto

/-! ### The slots beside an end -/

set_option maxRecDepth 100000 in
theorem slots_beside : ∀ n ∈ List.range 10, ∀ a ∈ List.range' 1 n,
    (slotsFor n a 0).toOption = some ((listedSlots n a a).map fun m => m.map pyStr) := by
  decide +kernel

theorem others_self (a : Fin n) : others a a = {a}ᶜ := by simp [others]

theorem slotList_beside (h9 : n ≤ 9) (a : Fin n) : slotList n (a + 1) 0 = (listedSlots n (a + 1) (a + 1)).map fun m => m.map pyStr := by
  have h := slots_beside n (List.mem_range.2 (by omega)) (a + 1) (List.mem_range'_1.2 (by omega))
  unfold slotList
  rcases e : slotsFor n (a + 1) 0 with er | S
  · rw [e] at h; cases h
  · rw [e] at h; exact Option.some.inj h

theorem mem_beside (h9 : n ≤ 9) {a : Fin n} {m : List PStr} : m ∈ slotList n (a + 1) 0 ↔ ∃ P, ListedSlot a a P ∧ m = tx P := by
  rw [slotList_beside h9, List.mem_map]
  constructor
  · rintro ⟨m, hm, rfl⟩
    obtain ⟨P, hP, rfl⟩ := mem_listedSlots.1 hm
    exact ⟨P, hP, rfl⟩
  · rintro ⟨P, hP, rfl⟩
    exact ⟨_, mem_listedSlots.2 ⟨P, hP, rfl⟩, rfl⟩

theorem py_lt : ∀ x < 10, ∀ y < 10, (pyStr x < pyStr y ↔ x < y) := by decide +kernel

theorem greater_iff : ∀ (xs ys : List ℕ), xs.Pairwise (· < ·) → ys.Pairwise (· < ·) → (∀ x ∈ xs, x < 10) → (∀ y ∈ ys, y < 10) →
    (greaterSlot (xs.map pyStr) (ys.map pyStr) = true ↔ ∃ y ∈ ys, y ∉ xs ∧ (∀ x ∈ xs, x ∉ ys → y < x) ∧ ∃ x ∈ xs, y < x)
  | [], ys, _, _, _, _ => by simp [greaterSlot]
  | x :: xs, [], _, _, _, _ => by simp [greaterSlot]
  | x :: xs, y :: ys, hx, hy, bx, by' => by
    have hx' := List.pairwise_cons.1 hx
    have hy' := List.pairwise_cons.1 hy
    have bx0 := bx x (by simp)
    have by0 := by' y (by simp)
    simp only [List.map_cons, greaterSlot]
    rw [if_congr (py_lt y by0 x bx0) rfl rfl, if_congr (py_lt x bx0 y by0) rfl rfl]
    rcases lt_trichotomy x y with h | h | h
    · rw [if_neg (by omega), if_pos h]
      refine ⟨fun h => absurd h (by decide), ?_⟩
      rintro ⟨z, hz, hn, h1, -⟩
      have hxn : x ∉ y :: ys := fun hm => by
        rcases List.mem_cons.1 hm with e | hm
        · omega
        · have := hy'.1 x hm; omega
      have h2 := h1 x (by simp) hxn
      rcases List.mem_cons.1 hz with e | hm
      · omega
      · have := hy'.1 z hm; omega
    · subst h
      rw [if_neg (lt_irrefl _), if_neg (lt_irrefl _), greater_iff xs ys hx'.2 hy'.2 (fun a ha => bx a (by simp [ha])) fun a ha => by' a (by simp [ha])]
      constructor
      · rintro ⟨z, hz, hn, h1, w, hw, h2⟩
        have hzx := hy'.1 z hz
        refine ⟨z, by simp [hz], ?_, ?_, w, by simp [hw], h2⟩
        · simp only [List.mem_cons, not_or]; exact ⟨by omega, hn⟩
        · intro v hv hvn
          simp only [List.mem_cons, not_or] at hv hvn
          exact h1 v (hv.resolve_left hvn.1) hvn.2
      · rintro ⟨z, hz, hn, h1, w, hw, h2⟩
        simp only [List.mem_cons, not_or] at hz hn
        have hz' := hz.resolve_left hn.1
        have hzx := hy'.1 z hz'
        refine ⟨z, hz', hn.2, fun v hv hvn => h1 v (by simp [hv]) ?_, w, ?_, h2⟩
        · simp only [List.mem_cons, not_or]
          exact ⟨by have := hx'.1 v hv; omega, hvn⟩
        · rcases List.mem_cons.1 hw with e | hw
          · omega
          · exact hw
    · rw [if_pos h]
      refine ⟨fun _ => ⟨y, by simp, ?_, ?_, x, by simp, h⟩, fun _ => rfl⟩
      · intro hm
        rcases List.mem_cons.1 hm with e | hm
        · omega
        · have := hx'.1 y hm; omega
      · intro v hv _
        rcases List.mem_cons.1 hv with e | hv
        · omega
        · have := hx'.1 v hv; omega

theorem tx_later (h9 : n ≤ 9) {P Q : Finset (Fin n)} : greaterSlot (tx P) (tx Q) = true ↔ LaterSlot P Q := by
  have b : ∀ (P : Finset (Fin n)), ∀ x ∈ setList P, x < 10 := fun P x hx => by
    obtain ⟨k, -, rfl⟩ := setList_range hx
    omega
  unfold tx
  rw [greater_iff _ _ (setList_lt P) (setList_lt Q) (b P) (b Q)]
  constructor
  · rintro ⟨y', hy', hn, h1, x', hx', h2⟩
    obtain ⟨y, hy, rfl⟩ := setList_range hy'
    obtain ⟨x, hx, rfl⟩ := setList_range hx'
    refine ⟨y, mem_sdiff.2 ⟨hy, fun h => hn (mem_setList.2 h)⟩, fun z hz => ?_, x, hx, Fin.lt_def.2 (by omega)⟩
    have := h1 _ (mem_setList.2 (mem_sdiff.1 hz).1) fun h => (mem_sdiff.1 hz).2 (mem_setList.1 h)
    exact Fin.lt_def.2 (by omega)
  · rintro ⟨y, hy, h1, x, hx, h2⟩
    refine ⟨_, mem_setList.2 (mem_sdiff.1 hy).1, fun h => (mem_sdiff.1 hy).2 (mem_setList.1 h), fun z' hz' hn => ?_, _, mem_setList.2 hx, ?_⟩
    · obtain ⟨z, hz, rfl⟩ := setList_range hz'
      have := Fin.lt_def.1 (h1 z (mem_sdiff.2 ⟨hz, fun h => hn (mem_setList.2 h)⟩))
      omega
    · have := Fin.lt_def.1 h2
      omega

/-! ### The strings in parts -/

/-- The string in parts. -/
def fourBrk (sq : Bool) (a d : Fin n) (P Q : Finset (Fin n)) : Brk := ⟨if sq then '[' else '⟨', a + 1, [tx P, tx Q], d + 1, if sq then ']' else '⟩'⟩

theorem tx_slot {P : Finset (Fin n)} (hP : P.Nonempty) :
    ['+'].intercalate (tx P) = slotBody ((P.sort (· ≤ ·)).map fun k : Fin n => (true, (k : ℕ) + 1)) := by
  obtain ⟨x, xs, e⟩ : ∃ x xs, setList P = x :: xs := by
    rcases h : setList P with _ | ⟨x, xs⟩
    · have := setList_length P
      rw [h] at this
      exact absurd (card_eq_zero.1 this.symm) hP.ne_empty
    · exact ⟨x, xs, rfl⟩
  have e' : (P.sort (· ≤ ·)).map (fun k : Fin n => (true, (k : ℕ) + 1)) = (x :: xs).map fun k => (true, k) := by
    rw [← e, setList, List.map_map]
    rfl
  rw [e', tx, e, intercalate_plus]

theorem four_text (sq : Bool) (a d : Fin n) {P Q : Finset (Fin n)} (hP : P.Nonempty) (hQ : Q.Nonempty) :
    (fourBrk sq a d P Q).text = fourText sq a d P Q := by
  unfold fourBrk fourText Brk.text
  simp only [List.map_cons, List.map_nil, tx_slot hP, tx_slot hQ]
  simp [stringText, slotText, List.intercalate, List.intersperse]

theorem fourText_inj {sq sq' : Bool} {a d a' d' : Fin n} {P Q P' Q' : Finset (Fin n)} (hP : P.Nonempty) (hQ : Q.Nonempty) (hP' : P'.Nonempty)
    (hQ' : Q'.Nonempty) (h : fourText sq a d P Q = fourText sq' a' d' P' Q') : sq = sq' ∧ a = a' ∧ d = d' ∧ P = P' ∧ Q = Q' := by
  have c := fun (sq : Bool) (a d : Fin n) (P Q : Finset (Fin n)) (hP : P.Nonempty) (hQ : Q.Nonempty) =>
    (congrArg classify (four_slots sq a d P Q)).trans (classify_string (if sq then '[' else '⟨') (a + 1)
      ([(true, (P.sort (· ≤ ·)).map fun k => (true, k)), (true, (Q.sort (· ≤ ·)).map fun k => (true, k))].map slotOf) (d + 1) (if sq then ']' else '⟩')
      (by cases sq <;> decide) (by cases sq <;> decide) (by simp) (slotsOf_ne [_, _] (by simpa using ⟨sort_written hP, sort_written hQ⟩)))
  have := (c sq a d P Q hP hQ).symm.trans ((congrArg classify h).trans (c sq' a' d' P' Q' hP' hQ'))
  simp only [Form.string.injEq, List.map_cons, List.map_nil, List.cons.injEq, and_true] at this
  obtain ⟨h0, h1, ⟨h2, h3⟩, h4, -⟩ := this
  have sl : ∀ {P P' : Finset (Fin n)}, P.Nonempty → P'.Nonempty → slotText (slotOf (true, (P.sort (· ≤ ·)).map fun k => (true, k))) =
      slotText (slotOf (true, (P'.sort (· ≤ ·)).map fun k => (true, k))) → P = P' := by
    intro P P' hP hP' h
    have r := (readSlot_ok (true, _) (sort_written hP)).symm.trans ((congrArg (readSlot n) h).trans (readSlot_ok (true, _) (sort_written hP')))
    have e := congrArg (List.map Prod.snd) (Except.ok.inj r)
    simp only [List.map_map, Function.comp_def, List.map_id'] at e
    ext k
    rw [← Finset.mem_sort (· ≤ ·), e, Finset.mem_sort]
  refine ⟨?_, Fin.ext (by have := pyStr_inj h1; omega), Fin.ext (by have := pyStr_inj h4; omega), sl hP hP' h2, sl hQ hQ' h3⟩
  revert h0
  cases sq <;> cases sq' <;> decide

theorem goodBrk_iff (h9 : n ≤ 9) {b : Brk} : GoodBrk n b ↔ ∃ sq, ∃ (a d : Fin n) (P Q : Finset (Fin n)), a ≤ d ∧ ListedSlot a a P ∧ ListedSlot d d Q ∧
    P ≠ Q ∧ (a = d → ¬ LaterSlot P Q) ∧ b = fourBrk sq a d P Q := by
  constructor
  · rintro ⟨h1, h2, h3, h4, m0, hm0, m1, hm1, hne, hg, e⟩
    obtain ⟨f, a, ms, d, l⟩ := b
    dsimp only at *
    obtain ⟨a', ea⟩ : ∃ a' : Fin n, a = a' + 1 := ⟨⟨a - 1, by omega⟩, by simp only; omega⟩
    obtain ⟨d', ed⟩ : ∃ d' : Fin n, d = d' + 1 := ⟨⟨d - 1, by omega⟩, by simp only; omega⟩
    subst ea ed e
    obtain ⟨P, hP, rfl⟩ := (mem_beside h9).1 hm0
    obtain ⟨Q, hQ, rfl⟩ := (mem_beside h9).1 hm1
    refine ⟨decide (f = '['), a', d', P, Q, Fin.le_def.2 (by omega), hP, hQ, fun e => hne (e ▸ rfl), fun e hl => ?_, ?_⟩
    · rw [(tx_later h9).2 hl] at hg
      exact absurd (hg (by rw [e])) (by decide)
    · rcases h4 with ⟨rfl, rfl⟩ | ⟨rfl, rfl⟩ <;> rfl
  · rintro ⟨sq, a, d, P, Q, hle, hP, hQ, hne, ho, rfl⟩
    refine ⟨by simp [fourBrk], by simpa [fourBrk] using hle, by simp only [fourBrk]; omega, by cases sq <;> simp [fourBrk], tx P, (mem_beside h9).2 ⟨P, hP, rfl⟩,
      tx Q, (mem_beside h9).2 ⟨Q, hQ, rfl⟩, fun e => hne (tx_inj.1 e), fun e => ?_, rfl⟩
    simp only [fourBrk] at e
    rcases h : greaterSlot (tx P) (tx Q) with _ | _
    · rfl
    · exact absurd ((tx_later h9).1 h) (ho (Fin.ext (by omega)))

theorem slotOf_listed (h6 : 6 ≤ n) (h9 : n ≤ 9) {a : Fin n} {P : Finset (Fin n)} (hP : ListedSlot a a P) : SlotOf n (a + 1) (tx P) :=
  ((slotsFor_eq h6 h9 (by omega) (by omega)).2.2 _ ((mem_beside h9).2 ⟨P, hP, rfl⟩)).1

theorem reducible_iff (h6 : 6 ≤ n) (h9 : n ≤ 9) (sq : Bool) {a d : Fin n} {P Q : Finset (Fin n)} (hP : ListedSlot a a P) (hQ : ListedSlot d d Q) :
    reducible n (fourBrk sq a d P Q) = .ok true ↔ Removed a d P Q := by
  have e0 := altOf_ok h6 (by omega) (slotOf_listed h6 h9 hP)
  have e1 := altOf_ok h6 (by omega) (slotOf_listed h6 h9 hQ)
  unfold reducible fourBrk
  dsimp only
  rw [e0, e1]
  dsimp only
  have had : ((a : ℕ) + 1 = d + 1) ↔ a = d := by rw [Fin.ext_iff]; omega
  simp only [Except.ok.injEq, tx_off, Bool.or_eq_true, Bool.and_eq_true, tx_equal, tx_subset, tx_left, tx_diff, tx_length, decide_eq_true_eq, had]
  unfold Removed
  simp only [mem_insert, mem_singleton, exists_eq_or_imp, exists_eq_left]
  apply iff_of_eq
  ac_rfl

/-- The strings that are left after the products are removed. -/
theorem reduced_kept (h6 : 6 ≤ n) (h9 : n ≤ 9) : ∃ r4, removeReducible n (rawOf n) (rawOf n) = .ok r4 ∧ r4.Pairwise (BrkBefore n) ∧
    (∀ b, b ∈ r4 ↔ GoodBrk n b ∧ reducible n b ≠ .ok true) ∧
    ∀ b, b ∈ r4 ↔ ∃ sq, ∃ (a d : Fin n) (P Q : Finset (Fin n)), Kept a d P Q ∧ b = fourBrk sq a d P Q := by
  obtain ⟨r4, e, hp, hm⟩ := reduced_ok h6 h9
  refine ⟨r4, e, hp, hm, fun b => ?_⟩
  rw [hm, goodBrk_iff h9]
  constructor
  · rintro ⟨⟨sq, a, d, P, Q, hle, hP, hQ, hne, ho, rfl⟩, hr⟩
    exact ⟨sq, a, d, P, Q, ⟨hle, hP, hQ, hne, ho, fun h => hr ((reducible_iff h6 h9 sq hP hQ).2 h)⟩, rfl⟩
  · rintro ⟨sq, a, d, P, Q, h, rfl⟩
    exact ⟨⟨sq, a, d, P, Q, h.le, h.left, h.right, h.ne, h.order, rfl⟩, fun hr => h.stay ((reducible_iff h6 h9 sq h.left h.right).1 hr)⟩

/-! ### What is removed -/

theorem ListedSlot.away {a : Fin n} {P : Finset (Fin n)} (h : ListedSlot a a P) : a ∉ P := fun ha => by
  have := h.sub ha
  rw [others_self, mem_compl, mem_singleton] at this
  exact this rfl

theorem ListedSlot.card {a : Fin n} {P : Finset (Fin n)} (h : ListedSlot a a P) : #P ≤ #(restSet a P) := by
  have := h.small
  rw [others_self] at this
  unfold restSet
  omega

theorem rest_away (a : Fin n) (P : Finset (Fin n)) : a ∉ restSet a P := fun h => by simp [restSet] at h

theorem rest_card {a : Fin n} {P : Finset (Fin n)} (h : a ∉ P) : #P + #(restSet a P) = n - 1 := by
  unfold restSet
  have h1 : P ⊆ {a}ᶜ := fun k hk => mem_compl.2 fun e => h (mem_singleton.1 e ▸ hk)
  have := card_sdiff_add_card_eq_card h1
  rw [card_compl, card_singleton, Fintype.card_fin] at this
  omega

theorem isSlot_self (a : Fin n) (P : Finset (Fin n)) : IsSlot a P P true := rfl

theorem isSlot_rest (a : Fin n) (P : Finset (Fin n)) : IsSlot a (restSet a P) P false := by
  unfold IsSlot
  ext k
  simp only [restSet, mem_erase, Bool.false_eq_true, if_false, mem_compl, mem_sdiff, mem_singleton]
  tauto

theorem isSlot_compl {a : Fin n} {S P : Finset (Fin n)} {p : Bool} : IsSlot a Sᶜ P p ↔ IsSlot a S P (!p) := by
  unfold IsSlot
  cases p <;> simp

/-- The two sets a slot stands for. -/
theorem isSlot_iff {a : Fin n} {S P : Finset (Fin n)} {p : Bool} (h : a ∉ P) : IsSlot a S P p ↔ S.erase a = if p then P else restSet a P := by
  unfold IsSlot
  rw [erase_eq_of_notMem h]
  cases p
  · simp only [Bool.false_eq_true, if_false, restSet]
    constructor
    · rintro rfl
      ext k
      simp only [mem_erase, mem_sdiff, mem_compl, mem_singleton]
      tauto
    · intro e
      ext k
      have := congrArg (k ∈ ·) e
      simp only [mem_erase, mem_sdiff, mem_compl, mem_singleton, eq_iff_iff] at this ⊢
      by_cases hk : k = a
      · subst hk; simp [h]
      · tauto
  · exact eq_comm

theorem slot_pair {a : Fin n} {P P' : Finset (Fin n)} (h : P' = P ∨ P' = restSet a P) : ∃ p, IsSlot a P' P p := by
  rcases h with rfl | rfl
  · exact ⟨true, isSlot_self _ _⟩
  · exact ⟨false, isSlot_rest _ _⟩

/-- C111: for equal ends exactly the strings are removed that vanish or are products. -/
theorem C111_removed_equal {a : Fin n} {P Q : Finset (Fin n)} (hP : ListedSlot a a P) (hQ : ListedSlot a a Q) :
    Removed a a P Q ↔ Factors a a P Q ∨ OneApart a P Q := by
  have hap := hP.away
  have haq := hQ.away
  constructor
  · rintro (⟨P', hP', Q', hQ', h⟩ | ⟨-, h⟩)
    · rw [mem_insert, mem_singleton] at hP' hQ'
      have n1 : a ∉ P' := by rcases hP' with rfl | rfl; exacts [hap, rest_away _ _]
      have n2 : a ∉ Q' := by rcases hQ' with rfl | rfl; exacts [haq, rest_away _ _]
      have : P' = Q' := by
        rcases h with h | h | h
        · exact h
        · exact absurd (mem_sdiff.1 (h ▸ mem_singleton_self a)).1 n1
        · exact absurd (mem_sdiff.1 (h ▸ mem_singleton_self a)).1 n2
      subst this
      obtain ⟨p, hp⟩ := slot_pair hP'
      obtain ⟨q, hq⟩ := slot_pair hQ'
      exact .inl ⟨P', p, q, hp, hq⟩
    · right
      have ins : ∀ {X Y : Finset (Fin n)}, X ⊆ Y → #(Y \ X) = 1 → ∃ x, x ∉ X ∧ x ∈ Y ∧ insert x X = Y := by
        intro X Y hs hc
        obtain ⟨x, hx⟩ := card_eq_one.1 hc
        have hm := mem_sdiff.1 (hx ▸ mem_singleton_self x)
        refine ⟨x, hm.2, hm.1, ?_⟩
        rw [← union_sdiff_of_subset hs, hx, union_comm]
        rfl
      -- the first set is the smaller one
      have up : ∀ {X Y : Finset (Fin n)} {p q : Bool}, X ⊆ Y → #(Y \ X) = 1 → a ∉ Y → IsSlot a X P p → IsSlot a Y Q q → OneApart a P Q := by
        intro X Y p q hs hc ha h1 h2
        obtain ⟨x, hx, hy, rfl⟩ := ins hs hc
        exact ⟨X, x, p, q, hx, fun e => ha (e ▸ hy), h1, h2⟩
      have down : ∀ {X Y : Finset (Fin n)} {p q : Bool}, Y ⊆ X → #(X \ Y) = 1 → a ∉ X → IsSlot a X P p → IsSlot a Y Q q → OneApart a P Q := by
        intro X Y p q hs hc ha h1 h2
        obtain ⟨x, hx, hy, rfl⟩ := ins hs hc
        have e : insert x (insert x Y)ᶜ = Yᶜ := by
          ext k
          simp only [mem_insert, mem_compl, not_or]
          by_cases hk : k = x
          · subst hk; simp [hx]
          · simp [hk]
        refine ⟨(insert x Y)ᶜ, x, !p, !q, by simp, fun e => ha (e ▸ hy), isSlot_compl.2 (by simpa using h1), ?_⟩
        rw [e]
        exact isSlot_compl.2 (by simpa using h2)
      rcases h with ⟨h1, h2⟩ | ⟨h1, h2⟩ | ⟨h1, h2⟩ | ⟨h1, h2⟩
      · exact up h1 h2 haq (isSlot_self _ _) (isSlot_self _ _)
      · exact up h1 h2 (rest_away _ _) (isSlot_self _ _) (isSlot_rest _ _)
      · exact down h1 h2 hap (isSlot_self _ _) (isSlot_self _ _)
      · exact down h1 h2 (rest_away _ _) (isSlot_rest _ _) (isSlot_self _ _)
  · have rr : ∀ {X : Finset (Fin n)}, a ∉ X → restSet a (restSet a X) = X := fun {X} hX => by
      unfold restSet
      exact Finset.sdiff_sdiff_eq_self fun k hk => mem_compl.2 fun e => hX (mem_singleton.1 e ▸ hk)
    rintro (⟨S, p, q, h1, h2⟩ | ⟨S, x, p, q, hx, hxa, h1, h2⟩)
    · rw [isSlot_iff hap] at h1
      rw [isSlot_iff haq] at h2
      refine .inl ⟨if p then P else restSet a P, ?_, if q then Q else restSet a Q, ?_, .inl (h1.symm.trans h2)⟩
      · cases p <;> simp
      · cases q <;> simp
    · rw [isSlot_iff hap] at h1
      rw [isSlot_iff haq, erase_insert_of_ne hxa, h1] at h2
      have hx' : x ∉ if p then P else restSet a P := fun h => hx (mem_of_mem_erase (h1 ▸ h))
      have one : ∀ {X : Finset (Fin n)}, x ∉ X → X ⊆ insert x X ∧ #(insert x X \ X) = 1 := fun {X} h =>
        ⟨subset_insert _ _, by rw [insert_sdiff_cancel h]; simp⟩
      right
      refine ⟨rfl, ?_⟩
      cases p <;> cases q <;> simp only [Bool.false_eq_true, if_false, if_true] at h2 hx'
      · -- both complements
        right; right; left
        have e : P = insert x Q := by
          rw [← rr hap, ← rr haq, ← h2]
          ext k
          simp only [restSet, mem_sdiff, mem_compl, mem_singleton, mem_insert] at hx' ⊢
          by_cases hk : k = x
          · subst hk; simp only [hxa, not_false_iff, true_and, true_or]; tauto
          · tauto
        have hxQ : x ∉ Q := fun h => by
          have := (Finset.ext_iff.1 h2 x).1 (mem_insert_self _ _)
          exact (mem_sdiff.1 this).2 h
        rw [e]
        exact one hxQ
      · exfalso
        have c1 := rest_card hap
        have c2 := rest_card haq
        have c3 := hP.card
        have c4 := hQ.card
        have c5 : #Q = #(restSet a P) + 1 := by rw [← h2, card_insert_of_notMem hx']
        omega
      · right; left
        rw [← h2]
        exact one hx'
      · left
        rw [← h2]
        exact one hx'

/-- C111: whatever the ends, strings that are products of a bracket and an s are removed. -/
theorem C111_removed_factor {a d : Fin n} {P Q : Finset (Fin n)} (hP : ListedSlot a a P) (hQ : ListedSlot d d Q) (h : Factors a d P Q) :
    Removed a d P Q := by
  obtain ⟨S, p, q, h1, h2⟩ := h
  rw [isSlot_iff hP.away] at h1
  rw [isSlot_iff hQ.away] at h2
  refine .inl ⟨S.erase a, ?_, S.erase d, ?_, ?_⟩
  · rw [h1]; cases p <;> simp
  · rw [h2]; cases q <;> simp
  · by_cases had : a = d
    · subst had; exact .inl rfl
    by_cases hd : d ∈ S
    · right; left
      ext k
      simp only [mem_sdiff, mem_erase, mem_singleton]
      constructor
      · rintro ⟨⟨-, h1⟩, h2⟩
        by_contra h3
        exact h2 ⟨h3, h1⟩
      · rintro rfl
        exact ⟨⟨fun e => had e.symm, hd⟩, fun h => h.1 rfl⟩
    by_cases ha : a ∈ S
    · right; right
      ext k
      simp only [mem_sdiff, mem_erase, mem_singleton]
      constructor
      · rintro ⟨⟨-, h1⟩, h2⟩
        by_contra h3
        exact h2 ⟨h3, h1⟩
      · rintro rfl
        exact ⟨⟨had, ha⟩, fun h => h.1 rfl⟩
    · left
      rw [erase_eq_of_notMem ha, erase_eq_of_notMem hd]

/-! ### The loop that removes doubles -/

/-- A string that every step keeps is kept. -/
theorem removeDoubles_keeps {ord : SetOrder} {copy : List Brk} {Y : Brk}
    (hY : ∀ i b r r', copy[i]? = some b → r.Sublist copy → removeDouble n ord copy i b r = .ok r' → Y ∈ r → Y ∈ r' ∧ r'.Sublist r) :
    ∀ (bs : List Brk) (i : ℕ) (r r' : List Brk), copy.drop i = bs → r.Sublist copy → removeDoubles n ord copy i bs r = .ok r' → Y ∈ r → Y ∈ r'
  | [], i, r, r', _, _, h, hy => by cases h; exact hy
  | b :: bs, i, r, r', hd, hs, h, hy => by
    have hbi : copy[i]? = some b := by
      have := congrArg List.head? hd
      rwa [List.head?_drop] at this
    have hd' : copy.drop (i + 1) = bs := by
      rw [← List.drop_drop, hd]
      rfl
    unfold removeDoubles at h
    rcases e : removeDouble n ord copy i b r with er | r1
    · rw [e] at h; cases h
    · rw [e] at h
      obtain ⟨h1, h2⟩ := hY i b r r1 hbi hs e hy
      exact removeDoubles_keeps hY bs (i + 1) r1 r' hd' (h2.trans hs) h h1

/-- The loop runs through the steps. -/
theorem removeDoubles_splits (h6 : 6 ≤ n) (h9 : n ≤ 9) {ord : SetOrder} (hord : ∀ k l, (ord k l).Perm l) {copy : List Brk} (hn : copy.Nodup)
    (hg : ∀ b ∈ copy, GoodBrk n b) : ∀ (bs : List Brk) (i : ℕ) (r r' : List Brk), copy.drop i = bs → r.Sublist copy →
    removeDoubles n ord copy i bs r = .ok r' → r'.Sublist r ∧ ∀ b ∈ bs, ∃ j r1 r2, copy[j]? = some b ∧ r1.Sublist r ∧
      removeDouble n ord copy j b r1 = .ok r2 ∧ r'.Sublist r2
  | [], i, r, r', _, _, h => by cases h; exact ⟨.refl _, fun b hb => by cases hb⟩
  | b :: bs, i, r, r', hd, hs, h => by
    have hbi : copy[i]? = some b := by
      have := congrArg List.head? hd
      rwa [List.head?_drop] at this
    have hd' : copy.drop (i + 1) = bs := by
      rw [← List.drop_drop, hd]
      rfl
    unfold removeDoubles at h
    rcases removeDouble_total h6 h9 hord (copy := copy) (hn.sublist hs) (fun c hc => hg c (hs.subset hc)) (i := i)
      (hg b (List.mem_of_getElem? hbi)) with ⟨r1, e, h1⟩ | e
    · rw [e] at h
      obtain ⟨h2, h3⟩ := removeDoubles_splits h6 h9 hord hn hg bs (i + 1) r1 r' hd' (h1.trans hs) h
      refine ⟨h2.trans h1, fun c hc => ?_⟩
      rcases List.mem_cons.1 hc with rfl | hc
      · exact ⟨i, r, r1, hbi, .refl _, e, h2⟩
      · obtain ⟨j, r2, r3, hj, k1, k2, k3⟩ := h3 c hc
        exact ⟨j, r2, r3, hj, k1.trans h1, k2, k3⟩
    · rw [e] at h; cases h

/-- What a step may remove. -/
theorem step_keeps (h6 : 6 ≤ n) (h9 : n ≤ 9) {ord : SetOrder} (hord : ∀ k l, (ord k l).Perm l) {copy : List Brk} (hn : copy.Nodup)
    (hg : ∀ b ∈ copy, GoodBrk n b) {i : ℕ} {b Y : Brk} {r r' : List Brk} (hb : b ∈ copy) (hs : r.Sublist copy)
    (h : removeDouble n ord copy i b r = .ok r') (hy : Y ∈ r)
    (hY : ∀ m0 m1, b.mids = [m0, m1] → b.a = b.d → m0.Disjoint m1 → SlotOf n b.a m0 → SlotOf n b.a m1 →
      (Y = twinA n b m0 m1 → neigh4 n b = .ok false ∧ neigh4 n Y = .ok true) ∧ (Y = twinB n b m0 m1 → ¬ i < copy.idxOf Y) ∧
      (Y = b → neigh4 n Y = .ok true)) : Y ∈ r' ∧ r'.Sublist r := by
  have hr := hn.sublist hs
  have hg' : ∀ c ∈ r, GoodBrk n c := fun c hc => hg c (hs.subset hc)
  refine ⟨?_, ?_⟩
  swap
  · rcases removeDouble_total h6 h9 hord (copy := copy) hr hg' (i := i) (hg b hb) with ⟨r1, e, h1⟩ | e
    · rw [e] at h; cases h; exact h1
    · rw [e] at h; cases h
  rcases removeDouble_step h6 h9 hord (copy := copy) hr hg' (i := i) (hg b hb) with he | ⟨m0, m1, em, had, hdis, x, hx, F, hF, he⟩
  · rw [h] at he
    cases he
    exact hy
  obtain ⟨w0, w1, ew, -, -, hw0, hw1, hgr⟩ := (hg b hb).slots h6 h9
  rw [em] at ew
  simp only [List.cons.injEq, and_true] at ew
  obtain ⟨rfl, rfl⟩ := ew
  rw [← had] at hw1
  obtain ⟨nA, nB, nb⟩ := hY m0 m1 em had hdis hw0 hw1
  have h1 : ∃ r1, x = .ok r1 ∧ Y ∈ r1 ∧ r1.Sublist r := by
    cases hx with
    | keep => exact ⟨r, rfl, hy, .refl _⟩
    | later hm h1 h2 h3 =>
      refine ⟨_, rfl, List.mem_filter.2 ⟨hy, decide_eq_true fun e => ?_⟩, List.filter_sublist⟩
      rw [(nA e).1] at h2
      cases h2
    | own hm h1 h2 h3 =>
      refine ⟨_, rfl, List.mem_filter.2 ⟨hy, decide_eq_true fun e => ?_⟩, List.filter_sublist⟩
      rw [← e, nb e] at h2
      cases h2
    | fails => rw [h] at he; cases he
    | other hm h1 h2 =>
      refine ⟨_, rfl, List.mem_filter.2 ⟨hy, decide_eq_true fun e => ?_⟩, List.filter_sublist⟩
      rw [← e, (nA e).2] at h1
      cases h1
  obtain ⟨r1, rfl, hy1, hs1⟩ := h1
  obtain ⟨r2, e2, -, hm2⟩ := secondStep_ok (i := i) (copy := copy) (F := F) (hr.sublist hs1)
  rw [h] at he
  have : r' = r2 := Except.ok.inj (he.trans e2)
  rw [this]
  refine (hm2 _).2 ⟨hy1, fun e => ?_⟩
  rcases hF with hF | hF
  · exact nB (e.1.trans hF) (e.1 ▸ e.2)
  · exact hF r1 hs1 (e.1 ▸ hy1)

theorem fourBrk_inj {sq sq' : Bool} {a d a' d' : Fin n} {P Q P' Q' : Finset (Fin n)} (h : fourBrk sq a d P Q = fourBrk sq' a' d' P' Q') :
    sq = sq' ∧ a = a' ∧ d = d' ∧ P = P' ∧ Q = Q' := by
  simp only [fourBrk, Brk.mk.injEq, List.cons.injEq, and_true, tx_inj] at h
  obtain ⟨h0, h1, ⟨h2, h3⟩, h4, -⟩ := h
  refine ⟨?_, Fin.ext (by omega), Fin.ext (by omega), h2, h3⟩
  revert h0
  cases sq <;> cases sq' <;> decide

theorem Kept.ne_left {a d : Fin n} {P Q : Finset (Fin n)} (h : Kept a d P Q) : P.Nonempty := h.left.ne
theorem Kept.ne_right {a d : Fin n} {P Q : Finset (Fin n)} (h : Kept a d P Q) : Q.Nonempty := h.right.ne

theorem mem_texts (L : List Brk) (hL : ∀ b ∈ L, ∃ sq, ∃ (a d : Fin n) (P Q : Finset (Fin n)), Kept a d P Q ∧ b = fourBrk sq a d P Q) {sq : Bool}
    {a d : Fin n} {P Q : Finset (Fin n)} (hP : P.Nonempty) (hQ : Q.Nonempty) :
    fourText sq a d P Q ∈ L.map Brk.text ↔ fourBrk sq a d P Q ∈ L := by
  rw [List.mem_map]
  constructor
  · rintro ⟨b, hb, e⟩
    obtain ⟨sq', a', d', P', Q', hk, rfl⟩ := hL b hb
    rw [four_text _ _ _ hk.ne_left hk.ne_right] at e
    obtain ⟨rfl, rfl, rfl, rfl, rfl⟩ := fourText_inj hk.ne_left hk.ne_right hP hQ e
    exact hb
  · exact fun h => ⟨_, h, four_text _ _ _ hP hQ⟩

theorem texts_nodup (L : List Brk) (hL : ∀ b ∈ L, ∃ sq, ∃ (a d : Fin n) (P Q : Finset (Fin n)), Kept a d P Q ∧ b = fourBrk sq a d P Q)
    (hn : L.Nodup) : (L.map Brk.text).Nodup := by
  refine List.Nodup.map_on ?_ hn
  intro x hx y hy h
  obtain ⟨sq, a, d, P, Q, hk, rfl⟩ := hL x hx
  obtain ⟨sq', a', d', P', Q', hk', rfl⟩ := hL y hy
  rw [four_text _ _ _ hk.ne_left hk.ne_right, four_text _ _ _ hk'.ne_left hk'.ne_right] at h
  obtain ⟨rfl, rfl, rfl, rfl, rfl⟩ := fourText_inj hk.ne_left hk.ne_right hk'.ne_left hk'.ne_right h
  rfl

/-- C111: from six to nine particles, when the strings are generated, they are written once each and are among those not removed; of these
only strings with equal ends and slots without common labels may be missing. -/
theorem C111_list (h6 : 6 ≤ n) (h9 : n ≤ 9) {ord : SetOrder} (hord : ∀ k l, (ord k l).Perm l) {L : List Brk} (hL : all4 n ord = .ok L) :
    (L.map Brk.text).Nodup ∧
    (∀ t ∈ L.map Brk.text, ∃ sq, ∃ (a d : Fin n) (P Q : Finset (Fin n)), Kept a d P Q ∧ t = fourText sq a d P Q) ∧
    ∀ sq, ∀ (a d : Fin n) (P Q : Finset (Fin n)), Kept a d P Q → (a = d → ¬ Disjoint P Q) → fourText sq a d P Q ∈ L.map Brk.text := by
  obtain ⟨r4, e4, hp, hm, hk⟩ := reduced_kept h6 h9
  have hn : r4.Nodup := hp.imp fun h => h.1
  have hg : ∀ b ∈ r4, GoodBrk n b := fun b hb => ((hm b).1 hb).1
  rw [all4_eq h6 h9 ord e4] at hL
  have hs := (removeDoubles_splits h6 h9 hord hn hg r4 0 r4 L rfl (.refl _) hL).1
  have hL' : ∀ b ∈ L, ∃ sq, ∃ (a d : Fin n) (P Q : Finset (Fin n)), Kept a d P Q ∧ b = fourBrk sq a d P Q := fun b hb => (hk b).1 (hs.subset hb)
  refine ⟨texts_nodup L hL' (hn.sublist hs), fun t ht => ?_, fun sq a d P Q h hd => ?_⟩
  · obtain ⟨b, hb, rfl⟩ := List.mem_map.1 ht
    obtain ⟨sq, a, d, P, Q, h, rfl⟩ := hL' b hb
    exact ⟨sq, a, d, P, Q, h, four_text _ _ _ h.ne_left h.ne_right⟩
  · rw [mem_texts L hL' h.ne_left h.ne_right]
    refine removeDoubles_keeps (Y := fourBrk sq a d P Q) (fun i b r r' hb hr e hy => ?_) r4 0 r4 L rfl (.refl _) hL ((hk _).2 ⟨sq, a, d, P, Q, h, rfl⟩)
    refine step_keeps h6 h9 hord hn hg (List.mem_of_getElem? hb) hr e hy fun m0 m1 em had hdis h0 h1 => ?_
    have no : ∀ {x y : List PStr}, x.Disjoint y → fourBrk sq a d P Q ≠ ⟨b.first, b.a, [x, y], b.d, b.last⟩ := by
      intro x y hxy e
      simp only [fourBrk, Brk.mk.injEq, List.cons.injEq, and_true] at e
      obtain ⟨-, e1, ⟨rfl, rfl⟩, e2, -⟩ := e
      exact hd (Fin.ext (by omega)) (tx_disjoint.1 hxy)
    refine ⟨fun e => absurd e (no ?_), fun e => absurd e (no ?_), fun e => absurd (e.trans ?_) (no hdis)⟩
    · exact fun t ht ht' => (of_decide_eq_true (List.mem_filter.1 ht').2).1 ht
    · exact fun t ht ht' => (of_decide_eq_true (List.mem_filter.1 ht).2).2.1 ht'
    · rw [← em]

/-- C111: when no set is traversed in ascending order, exactly the strings that are not removed are generated. -/
theorem C111_descending (h6 : 6 ≤ n) (h9 : n ≤ 9) {ord : SetOrder}
    (hord : ∀ k l, 2 ≤ l.length → l.Pairwise (· < ·) → ¬ (ord k l).Pairwise (· < ·)) : ∃ L, all4 n ord = .ok L ∧ (L.map Brk.text).Nodup ∧
    ∀ t, t ∈ L.map Brk.text ↔ ∃ sq, ∃ (a d : Fin n) (P Q : Finset (Fin n)), Kept a d P Q ∧ t = fourText sq a d P Q := by
  obtain ⟨r4, e4, hp, hm, hk⟩ := reduced_kept h6 h9
  have hn : r4.Nodup := hp.imp fun h => h.1
  have hg : ∀ b ∈ r4, GoodBrk n b := fun b hb => ((hm b).1 hb).1
  refine ⟨r4, (all4_eq h6 h9 ord e4).trans (removeDoubles_descending h6 h9 hord (copy := r4) hg r4 0 hg), texts_nodup r4 (fun b hb => (hk b).1 hb) hn, fun t => ?_⟩
  constructor
  · intro ht
    obtain ⟨b, hb, rfl⟩ := List.mem_map.1 ht
    obtain ⟨sq, a, d, P, Q, h, rfl⟩ := (hk b).1 hb
    exact ⟨sq, a, d, P, Q, h, four_text _ _ _ h.ne_left h.ne_right⟩
  · rintro ⟨sq, a, d, P, Q, h, rfl⟩
    exact (mem_texts r4 (fun b hb => (hk b).1 hb) h.ne_left h.ne_right).2 ((hk _).2 ⟨sq, a, d, P, Q, h, rfl⟩)

/-- At six points strings with equal ends and slots without common labels are products. -/
theorem six_joint {a : Fin 6} {P Q : Finset (Fin 6)} (h : Kept a a P Q) : ¬ Disjoint P Q := fun hd => by
  refine h.stay (.inr ⟨rfl, .inr (.inl ?_)⟩)
  have c1 := rest_card h.left.away
  have c2 := rest_card h.right.away
  have c3 := h.left.card
  have c4 := h.right.card
  have c5 := h.left.two
  have c6 := h.right.two
  have hs : P ⊆ restSet a Q := fun k hk => mem_sdiff.2 ⟨mem_compl.2 fun e => h.left.away (mem_singleton.1 e ▸ hk), fun hq => disjoint_left.1 hd hk hq⟩
  refine ⟨hs, ?_⟩
  have := card_sdiff_add_card_eq_card hs
  omega

/-- C111: at six points exactly the strings that are not removed are generated, once each, in whatever order sets are traversed. -/
theorem C111_six {ord : SetOrder} (hord : ∀ k l, (ord k l).Perm l) : ∃ L, all4 6 ord = .ok L ∧ (L.map Brk.text).Nodup ∧
    ∀ t, t ∈ L.map Brk.text ↔ ∃ sq, ∃ (a d : Fin 6) (P Q : Finset (Fin 6)), Kept a d P Q ∧ t = fourText sq a d P Q := by
  obtain ⟨r4, e4, hp, hm⟩ := reduced_ok (n := 6) (by decide) (by decide)
  have hg : ∀ b ∈ r4, GoodBrk 6 b := fun b hb => ((hm b).1 hb).1
  have hs : Spared 6 r4 := spared_of_slots (by decide) (by decide) (sparedSlots_seven 6 (by simp)) hg
  obtain ⟨r, er, -⟩ := removeDoubles_spared (by decide) (by decide) hord hp hg hs r4 0 r4 rfl (.refl _) fun b hb _ => hb
  have hL := (all4_eq (by decide) (by decide) ord e4).trans er
  obtain ⟨h1, h2, h3⟩ := C111_list (by decide) (by decide) hord hL
  refine ⟨r, hL, h1, fun t => ⟨h2 t, ?_⟩⟩
  rintro ⟨sq, a, d, P, Q, h, rfl⟩
  exact h3 sq a d P Q h fun e => by subst e; exact six_joint h

end Lips

import Verif.Model.Indexing
import Mathlib.Data.List.Dedup
import Mathlib.Data.List.Sort
import Mathlib.Tactic.Linarith
import Mathlib.Data.List.Lemmas

/-!
Properties C38-C42: base-one indexing, string indices, equality of points, complements.
-/

namespace Lips

variable {α : Type*}

/-! ### C38 -/

/-- A sequence with base-one positions, as an observer sees it: its length and the entry at every
integer position. -/
structure Seen (α : Type*) where
  len : ℤ
  at_ : ℤ → Option α

/-- What is seen of a list. -/
def seen (l : List α) : Seen α where
  len := l.length
  at_ := fun i => match pyGet l i with
    | .ok x => some x
    | .error _ => none

/-- What each operation should do to what is seen: nothing outside `1, ..., len`. -/
def specStep (s : Seen α) : LOp α → Seen α
  | .set i v => if 1 ≤ i ∧ i ≤ s.len then ⟨s.len, fun j => if j = i then some v else s.at_ j⟩ else s
  | .del i => if 1 ≤ i ∧ i ≤ s.len then
      ⟨s.len - 1, fun j => if j < i then s.at_ j else s.at_ (j + 1)⟩ else s
  | .insert i v => if 1 ≤ i ∧ i ≤ s.len then
      ⟨s.len + 1, fun j => if j < i then s.at_ j else if j = i then some v else s.at_ (j - 1)⟩ else s

theorem rebase_in {len : ℕ} {i : ℤ} (h : 1 ≤ i ∧ i ≤ len) : rebase len i = .ok (i - 1).toNat := by
  unfold rebase
  rw [if_neg (by omega), if_pos (by omega)]

theorem rebase_out {len : ℕ} {i : ℤ} (h : ¬ (1 ≤ i ∧ i ≤ len)) : rebase len i = .error .indexError := by
  unfold rebase
  by_cases h1 : i < 1
  · rw [if_pos h1]
  · rw [if_neg h1, if_neg (by omega)]

theorem pyGet_in {l : List α} {i : ℤ} (h : 1 ≤ i ∧ i ≤ l.length) :
    pyGet l i = .ok (l[(i - 1).toNat]'(by omega)) := by
  unfold pyGet
  rw [rebase_in h]
  simp only
  rw [List.getElem?_eq_getElem (by omega)]

theorem pyGet_out {l : List α} {i : ℤ} (h : ¬ (1 ≤ i ∧ i ≤ l.length)) :
    pyGet l i = .error .indexError := by
  unfold pyGet
  rw [rebase_out h]

/-- C38: reading succeeds exactly for the positions `1, ..., len` and raises IndexError otherwise. -/
theorem C38_get_exact (l : List α) (i : ℤ) :
    ((1 ≤ i ∧ i ≤ l.length) → ∃ x, pyGet l i = .ok x ∧ l[(i - 1).toNat]? = some x) ∧
    (¬ (1 ≤ i ∧ i ≤ l.length) → pyGet l i = .error .indexError) := by
  refine ⟨fun h => ⟨_, pyGet_in h, ?_⟩, pyGet_out⟩
  rw [List.getElem?_eq_getElem (by omega)]

theorem seen_at (l : List α) (i : ℤ) :
    (seen l).at_ i = if 1 ≤ i ∧ i ≤ l.length then l[(i - 1).toNat]? else none := by
  unfold seen
  split
  · rename_i h
    simp only [pyGet_in h]
    rw [List.getElem?_eq_getElem (by omega)]
  · rename_i h
    simp only [pyGet_out h]

/-- C38: every operation changes what is seen exactly as specified, and raises IndexError, leaving
the list as it was, exactly when its position is outside `1, ..., len`. -/
theorem C38_step (l : List α) (o : LOp α) :
    seen (o.run l).1 = specStep (seen l) o ∧
    ((o.run l).2 = none ∨ ((o.run l).2 = some .indexError ∧ (o.run l).1 = l)) ∧
    ((o.run l).2 = none ↔ ∃ i, (o = .del i ∨ ∃ v, o = .set i v ∨ o = .insert i v) ∧
      1 ≤ i ∧ i ≤ l.length) := by
  have len_eq : (seen l).len = l.length := rfl
  have ext : ∀ (a b : Seen α), a.len = b.len → (∀ i, a.at_ i = b.at_ i) → a = b := by
    rintro ⟨a, f⟩ ⟨b, g⟩ h1 h2
    simp only at h1 h2
    subst h1
    congr 1
    funext i; exact h2 i
  rcases o with ⟨i, v⟩ | i | ⟨i, v⟩
  · by_cases h : 1 ≤ i ∧ i ≤ l.length
    · have e : (LOp.set i v).run l = (l.set (i - 1).toNat v, none) := by
        simp only [LOp.run, pySet, rebase_in h]
        rw [if_pos (by omega)]
      rw [e]
      refine ⟨?_, Or.inl rfl, ⟨fun _ => ⟨i, by simp, h⟩, fun _ => rfl⟩⟩
      simp only [specStep, len_eq]
      rw [if_pos h]
      refine ext _ _ (by simp [seen]) fun j => ?_
      simp only [seen_at, List.length_set]
      by_cases hj : j = i
      · subst hj
        rw [if_pos h, if_pos rfl, List.getElem?_set_self (by omega)]
      · rw [if_neg hj]
        split
        · rw [List.getElem?_set_ne (by omega)]
        · rfl
    · have e : (LOp.set i v).run l = (l, some .indexError) := by
        simp only [LOp.run, pySet, rebase_out h]
      rw [e]
      refine ⟨?_, Or.inr ⟨rfl, rfl⟩, ?_⟩
      · simp only [specStep, len_eq]; rw [if_neg h]
      · simp only [reduceCtorEq, false_iff, not_exists, not_and]
        rintro j (h' | ⟨w, h' | h'⟩) <;> simp at h'
        obtain ⟨rfl, rfl⟩ := h'
        exact fun a b => h ⟨a, b⟩
  · by_cases h : 1 ≤ i ∧ i ≤ l.length
    · have e : (LOp.del i : LOp α).run l = (l.eraseIdx (i - 1).toNat, none) := by
        simp only [LOp.run, pyDel, rebase_in h]
        rw [if_pos (by omega)]
      rw [e]
      refine ⟨?_, Or.inl rfl, ⟨fun _ => ⟨i, by simp, h⟩, fun _ => rfl⟩⟩
      simp only [specStep, len_eq]
      rw [if_pos h]
      have hl : (l.eraseIdx (i - 1).toNat).length = l.length - 1 :=
        List.length_eraseIdx_of_lt (by omega)
      refine ext _ _ (by simp only [seen, hl]; omega) fun j => ?_
      simp only [seen_at, hl]
      by_cases hj : j < i
      · rw [if_pos hj]
        by_cases h1 : 1 ≤ j
        · rw [if_pos (by omega), if_pos (by omega), List.getElem?_eraseIdx, if_pos (by omega)]
        · rw [if_neg (by omega), if_neg (by omega)]
      · rw [if_neg hj]
        by_cases h1 : j + 1 ≤ l.length
        · rw [if_pos (by omega), if_pos (by omega), List.getElem?_eraseIdx, if_neg (by omega)]
          congr 1; omega
        · rw [if_neg (by omega), if_neg (by omega)]
    · have e : (LOp.del i : LOp α).run l = (l, some .indexError) := by
        simp only [LOp.run, pyDel, rebase_out h]
      rw [e]
      refine ⟨?_, Or.inr ⟨rfl, rfl⟩, ?_⟩
      · simp only [specStep, len_eq]; rw [if_neg h]
      · simp only [reduceCtorEq, false_iff, not_exists, not_and]
        rintro j (h' | ⟨w, h' | h'⟩) <;> simp at h'
        subst h'
        exact fun a b => h ⟨a, b⟩
  · by_cases h : 1 ≤ i ∧ i ≤ l.length
    · have e : (LOp.insert i v).run l = (l.insertIdx (i - 1).toNat v, none) := by
        simp only [LOp.run, pyInsert, rebase_in h]
        rw [min_eq_left (by omega)]
      rw [e]
      refine ⟨?_, Or.inl rfl, ⟨fun _ => ⟨i, by simp, h⟩, fun _ => rfl⟩⟩
      simp only [specStep, len_eq]
      rw [if_pos h]
      have hl : (l.insertIdx (i - 1).toNat v).length = l.length + 1 := by
        rw [List.length_insertIdx, if_pos (by omega)]
      refine ext _ _ (by simp only [seen, hl]; omega) fun j => ?_
      simp only [seen_at, hl]
      by_cases hj : j < i
      · rw [if_pos hj]
        by_cases h1 : 1 ≤ j
        · rw [if_pos (by omega), if_pos (by omega), List.getElem?_insertIdx_of_lt (by omega)]
        · rw [if_neg (by omega), if_neg (by omega)]
      · rw [if_neg hj]
        by_cases hji : j = i
        · subst hji
          rw [if_pos (by omega), if_pos rfl, List.getElem?_insertIdx_self, if_pos (by omega)]
        · rw [if_neg hji]
          by_cases h1 : j ≤ l.length + 1
          · rw [if_pos (by omega), if_pos (by omega), List.getElem?_insertIdx_of_gt (by omega)]
            congr 1; omega
          · rw [if_neg (by omega), if_neg (by omega)]
    · have e : (LOp.insert i v).run l = (l, some .indexError) := by
        simp only [LOp.run, pyInsert, rebase_out h]
      rw [e]
      refine ⟨?_, Or.inr ⟨rfl, rfl⟩, ?_⟩
      · simp only [specStep, len_eq]; rw [if_neg h]
      · simp only [reduceCtorEq, false_iff, not_exists, not_and]
        rintro j (h' | ⟨w, h' | h'⟩) <;> simp at h'
        obtain ⟨rfl, rfl⟩ := h'
        exact fun a b => h ⟨a, b⟩

/-- C38: after any history of writes, deletions and insertions, including ones that raised, what
is seen is what the specification says. -/
theorem C38_histories (l : List α) (os : List (LOp α)) :
    seen (os.foldl (fun m o => (o.run m).1) l) = os.foldl specStep (seen l) := by
  induction os generalizing l with
  | nil => rfl
  | cons o os ih => rw [List.foldl_cons, List.foldl_cons, ih, (C38_step l o).1]

/-- C38: writing and reading back. -/
theorem C38_read_after_write (l : List α) (i : ℤ) (v : α) (h : 1 ≤ i ∧ i ≤ l.length) :
    (pySet l i v).2 = none ∧ pyGet (pySet l i v).1 i = .ok v ∧
    ∀ j, j ≠ i → pyGet (pySet l i v).1 j = pyGet l j := by
  have e : pySet l i v = (l.set (i - 1).toNat v, none) := by
    simp only [pySet, rebase_in h]
    rw [if_pos (by omega)]
  rw [e]
  refine ⟨rfl, ?_, fun j hj => ?_⟩
  · rw [pyGet_in (by simpa using h)]; simp
  · by_cases hj' : 1 ≤ j ∧ j ≤ l.length
    · rw [pyGet_in (by simpa using hj'), pyGet_in hj']
      simp only
      rw [List.getElem_set_ne (by omega)]
    · rw [pyGet_out (by simpa using hj'), pyGet_out hj']

/-! ### C39 -/

theorem insertIdx_take_drop (l : List α) (k : ℕ) (v : α) (h : k ≤ l.length) :
    l.insertIdx k v = l.take k ++ v :: l.drop k := by
  induction k generalizing l with
  | zero => simp
  | succ k ih =>
    cases l with
    | nil => simp at h
    | cons x xs => simp [ih xs (by simpa using h)]

/-- C39, the part that holds: at the positions `1, ..., len` `insert` puts the value there and
shifts the rest. Missing: position `len + 1`, which is refused; see `C39_cannot_append`. -/
theorem C39_insert_partial (l : List α) (i : ℤ) (v : α) (h : 1 ≤ i ∧ i ≤ l.length) :
    (pyInsert l i v).2 = none ∧ (pyInsert l i v).1 = l.take (i - 1).toNat ++ v :: l.drop (i - 1).toNat := by
  have e : pyInsert l i v = (l.insertIdx (i - 1).toNat v, none) := by
    simp only [pyInsert, rebase_in h]
    rw [min_eq_left (by omega)]
  rw [e]
  refine ⟨rfl, ?_⟩
  simp only
  exact insertIdx_take_drop _ _ _ (by omega)

/-- C39 (finding): `insert` at the end is refused for every list; in particular nothing can be
inserted into the empty one. -/
theorem C39_cannot_append (l : List α) (v : α) :
    pyInsert l (l.length + 1) v = (l, some .indexError) := by
  simp only [pyInsert, rebase_out (show ¬ (1 ≤ (l.length : ℤ) + 1 ∧ (l.length : ℤ) + 1 ≤ l.length) by omega)]

/-! ### C40 -/

theorem isDigits_pyStr (k : ℕ) : isDigits (pyStr k) = true := by
  unfold isDigits pyStr
  have h1 : Nat.toDigits 10 k ≠ [] := by
    rw [← List.length_pos_iff]
    by_cases h : k < 10
    · rw [Nat.toDigits_of_lt_base h]; simp
    · rw [Nat.toDigits_of_base_le (by omega) (by omega)]; simp
  simp only [Bool.and_eq_true, Bool.not_eq_true', List.isEmpty_eq_false_iff, List.all_eq_true]
  exact ⟨h1, fun c hc => Nat.isDigit_of_mem_toDigits (by omega) (by omega) hc⟩

theorem pyInt_pyStr (k : ℕ) : Nat.ofDigitChars 10 (pyStr k) 0 = k := Nat.ofDigitChars_ten_toDigits

theorem matchSp_label (opens closes : List Char) (o c : Char) (k : ℕ) :
    matchSp opens closes (o :: (pyStr k ++ [c])) =
      if o ∈ opens ∧ c ∈ closes then some k else none := by
  unfold matchSp
  simp only [List.getLast?_append, List.getLast?_singleton, Option.some_or,
    List.dropLast_append_cons, List.dropLast_singleton, List.append_nil, isDigits_pyStr, and_true,
    pyInt_pyStr]

/-- The spelling of a spinor index, `⟨k|`, `|k⟩`, `|k]` or `[k|`. -/
def spIndex (sl : SpSlot) (k : ℕ) : List Char :=
  match sl with
  | .Au => '⟨' :: (pyStr k ++ ['|'])
  | .Ad => '|' :: (pyStr k ++ ['⟩'])
  | .Su => '|' :: (pyStr k ++ [']'])
  | .Sd => '[' :: (pyStr k ++ ['|'])

theorem parseSp_spIndex (sl : SpSlot) (k : ℕ) : parseSp (spIndex sl k) = some (sl, k) := by
  cases sl <;> simp [spIndex, parseSp, matchSp_label]

section Spinors
variable {K : Type*} [Field K]

/-- The spinor a slot names. -/
def NamedSpinor (p : Particle K) (sl : SpSlot) : Option (V2 K) :=
  match sl with
  | .Au => p.r_u
  | .Ad => p.r_d
  | .Su => p.l_u
  | .Sd => p.l_d

/-- Whether the slot is an angle spinor. -/
def AngleSlot (sl : SpSlot) : Prop := sl = .Au ∨ sl = .Ad

omit [Field K] in
theorem readSp_eq (p : Particle K) (sl : SpSlot) : readSp p sl = NamedSpinor p sl := by cases sl <;> rfl

theorem writeSp_eq (c : Ctx K) (p : Particle K) (sl : SpSlot) (v : V2 K) :
    NamedSpinor (writeSp c p sl v).st sl = some v ∧
    (∀ sl', ¬(AngleSlot sl' ↔ AngleSlot sl) → NamedSpinor (writeSp c p sl v).st sl' = NamedSpinor p sl') ∧
    ((writeSp c p sl v).err = none ↔ ∀ sl', ¬(AngleSlot sl' ↔ AngleSlot sl) → NamedSpinor p sl' ≠ none) := by
  have key : ∀ p : Particle K, (rebuildFromSpinors c p).st.r_u = p.r_u ∧ (rebuildFromSpinors c p).st.r_d = p.r_d ∧
      (rebuildFromSpinors c p).st.l_u = p.l_u ∧ (rebuildFromSpinors c p).st.l_d = p.l_d := by
    intro p
    unfold rebuildFromSpinors
    split
    · unfold momFromR2b; split <;> simp
    · simp
  have err : ∀ p : Particle K, (rebuildFromSpinors c p).err = none ↔ p.r_u ≠ none ∧ p.r_d ≠ none ∧ p.l_u ≠ none ∧ p.l_d ≠ none := by
    intro p
    unfold rebuildFromSpinors
    rcases p.r_d with _ | _ <;> rcases p.l_d with _ | _ <;> rcases p.r_u with _ | _ <;> rcases p.l_u with _ | _ <;> simp
  have all : ∀ P : SpSlot → Prop, (∀ sl', P sl') ↔ P .Au ∧ P .Ad ∧ P .Su ∧ P .Sd :=
    fun P => ⟨fun h => ⟨h _, h _, h _, h _⟩, fun ⟨h1, h2, h3, h4⟩ sl' => by cases sl' <;> assumption⟩
  cases sl <;> simp only [all] <;> simp [writeSp, NamedSpinor, AngleSlot, setRu, setRd, setLu, setLd, key, err]

omit [Field K] in
/-- C40: `oPs["⟨k|"]`, `oPs["|k⟩"]`, `oPs["|k]"]` and `oPs["[k|"]` read the named spinor of
particle `k`, for labels with any number of digits; labels outside `1, ..., len` are refused. -/
theorem C40_spinor_read (l : List (Particle K)) (sl : SpSlot) (k : ℕ) :
    (∀ h : 1 ≤ k ∧ k ≤ l.length, strGet l (spIndex sl k) = .ok (.spinor (NamedSpinor (l[k - 1]'(by omega)) sl))) ∧
    (¬ (1 ≤ k ∧ k ≤ l.length) → strGet l (spIndex sl k) = .error .indexError) := by
  refine ⟨fun h => ?_, fun h => ?_⟩
  · unfold strGet
    rw [parseSp_spIndex]
    simp only
    rw [pyGet_in (by omega)]
    simp only [readSp_eq]
    congr 4
    omega
  · unfold strGet
    rw [parseSp_spIndex]
    simp only
    rw [pyGet_out (by omega)]

/-- C40: assigning to one of them gives that spinor of particle `k` the value, keeps its spinors of the other
kind and leaves every other particle as it was; the assignment raises unless the spinors of the other kind
are there. -/
theorem C40_spinor_write (c : Ctx K) (l : List (Particle K)) (sl : SpSlot) (k : ℕ) (v : V2 K)
    (h : 1 ≤ k ∧ k ≤ l.length) :
    (strSet c l (spIndex sl k) v).1.length = l.length ∧
    (∃ q, (strSet c l (spIndex sl k) v).1[k - 1]? = some q ∧ NamedSpinor q sl = some v ∧
      ∀ sl', ¬(AngleSlot sl' ↔ AngleSlot sl) → NamedSpinor q sl' = NamedSpinor (l[k - 1]'(by omega)) sl') ∧
    ((strSet c l (spIndex sl k) v).2 = none ↔
      ∀ sl', ¬(AngleSlot sl' ↔ AngleSlot sl) → NamedSpinor (l[k - 1]'(by omega)) sl' ≠ none) ∧
    ∀ j, j ≠ k - 1 → (strSet c l (spIndex sl k) v).1[j]? = l[j]? := by
  have e : strSet c l (spIndex sl k) v = (l.set (k - 1) (writeSp c (l[k - 1]'(by omega)) sl v).st,
      (writeSp c (l[k - 1]'(by omega)) sl v).err) := by
    unfold strSet
    rw [parseSp_spIndex]
    simp only
    rw [pyGet_in (by omega)]
    simp only
    have : ((k : ℤ) - 1).toNat = k - 1 := by omega
    simp only [this]
  obtain ⟨w1, w2, w3⟩ := writeSp_eq c (l[k - 1]'(by omega)) sl v
  rw [e]
  refine ⟨by simp, ⟨_, ?_, w1, w2⟩, w3, fun j hj => ?_⟩
  · simp only; rw [List.getElem?_set_self (by omega)]
  · simp only; rw [List.getElem?_set_ne (by omega)]

theorem matchSp_digits (opens closes : List Char) (s : List Char)
    (ho : ∀ o ∈ opens, Char.isDigit o = false) (hs : ∀ c ∈ s, Char.isDigit c = true) :
    matchSp opens closes s = none := by
  unfold matchSp
  cases s with
  | nil => rfl
  | cons o rest =>
    simp only
    cases rest.getLast? with
    | none => rfl
    | some c =>
      simp only
      rw [if_neg]
      rintro ⟨h1, -⟩
      have := ho o h1
      rw [hs o (by simp)] at this
      cases this

theorem parseSp_digits (s : List Char) (hs : ∀ c ∈ s, Char.isDigit c = true) : parseSp s = none := by
  unfold parseSp
  have a : ∀ o ∈ ['⟨', '<'], Char.isDigit o = false := by decide
  have b : ∀ o ∈ ['|'], Char.isDigit o = false := by decide
  have d : ∀ o ∈ ['['], Char.isDigit o = false := by decide
  rw [matchSp_digits _ _ s a hs, matchSp_digits _ _ s b hs, matchSp_digits _ _ s b hs,
    matchSp_digits _ _ s d hs]

theorem pyStr_digits (k : ℕ) : ∀ c ∈ pyStr k, Char.isDigit c = true :=
  fun _ hc => Nat.isDigit_of_mem_toDigits (by omega) (by omega) hc

/-- The first digit of a number. -/
theorem firstDigit_pyStr (k : ℕ) : k < 10 ∧ firstDigit (pyStr k) = some k ∨
    10 ≤ k ∧ ∃ d, 1 ≤ d ∧ d < 10 ∧ firstDigit (pyStr k) = some d := by
  have hd : ∀ a < 10, (Nat.digitChar a).isDigit = true ∧ (Nat.digitChar a).toNat - 48 = a := by decide
  have key : ∀ k, ∃ c t, pyStr k = c :: t ∧ ∃ d, d < 10 ∧ c = Nat.digitChar d ∧
      (k < 10 → d = k) ∧ (1 ≤ k → 1 ≤ d) := by
    intro k
    induction k using Nat.strong_induction_on with
    | _ k ih =>
      by_cases h : k < 10
      · exact ⟨_, [], Nat.toDigits_of_lt_base h, k, h, rfl, fun _ => rfl, fun h => h⟩
      · obtain ⟨c, t, h1, d, h2, h3, h4, h5⟩ := ih (k / 10) (by omega)
        refine ⟨c, t ++ [Nat.digitChar (k % 10)], ?_, d, h2, h3, fun h' => absurd h' h,
          fun _ => h5 (by omega)⟩
        unfold pyStr at *
        rw [Nat.toDigits_of_base_le (by omega) (by omega), h1]; rfl
  obtain ⟨c, t, h1, d, h2, h3, h4, h5⟩ := key k
  have hf : firstDigit (pyStr k) = some d := by
    rw [h1, firstDigit, h3, List.find?_cons_of_pos (hd d h2).1]
    simp [(hd d h2).2]
  by_cases h : k < 10
  · exact Or.inl ⟨h, by rw [hf, h4 h]⟩
  · exact Or.inr ⟨by omega, d, h5 (by omega), h2, hf⟩

omit [Field K] in
/-- C40, the part that holds for plain labels: a one-digit label string reads that particle.
Missing: labels of more than one digit, see `C40_multi_digit_wrong`. -/
theorem C40_plain_label_partial (l : List (Particle K)) (k : ℕ) (h : 1 ≤ k ∧ k ≤ l.length) (h9 : k < 10) :
    strGet l (pyStr k) = .ok (.particle (l[k - 1]'(by omega))) := by
  unfold strGet
  rw [parseSp_digits _ (pyStr_digits k)]
  rcases firstDigit_pyStr k with ⟨_, h1⟩ | ⟨h1, _⟩
  · rw [h1]
    simp only
    rw [pyGet_in (by omega)]
    simp only
    congr 3
    omega
  · omega

omit [Field K] in
/-- C40 (finding): for every label of two or more digits the plain label string reads another
particle, the one whose label is the first digit. -/
theorem C40_multi_digit_wrong (l : List (Particle K)) (k : ℕ) (h : 10 ≤ k ∧ k ≤ l.length) :
    ∃ d, ∃ hd : 1 ≤ d ∧ d < 10, strGet l (pyStr k) = .ok (.particle (l[d - 1]'(by omega))) ∧
      d - 1 ≠ k - 1 := by
  rcases firstDigit_pyStr k with ⟨h1, _⟩ | ⟨_, d, h1, h2, h3⟩
  · omega
  · refine ⟨d, ⟨h1, h2⟩, ?_, by omega⟩
    unfold strGet
    rw [parseSp_digits _ (pyStr_digits k), h3]
    simp only
    rw [pyGet_in (by omega)]
    simp only
    congr 3
    omega

/-- C40 (finding): assigning to a plain label string does nothing and raises nothing. -/
theorem C40_plain_write_ignored (c : Ctx K) (l : List (Particle K)) (k : ℕ) (v : V2 K) :
    strSet c l (pyStr k) v = (l, none) := by
  unfold strSet
  rw [parseSp_digits _ (pyStr_digits k)]

end Spinors

/-! ### C41 -/

/-- C41: what comparing two points returns. -/
theorem C41_eq_exact (eq : α → α → Bool) (l m : List α) :
    (pointsEq eq l m = .ok true ↔ ∃ m', m' <+: m ∧ List.Forall₂ (fun x y => eq x y = true) l m') := by
  induction l generalizing m with
  | nil => simp only [pointsEq, true_iff]; exact ⟨[], by simp, List.Forall₂.nil⟩
  | cons x xs ih =>
    cases m with
    | nil => simp [pointsEq]
    | cons y ys =>
      simp only [pointsEq]
      by_cases h : eq x y = true
      · rw [if_pos h, ih]
        constructor
        · rintro ⟨m', h1, h2⟩
          exact ⟨y :: m', by simpa using h1, List.Forall₂.cons h h2⟩
        · rintro ⟨m', h1, h2⟩
          cases h2 with
          | cons a b => simp at h1; exact ⟨_, h1.2, b⟩
      · rw [if_neg h]
        simp only [Except.ok.injEq, Bool.false_eq_true, false_iff]
        rintro ⟨m', h1, h2⟩
        cases h2 with
        | cons a b => simp at h1; rw [h1.1] at a; exact h a

/-- C41, the part that holds: among points of one length the comparison never raises and is an
equivalence relation if equality of particles is. Missing: points of different length, for which
the claim is false; see `C41_not_symmetric`. -/
theorem C41_equivalence_partial (eq : α → α → Bool) (he : Equivalence fun x y => eq x y = true) :
    (∀ l m : List α, l.length = m.length → ∃ b, pointsEq eq l m = .ok b) ∧
    (∀ l, pointsEq eq l l = .ok true) ∧
    (∀ l m, l.length = m.length → pointsEq eq l m = .ok true → pointsEq eq m l = .ok true) ∧
    (∀ l m k, l.length = m.length → m.length = k.length → pointsEq eq l m = .ok true →
      pointsEq eq m k = .ok true → pointsEq eq l k = .ok true) := by
  refine ⟨?_, ?_, ?_, ?_⟩
  · intro l
    induction l with
    | nil => intro m _; exact ⟨true, rfl⟩
    | cons x xs ih =>
      rintro (_ | ⟨y, ys⟩) h
      · simp at h
      · simp only [pointsEq]
        by_cases h' : eq x y = true
        · rw [if_pos h']; exact ih ys (by simpa using h)
        · rw [if_neg h']; exact ⟨false, rfl⟩
  · intro l
    induction l with
    | nil => rfl
    | cons x xs ih => simp only [pointsEq]; rw [if_pos (he.refl x)]; exact ih
  · intro l
    induction l with
    | nil => rintro (_ | ⟨y, ys⟩) h _ <;> simp_all [pointsEq]
    | cons x xs ih =>
      rintro (_ | ⟨y, ys⟩) h h'
      · simp at h
      · simp only [pointsEq] at h' ⊢
        by_cases hx : eq x y = true
        · rw [if_pos hx] at h'; rw [if_pos (he.symm hx)]; exact ih ys (by simpa using h) h'
        · rw [if_neg hx] at h'; cases h'
  · intro l
    induction l with
    | nil => intros; rfl
    | cons x xs ih =>
      rintro (_ | ⟨y, ys⟩) (_ | ⟨z, zs⟩) h1 h2 h3 h4 <;> simp at h1 h2
      simp only [pointsEq] at h3 h4 ⊢
      by_cases hx : eq x y = true
      · by_cases hy : eq y z = true
        · rw [if_pos hx] at h3; rw [if_pos hy] at h4
          rw [if_pos (he.trans hx hy)]; exact ih ys zs h1 h2 h3 h4
        · rw [if_neg hy] at h4; cases h4
      · rw [if_neg hx] at h3; cases h3

/-- C41 (finding): every point equals each of its proper extensions, while comparing the other way
round raises IndexError. So equality is not symmetric and does not imply equal length. -/
theorem C41_not_symmetric (eq : α → α → Bool) (hr : ∀ x, eq x x = true) (l m : List α) (hm : m ≠ []) :
    pointsEq eq l (l ++ m) = .ok true ∧ pointsEq eq (l ++ m) l = .error .indexError := by
  induction l with
  | nil =>
    cases m with
    | nil => exact absurd rfl hm
    | cons => exact ⟨rfl, rfl⟩
  | cons x xs ih => simp only [List.cons_append, pointsEq, hr, if_true]; exact ih

/-! ### C42 -/

theorem complementary_mem (t : List ℤ) : ∀ (acc : List ℤ), acc.Nodup →
    (t.foldl (fun acc e => if e ∈ acc then acc.erase e else acc) acc) = acc.filter (· ∉ t) := by
  induction t with
  | nil => intro acc _; simp
  | cons e t ih =>
    intro acc hn
    rw [List.foldl_cons]
    have : (if e ∈ acc then acc.erase e else acc) = acc.filter (· ≠ e) := by
      by_cases h : e ∈ acc
      · rw [if_pos h, hn.erase_eq_filter]; simp [bne]
        congr 1
      · rw [if_neg h]
        symm
        rw [List.filter_eq_self]
        intro a ha
        simp only [ne_eq, decide_not, Bool.not_eq_eq_eq_not, Bool.not_true, decide_eq_false_iff_not]
        rintro rfl; exact h ha
    rw [this, ih _ (hn.filter _), List.filter_filter]
    congr 1
    funext a
    simp [List.mem_cons]
    rw [Bool.and_comm]

/-- C42: the complement of a non-empty list of labels is strictly increasing and consists of
exactly the labels of `1, ..., n` that are not in it; of an empty one IndexError. -/
theorem C42_complement (n : ℕ) (t : List ℤ) :
    (t ≠ [] → ∃ r, complementary n t = .ok r ∧ r.Pairwise (· < ·) ∧
      ∀ x, x ∈ r ↔ (1 ≤ x ∧ x ≤ n) ∧ x ∉ t) ∧
    (t = [] → complementary n t = .error .indexError) := by
  have hp : ((List.range' 1 n).map Int.ofNat).Pairwise (· < ·) := by
    rw [List.pairwise_map]
    exact (List.pairwise_lt_range').imp (by intro a b h; simpa using h)
  have hn : ((List.range' 1 n).map Int.ofNat).Nodup := hp.imp (fun h => ne_of_lt h)
  refine ⟨fun h => ?_, fun h => by simp [complementary, h]⟩
  unfold complementary
  rw [if_neg h]
  refine ⟨_, rfl, ?_, fun x => ?_⟩
  · rw [complementary_mem _ _ hn]; exact hp.filter _
  · rw [complementary_mem _ _ hn]
    simp only [List.mem_filter, List.mem_map, List.mem_range'_1, List.mem_dedup,
      decide_eq_true_eq]
    constructor
    · rintro ⟨⟨a, ha, rfl⟩, h⟩
      exact ⟨by constructor <;> simp only [Int.ofNat_eq_natCast] <;> omega, h⟩
    · rintro ⟨⟨h1, h2⟩, h⟩
      exact ⟨⟨x.toNat, by omega, by simp only [Int.ofNat_eq_natCast]; omega⟩, h⟩

/-- C42: taking the complement twice gives the labels in increasing order without repetition. -/
theorem C42_twice (n : ℕ) (t r : List ℤ) (hb : ∀ x ∈ t, 1 ≤ x ∧ x ≤ n)
    (h : complementary n t = .ok r) (hr : r ≠ []) :
    ∃ s, complementary n r = .ok s ∧ s.Pairwise (· < ·) ∧ ∀ x, x ∈ s ↔ x ∈ t := by
  have ht : t ≠ [] := by
    rintro rfl
    rw [(C42_complement n []).2 rfl] at h; cases h
  obtain ⟨r', e, -, hm⟩ := (C42_complement n t).1 ht
  obtain rfl : r' = r := by rw [e] at h; exact Except.ok.inj h
  obtain ⟨s, es, hs, hms⟩ := (C42_complement n r').1 hr
  refine ⟨s, es, hs, fun x => ?_⟩
  rw [hms, hm]
  constructor
  · rintro ⟨h1, h2⟩; by_contra h3; exact h2 ⟨h1, h3⟩
  · intro hx; exact ⟨hb x hx, fun h' => h'.2 hx⟩

end Lips

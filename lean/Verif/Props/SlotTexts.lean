import Verif.Props.Patterns

/-!
C92: the texts of the slots of a spinor string.
-/

namespace Lips

variable {n : ℕ}

/-! ### Numerals -/

theorem digitChar_toNat {c : Char} (h : c.isDigit = true) : c.toNat - 48 < 10 ∧ Nat.digitChar (c.toNat - 48) = c := by
  have h1 : 48 ≤ c.toNat ∧ c.toNat ≤ 57 := by
    simp only [Char.isDigit, Bool.and_eq_true, decide_eq_true_eq] at h
    exact ⟨h.1, h.2⟩
  refine ⟨by omega, ?_⟩
  have key : ∀ k : Fin 10, Nat.digitChar k = Char.ofNat (k + 48) := by decide
  have := key ⟨c.toNat - 48, by omega⟩
  simp only at this
  rw [this, show c.toNat - 48 + 48 = c.toNat by omega, Char.ofNat_toNat]

/-- Digits without a leading zero are the decimal numeral of their value. -/
theorem pyStr_of_digits (t : List Char) (h : isDigits t = true) (h0 : t.head? ≠ some '0') :
    1 ≤ Nat.ofDigitChars 10 t 0 ∧ pyStr (Nat.ofDigitChars 10 t 0) = t := by
  induction t using List.reverseRecOn with
  | nil => simp [isDigits] at h
  | append_singleton u c ih =>
    have hc : c.isDigit = true := by
      simp only [isDigits, Bool.and_eq_true, List.all_eq_true] at h
      exact h.2 c (by simp)
    obtain ⟨h1, h2⟩ := digitChar_toNat hc
    have e : ∀ m, Nat.ofDigitChars 10 [c] m = 10 * m + (c.toNat - 48) := by
      intro m
      rw [Nat.ofDigitChars_cons, Nat.ofDigitChars_nil]
      rfl
    rw [Nat.ofDigitChars_append, e]
    by_cases hu : u = []
    · subst hu
      have hc0 : c ≠ '0' := by simpa using h0
      simp only [Nat.ofDigitChars_nil, Nat.mul_zero, Nat.zero_add, List.nil_append]
      refine ⟨?_, by rw [pyStr, Nat.toDigits_of_lt_base h1, h2]⟩
      rw [Nat.one_le_iff_ne_zero]
      intro hz
      rw [hz] at h2
      exact hc0 h2.symm
    · have hd : isDigits u = true := by
        simp only [isDigits, Bool.and_eq_true, List.all_eq_true, Bool.not_eq_true', List.isEmpty_eq_false_iff] at h ⊢
        exact ⟨hu, fun x hx => h.2 x (by simp [hx])⟩
      obtain ⟨k1, k2⟩ := ih hd (by
        obtain ⟨x, v, rfl⟩ := List.exists_cons_of_ne_nil hu
        simpa using h0)
      refine ⟨by omega, ?_⟩
      rw [pyStr, ← Nat.toDigits_append_toDigits (by decide) k1 h1, Nat.toDigits_of_lt_base h1, h2]
      congr 1

theorem label_eq {k : ℕ} {l : Fin n} (h : label n k = .ok l) : k = (l : ℕ) + 1 := by
  unfold label at h
  split_ifs at h with hk
  injection h with h
  rw [← h]; simp; omega

theorem readTerm_iff {t : Bool × List Char} {u : Bool × Fin n} :
    readTerm n t = .ok u ↔ t.1 = u.1 ∧ t.2 = pyStr ((u.2 : ℕ) + 1) := by
  constructor
  · intro h
    unfold readTerm at h
    split_ifs at h with hh
    · split at h
      · rename_i l hl
        injection h with h
        subst h
        refine ⟨rfl, ?_⟩
        have hk := label_eq hl
        simp only [Bool.and_eq_true, literalOk, Bool.or_eq_true, decide_eq_true_eq] at hh
        by_cases h0 : t.2.head? = some '0'
        · exfalso
          have hz := hh.2.resolve_left (by simpa using h0)
          have : t.2 = List.replicate t.2.length '0' := by
            rw [List.eq_replicate_iff]
            exact ⟨rfl, by simpa using hz⟩
          rw [this, Nat.ofDigitChars_replicate_zero] at hk
          simp at hk
        · rw [← hk]
          exact (pyStr_of_digits _ hh.1 h0).2.symm
      · simp at h
  · rintro ⟨h1, h2⟩
    rcases t with ⟨b, t⟩
    rcases u with ⟨b', l⟩
    simp only at h1 h2
    subst h1 h2
    exact readTerm_ok _ _

/-! ### Terms -/

/-- The text of terms with their signs. -/
def joinTerms (ts : List (Bool × List Char)) : List Char :=
  ts.flatMap fun u => (if u.1 then '+' else '-') :: u.2

theorem termsFrom_spec (sg : Bool) (cur t : List Char) :
    ∃ x ts, termsFrom sg cur t = (sg, x) :: ts ∧ cur ++ t = x ++ joinTerms ts := by
  induction t generalizing sg cur with
  | nil => exact ⟨cur, [], rfl, by simp [joinTerms]⟩
  | cons c t ih =>
    simp only [termsFrom]
    split_ifs with h1 h2
    · obtain ⟨x, ts, h3, h4⟩ := ih true []
      refine ⟨cur, (true, x) :: ts, by rw [h3], ?_⟩
      rw [List.nil_append] at h4
      rw [h1, h4]
      simp [joinTerms]
    · obtain ⟨x, ts, h3, h4⟩ := ih false []
      refine ⟨cur, (false, x) :: ts, by rw [h3], ?_⟩
      rw [List.nil_append] at h4
      rw [h2, h4]
      simp [joinTerms]
    · obtain ⟨x, ts, h3, h4⟩ := ih sg (cur ++ [c])
      exact ⟨x, ts, h3, by rw [← h4]; simp⟩

theorem mapM_ok_forall {α β : Type*} {f : α → Except Err β} {l : List α} {r : List β} (h : l.mapM f = .ok r) :
    List.Forall₂ (fun x y => f x = .ok y) l r := by
  induction l generalizing r with
  | nil =>
    have : r = [] := by simpa [pure, Except.pure, eq_comm] using h
    subst this; exact .nil
  | cons x l ih =>
    rw [List.mapM_cons] at h
    cases hx : f x with
    | error e => rw [hx] at h; simp [bind, Except.bind] at h
    | ok y =>
      cases hl : l.mapM f with
      | error e => rw [hx, hl] at h; simp [bind, Except.bind] at h
      | ok ys =>
        rw [hx, hl] at h
        simp [bind, Except.bind, pure, Except.pure] at h
        subst h
        exact .cons hx (ih hl)

theorem joinTerms_read {ts : List (Bool × List Char)} {us : Slot n}
    (h : List.Forall₂ (fun x y => readTerm n x = .ok y) ts us) :
    joinTerms ts = (us.map fun u => (u.1, (u.2 : ℕ) + 1)).flatMap fun u => (if u.1 then '+' else '-') :: pyStr u.2 := by
  induction h with
  | nil => rfl
  | cons hx _ ih =>
    obtain ⟨h1, h2⟩ := readTerm_iff.mp hx
    rw [joinTerms, List.flatMap_cons, ← joinTerms, ih]
    simp [h1, h2]

/-- **C92**: a slot is read exactly when its text, apart from parentheses, is a sum of signed labels of particles, the first one
without sign, the labels written as decimal numbers without leading zeros; what is read are these labels with these signs. -/
theorem C92_slot (t : List Char) (s : Slot n) : readSlot n t = .ok s ↔
    (∃ l us, s = (true, l) :: us) ∧
      t.filter (· ∉ ['(', ')']) = slotBody (s.map fun u => (u.1, (u.2 : ℕ) + 1)) := by
  have e : t.filter (· ∉ ['(', ')']) = stripParens t := by
    unfold stripParens
    congr 1
    ext c
    simp
  rw [e]
  constructor
  · intro h
    unfold readSlot at h
    split_ifs at h with hs
    obtain ⟨x, ts, h1, h2⟩ := termsFrom_spec true [] (stripParens t)
    rw [h1] at h
    have hf := mapM_ok_forall h
    cases hf with
    | cons hx ht =>
      rename_i u us
      obtain ⟨k1, k2⟩ := readTerm_iff.mp hx
      refine ⟨⟨u.2, us, by congr 1; exact Prod.ext k1.symm rfl⟩, ?_⟩
      rw [List.nil_append] at h2
      rw [h2, joinTerms_read ht, List.map_cons, slotBody]
      simp only at k2
      rw [k2]
  · rintro ⟨⟨l, us, rfl⟩, h⟩
    have := readSlot_ok (false, ((true, l) :: us : Slot n)) ⟨l, us, rfl⟩
    simp only at this
    rw [← this, readSlot, readSlot, h, stripParens_slot]
    rfl

/-! ### Cases -/

example : readSlot 12 "(1-(12+3))".toList = .ok [(true, 0), (false, 11), (true, 2)] :=
  (C92_slot _ _).mpr ⟨⟨_, _, rfl⟩, by decide +kernel⟩

/-- A leading zero is a SyntaxError of the text handed to Python. -/
example (s : Slot 12) : readSlot 12 "1+02".toList ≠ .ok s := by
  have : readSlot 12 "1+02".toList = .error .syntaxError := by decide +kernel
  rw [this]; simp

end Lips

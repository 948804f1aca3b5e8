import Verif.Model.InvariantsBrackets
import Verif.Props.Generators

/-!
C60: constructing `Invariants`.

The full statement, that no combination of flags raises for any number of particles, is false: from
ten particles on every combination raises, and at five points `FurtherRestrict4Brackets=False`
raises. Up to five points the other combinations construct, whatever the order in which Python
traverses its sets.
-/

namespace Lips

/-! ### Ten particles and more -/

/-- The characters of the labels. -/
def labelChars (n : ℕ) : List Char := (List.range' 1 n).flatMap pyStr

/-- The last digit is one of the characters. -/
theorem lastDigit_mem (x : ℕ) : Nat.digitChar (x % 10) ∈ pyStr x := by
  unfold pyStr
  rcases Nat.lt_or_ge x 10 with h | h
  · rw [Nat.mod_eq_of_lt h]; simp [Nat.toDigits_of_lt_base h]
  · rw [Nat.toDigits_of_base_le (by omega) h]
    simp

/-- Plenty of characters differ from one and two. -/
theorem free_chars (n : ℕ) :
    8 * (n / 10) + (n % 10 - 2) ≤ ((labelChars n).filter fun c => decide (c ≠ '1' ∧ c ≠ '2')).length := by
  induction n with
  | zero => simp [labelChars]
  | succ n ih =>
    have e : labelChars (n + 1) = labelChars n ++ pyStr (n + 1) := by
      unfold labelChars
      rw [← List.range'_append_1 (s := 1) (m := n) (n := 1)]
      simp [Nat.add_comm]
    rw [e, List.filter_append, List.length_append]
    by_cases h : (n + 1) % 10 = 1 ∨ (n + 1) % 10 = 2
    · omega
    · have : 1 ≤ ((pyStr (n + 1)).filter fun c => decide (c ≠ '1' ∧ c ≠ '2')).length := by
        apply List.length_pos_of_mem (a := Nat.digitChar ((n + 1) % 10))
        rw [List.mem_filter]
        refine ⟨lastDigit_mem _, ?_⟩
        have hm : (n + 1) % 10 < 10 := Nat.mod_lt _ (by omega)
        generalize (n + 1) % 10 = r at *
        interval_cases r <;> simp_all
      omega

/-- The combinations that `_inner_bracket` starts from. -/
def startCombs (n length a1 a2 : ℕ) : List (List PStr) :=
  (combs length ((labelChars n).map fun c => [c])).filter fun e => decide (pyStr a1 ∉ e ∧ pyStr a2 ∉ e)

/-- There is at least one. -/
theorem startCombs_nonempty (n length a1 a2 : ℕ) (h1 : a1 = 1 ∨ a1 = 2) (h2 : a2 = 1 ∨ a2 = 2)
    (hn : length ≤ 8 * (n / 10) + (n % 10 - 2)) : startCombs n length a1 a2 ≠ [] := by
  intro h0
  set fr := (labelChars n).filter fun c => decide (c ≠ '1' ∧ c ≠ '2') with hfr
  have hlen : length ≤ fr.length := hn.trans (free_chars n)
  have hmem : (fr.take length).map (fun c => [c]) ∈ startCombs n length a1 a2 := by
    unfold startCombs
    rw [List.mem_filter]
    refine ⟨?_, ?_⟩
    · rw [mem_combs]
      refine ⟨((List.take_sublist _ _).trans List.filter_sublist).map _, ?_⟩
      simpa using hlen
    · have hno : ∀ a : ℕ, a = 1 ∨ a = 2 → pyStr a ∉ (fr.take length).map (fun c => [c]) := by
        intro a ha hm
        obtain ⟨c, hc, he⟩ := List.mem_map.1 hm
        have hc' := List.mem_of_mem_take hc
        rw [hfr, List.mem_filter] at hc'
        have hc2 := hc'.2
        rcases ha with rfl | rfl
        · have : pyStr 1 = ['1'] := by decide
          rw [this] at he; simp at he; simp [he] at hc2
        · have : pyStr 2 = ['2'] := by decide
          rw [this] at he; simp at he; simp [he] at hc2
      simp only [decide_eq_true_eq]
      exact ⟨hno a1 h1, hno a2 h2⟩
  rw [h0] at hmem
  simp at hmem

/-- Entries of the combinations have one character. -/
theorem startCombs_single {n length a1 a2 : ℕ} {e : List PStr} (he : e ∈ startCombs n length a1 a2)
    {t : PStr} (ht : t ∈ e) : t.length = 1 := by
  unfold startCombs at he
  rw [List.mem_filter, mem_combs] at he
  have := he.1.1.subset ht
  obtain ⟨c, _, rfl⟩ := List.mem_map.1 this
  rfl

/-- Removing texts of one character keeps the ten. -/
theorem compStr_keeps {t : PStr} (ht : 2 ≤ t.length) (l : List PStr) (hl : ∀ x ∈ l, x.length = 1) :
    ∀ acc r, t ∈ acc → l.foldlM pyRemove acc = Except.ok r → t ∈ r := by
  induction l with
  | nil => intro acc r h he; simp [pure, Except.pure] at he; exact he ▸ h
  | cons x l ih =>
    intro acc r h he
    simp only [List.foldlM_cons] at he
    unfold pyRemove at he
    split_ifs at he with hx
    · refine ih (fun y hy => hl y (by simp [hy])) _ r ?_ he
      have hne : t ≠ x := by
        intro e; have := hl x (by simp); rw [← e] at this; omega
      exact (@List.mem_erase_of_ne _ instBEqOfDecidableEq _ _ _ _ hne).2 h
    · cases he

/-- `_complementary` raises nothing but ValueError. -/
theorem compStr_error (l : List PStr) : ∀ acc e, l.foldlM pyRemove acc = Except.error e → e = Err.valueError := by
  induction l with
  | nil => intro acc e he; simp [pure, Except.pure] at he
  | cons x l ih =>
    intro acc e he
    simp only [List.foldlM_cons] at he
    unfold pyRemove at he
    split_ifs at he with hx
    · exact ih _ _ he
    · exact (Except.error.inj he).symm

/-- The halving step raises ValueError. -/
theorem innerBracket_raises {n length a1 a2 : ℕ} (h10 : 10 ≤ n) (h1 : a1 = 1 ∨ a1 = 2) (h2 : a2 = 1 ∨ a2 = 2)
    (hc : compLength n length a1 a2 = length) (hn : length ≤ 8 * (n / 10) + (n % 10 - 2)) :
    innerBracket n length a1 a2 = .error .valueError := by
  have hne := startCombs_nonempty n length a1 a2 h1 h2 hn
  have : dropRepeats n a1 a2 (startCombs n length a1 a2).length 0 (startCombs n length a1 a2) = .error .valueError := by
    obtain ⟨e, rest, hs⟩ := List.exists_cons_of_ne_nil hne
    rw [hs]
    simp only [List.length_cons, dropRepeats, List.getElem?_cons_zero]
    have he : e ∈ startCombs n length a1 a2 := by rw [hs]; simp
    cases hcs : compStr n e with
    | error er => simp only; rw [compStr_error _ _ _ hcs]
    | ok comp =>
      simp only
      have h10m : pyStr 10 ∈ comp := by
        refine compStr_keeps (by decide) e (fun x hx => startCombs_single he hx) _ comp ?_ hcs
        exact List.mem_map.2 ⟨10, by simp [List.mem_range'_1]; omega, rfl⟩
      have hin : pyStr 10 ∈ (comp.erase (pyStr a1)).erase (pyStr a2) := by
        rw [List.mem_erase_of_ne, List.mem_erase_of_ne]
        · exact h10m
        · rcases h1 with rfl | rfl <;> decide
        · rcases h2 with rfl | rfl <;> decide
      have hnot : (comp.erase (pyStr a1)).erase (pyStr a2) ∉ e :: rest := by
        rw [← hs]
        intro hm
        have := startCombs_single hm hin
        exact absurd this (by decide)
      unfold pyRemove
      rw [if_neg hnot]
  unfold innerBracket
  simp only [hc, if_true]
  have e : (combs length (((List.range' 1 n).flatMap pyStr).map fun c => [c])).filter
      (fun e => decide (pyStr a1 ∉ e ∧ pyStr a2 ∉ e)) = startCombs n length a1 a2 := rfl
  rw [e, this]

/-- Before the halving step nothing is raised. -/
theorem innerBracket_before {n length a1 a2 : ℕ} (hc : length < compLength n length a1 a2) :
    ∃ c, innerBracket n length a1 a2 = .ok (some c) := by
  unfold innerBracket
  simp only
  rw [if_neg (by omega), if_neg (by omega)]
  exact ⟨_, rfl⟩

/-- After it the loop stops. -/
theorem innerBracket_after {n length a1 a2 : ℕ} (hc : compLength n length a1 a2 < length) :
    innerBracket n length a1 a2 = .ok none := by
  unfold innerBracket
  simp only
  rw [if_neg (by omega), if_pos hc]

/-- A loop over lengths raises at the first length that does. -/
theorem loopLengths_raises {β : Type*} (f : ℕ → Except Err (Option (List β))) (L : ℕ) (e : Err)
    (hL : f L = .error e) : ∀ (k s : ℕ), s ≤ L → L < s + k → (∀ l, s ≤ l → l < L → ∃ c, f l = .ok (some c)) →
      loopLengths f (List.range' s k) = .error e := by
  intro k
  induction k with
  | zero => intro s h1 h2; omega
  | succ k ih =>
    intro s h1 h2 hb
    rw [List.range'_succ]
    unfold loopLengths
    rcases Nat.eq_or_lt_of_le h1 with rfl | hlt
    · rw [hL]
    · obtain ⟨c, hc⟩ := hb s le_rfl hlt
      rw [hc]
      simp only
      rw [ih (s + 1) (by omega) (by omega) (fun l h h' => hb l (by omega) h')]

/-- A loop over lengths that raises at no length. -/
theorem loopLengths_ok {β : Type*} (f : ℕ → Except Err (Option (List β))) :
    ∀ ls : List ℕ, (∀ l ∈ ls, ∃ c, f l = .ok c) → ∃ r, loopLengths f ls = .ok r
  | [], _ => ⟨_, rfl⟩
  | l :: ls, h => by
    obtain ⟨c, hc⟩ := h l (by simp)
    unfold loopLengths
    rw [hc]
    cases c with
    | none => exact ⟨_, rfl⟩
    | some c =>
      obtain ⟨r, hr⟩ := loopLengths_ok f ls fun x hx => h x (by simp [hx])
      simp only [hr]
      exact ⟨_, rfl⟩

/-- Odd numbers of particles: the slots between particle one and itself. -/
theorem slotsFor_odd {n : ℕ} (h10 : 10 ≤ n) (ho : n % 2 = 1) : slotsFor n 1 1 = .error .valueError := by
  unfold slotsFor
  apply loopLengths_raises _ ((n - 1) / 2) _ _ _ _ (by omega) (by omega)
  · intro l hl hl'
    apply innerBracket_before
    simp [compLength]; omega
  · apply innerBracket_raises h10 (Or.inl rfl) (Or.inl rfl)
    · simp [compLength]; omega
    · omega

/-- Even numbers of particles: the slots between particles one and two. -/
theorem slotsFor_even {n : ℕ} (h10 : 10 ≤ n) (ho : n % 2 = 0) : slotsFor n 1 2 = .error .valueError := by
  unfold slotsFor
  apply loopLengths_raises _ ((n - 2) / 2) _ _ _ _ (by omega) (by omega)
  · intro l hl hl'
    apply innerBracket_before
    simp [compLength]; omega
  · apply innerBracket_raises h10 (Or.inl rfl) (Or.inr rfl)
    · simp [compLength]; omega
    · omega

/-- Even numbers of particles: the slots between particle one and itself do not raise. -/
theorem slotsFor_even_one {n : ℕ} (ho : n % 2 = 0) : ∃ r, slotsFor n 1 1 = .ok r := by
  unfold slotsFor
  apply loopLengths_ok
  intro l hl
  rw [List.mem_range'_1] at hl
  rcases Nat.lt_or_ge l (compLength n l 1 1) with h | h
  · obtain ⟨c, hc⟩ := innerBracket_before h
    exact ⟨_, hc⟩
  · refine ⟨none, innerBracket_after ?_⟩
    simp [compLength] at h ⊢; omega

/-- From ten particles on the strings with one slot are not generated: ValueError. -/
theorem all3_raises {n : ℕ} (h10 : 10 ≤ n) : all3 n = .error .valueError := by
  obtain ⟨m, rfl⟩ : ∃ m, n = m + 2 := ⟨n - 2, by omega⟩
  unfold all3
  have e : List.range' 1 (m + 2) = 1 :: 2 :: List.range' 3 m := by
    rw [List.range'_succ, List.range'_succ]
  rw [e]
  unfold collect
  unfold collect
  rcases Nat.mod_two_eq_zero_or_one (m + 2) with h | h
  · obtain ⟨r, hr⟩ := slotsFor_even_one h
    rw [hr]
    simp only
    unfold collect
    rw [slotsFor_even h10 h]
  · rw [slotsFor_odd h10 h]

/-- C60, refuted: from ten particles on, `Invariants(n)` raises ValueError when it generates its lists,
whatever the flags, the order of sets and the outcome of the hard-coded block. -/
theorem C60_ten_particles_raise {n : ℕ} (h10 : 10 ≤ n) (ord : SetOrder) (hard : Except Err (List PStr)) (f : Flags) :
    generate n ord hard f = .error .valueError := by
  unfold generate
  rw [all3_raises h10]

/-! ### Up to five particles -/

/-- The strings with two slots at five points: no doubles are found, hence no set is traversed. -/
theorem removeDoubles_id (n : ℕ) (ord : SetOrder) (copy : List Brk) : ∀ (i : ℕ) (bs result : List Brk),
    (∀ b ∈ bs, removeDouble n (fun _ _ => []) [] 0 b [] = .ok [] ∧
      ∀ m0 m1 rest, b.mids = m0 :: m1 :: rest → ∀ alt0 alt1, altOf n m0 b.a = .ok alt0 → altOf n m1 b.d = .ok alt1 →
        subS m0 alt1 = false ∧ subS m1 alt0 = false) →
    removeDoubles n ord copy i bs result = .ok result := by
  intro i bs
  induction bs generalizing i with
  | nil => intro result _; rfl
  | cons b bs ih =>
    intro result h
    have hb := h b (by simp)
    have : removeDouble n ord copy i b result = .ok result := by
      have h1 := hb.1
      unfold removeDouble at h1 ⊢
      split_ifs at h1 ⊢ with hd
      · rfl
      · cases hm : b.mids with
        | nil => simp [hm] at h1
        | cons m0 rest =>
          cases rest with
          | nil => simp [hm] at h1
          | cons m1 rest =>
            simp only [hm] at h1 ⊢
            cases ha0 : altOf n m0 b.a with
            | error e => simp [ha0] at h1
            | ok alt0 =>
              cases ha1 : altOf n m1 b.d with
              | error e => simp [ha0, ha1] at h1
              | ok alt1 =>
                obtain ⟨q1, q2⟩ := hb.2 m0 m1 rest hm alt0 alt1 ha0 ha1
                simp [q1, q2]
    unfold removeDoubles
    rw [this]
    exact ih (i + 1) result fun b' hb' => h b' (by simp [hb'])

/-- A check by computation for the hypothesis above. -/
def noDoubles (n : ℕ) (b : Brk) : Bool :=
  match b.mids with
  | m0 :: m1 :: _ =>
    match altOf n m0 b.a, altOf n m1 b.d with
    | .ok alt0, .ok alt1 => !(subS m0 alt1) && !(subS m1 alt0)
    | _, _ => false
  | _ => false

theorem noDoubles_spec {n : ℕ} {b : Brk} (h : noDoubles n b = true) :
    removeDouble n (fun _ _ => []) [] 0 b [] = .ok [] ∧
      ∀ m0 m1 rest, b.mids = m0 :: m1 :: rest → ∀ alt0 alt1, altOf n m0 b.a = .ok alt0 → altOf n m1 b.d = .ok alt1 →
        subS m0 alt1 = false ∧ subS m1 alt0 = false := by
  unfold noDoubles at h
  cases hm : b.mids with
  | nil => simp [hm] at h
  | cons m0 rest =>
    cases rest with
    | nil => simp [hm] at h
    | cons m1 rest =>
      simp only [hm] at h
      cases ha0 : altOf n m0 b.a with
      | error e => simp [ha0] at h
      | ok alt0 =>
        cases ha1 : altOf n m1 b.d with
        | error e => simp [ha0, ha1] at h
        | ok alt1 =>
          simp only [ha0, ha1, Bool.and_eq_true, Bool.not_eq_true'] at h
          refine ⟨?_, ?_⟩
          · unfold removeDouble
            simp [hm, ha0, ha1, h.1, h.2]
          · intro m0' m1' rest' e alt0' alt1' e0 e1
            simp only [List.cons.injEq] at e
            obtain ⟨rfl, rfl, rfl⟩ := e
            rw [ha0] at e0; rw [ha1] at e1
            cases e0; cases e1
            exact h

/-- Everything but the hard-coded strings, decided by computation. -/
def smallCheck (n : ℕ) (wants : Except Err (List Brk) → Bool) : Bool :=
  match all3 n, all4raw n with
  | .ok r3, .ok raw =>
    match removeReducible n raw raw with
    | .ok r4 => r4.all (noDoubles n) && (purge3 n r3 r3).isOk && (purge4 n true r4 r4).isOk && wants (purge4 n false r4 r4)
    | .error _ => false
  | _, _ => false

theorem isOk_iff {β : Type*} {x : Except Err β} : x.isOk = true ↔ ∃ r, x = .ok r := by
  cases x <;> simp [Except.isOk, Except.toBool]

theorem smallCheck_spec {n : ℕ} {wants : Except Err (List Brk) → Bool} (h : smallCheck n wants = true) (ord : SetOrder) :
    ∃ r3 r4, all3 n = .ok r3 ∧ all4 n ord = .ok r4 ∧ (∃ p, purge3 n r3 r3 = .ok p) ∧
      (∃ p, purge4 n true r4 r4 = .ok p) ∧ wants (purge4 n false r4 r4) = true := by
  unfold smallCheck at h
  cases h3 : all3 n with
  | error e => simp [h3] at h
  | ok r3 =>
    cases hr : all4raw n with
    | error e => simp [h3, hr] at h
    | ok raw =>
      simp only [h3, hr] at h
      cases hd : removeReducible n raw raw with
      | error e => simp [hd] at h
      | ok r4 =>
        simp only [hd, Bool.and_eq_true, isOk_iff] at h
        obtain ⟨⟨⟨h1, h2⟩, h4⟩, h5⟩ := h
        refine ⟨r3, r4, rfl, ?_, h2, h4, h5⟩
        unfold all4
        rw [hr]
        simp only [hd]
        exact removeDoubles_id n ord r4 0 r4 r4 fun b hb => noDoubles_spec (List.all_eq_true.1 h1 b hb)

set_option maxRecDepth 100000 in
theorem smallCheck_four {n : ℕ} (hn : n ≤ 4) : smallCheck n (fun x => x.isOk) = true := by
  interval_cases n <;> decide +kernel

set_option maxRecDepth 100000 in
theorem smallCheck_five :
    smallCheck 5 (fun x => match x with | .error .typeError => true | _ => false) = true := by
  decide +kernel

/-- Generation succeeds when its four steps do. -/
theorem generate_ok {n : ℕ} {ord : SetOrder} {hard : Except Err (List PStr)} {f : Flags} {r3 r4 p3 p4 : List Brk}
    (h6 : n ≠ 6) (h3 : all3 n = .ok r3) (h4 : all4 n ord = .ok r4)
    (hp : (if f.restrict3 then purge3 n r3 r3 else .ok r3) = .ok p3)
    (hq : (if f.restrict4 then purge4 n f.further4 r4 r4 else .ok r4) = .ok p4) :
    ∃ r, generate n ord hard f = .ok r := by
  unfold generate
  rw [h3]
  simp only
  rw [h4]
  simp only
  rw [hp]
  simp only
  rw [hq]
  simp only
  rw [if_neg (fun h => h6 h.1)]
  exact ⟨_, rfl⟩

/-- Generation fails when the restriction of the strings with two slots does. -/
theorem generate_error {n : ℕ} {ord : SetOrder} {hard : Except Err (List PStr)} {f : Flags} {r3 r4 p3 : List Brk} {e : Err}
    (h3 : all3 n = .ok r3) (h4 : all4 n ord = .ok r4)
    (hp : (if f.restrict3 then purge3 n r3 r3 else .ok r3) = .ok p3)
    (hq : (if f.restrict4 then purge4 n f.further4 r4 r4 else .ok r4) = .error e) :
    generate n ord hard f = .error e := by
  unfold generate
  rw [h3]
  simp only
  rw [h4]
  simp only
  rw [hp]
  simp only
  rw [hq]

/-- C60, for up to four particles: every combination of flags constructs. -/
theorem C60_up_to_four_partial {n : ℕ} (hn : n ≤ 4) (ord : SetOrder) (hard : Except Err (List PStr)) (f : Flags) :
    ∃ r, generate n ord hard f = .ok r := by
  obtain ⟨r3, r4, h3, h4, ⟨p, hp⟩, ⟨q, hq⟩, hw⟩ := smallCheck_spec (smallCheck_four hn) ord
  obtain ⟨q', hq'⟩ := isOk_iff.1 hw
  obtain ⟨p3, hp3⟩ : ∃ p3, (if f.restrict3 then purge3 n r3 r3 else .ok r3) = .ok p3 := by
    split
    · exact ⟨p, hp⟩
    · exact ⟨r3, rfl⟩
  obtain ⟨p4, hp4⟩ : ∃ p4, (if f.restrict4 then purge4 n f.further4 r4 r4 else .ok r4) = .ok p4 := by
    split
    · cases f.further4
      · exact ⟨q', hq'⟩
      · exact ⟨q, hq⟩
    · exact ⟨r4, rfl⟩
  exact generate_ok (by omega) h3 h4 hp3 hp4

/-- C60, at five points: every combination constructs, except when the strings with two slots are to be
restricted but not further restricted, which raises TypeError. -/
theorem C60_five_points {ord : SetOrder} {hard : Except Err (List PStr)} (f : Flags) :
    if f.restrict4 = true ∧ f.further4 = false then generate 5 ord hard f = .error .typeError
    else ∃ r, generate 5 ord hard f = .ok r := by
  obtain ⟨r3, r4, h3, h4, ⟨p, hp⟩, ⟨q, hq⟩, hw⟩ := smallCheck_spec smallCheck_five ord
  have hq' : purge4 5 false r4 r4 = .error .typeError := by
    revert hw; generalize purge4 5 false r4 r4 = x
    cases x with
    | ok r => simp
    | error e => cases e <;> simp
  obtain ⟨p3, hp3⟩ : ∃ p3, (if f.restrict3 then purge3 5 r3 r3 else .ok r3) = .ok p3 := by
    split
    · exact ⟨p, hp⟩
    · exact ⟨r3, rfl⟩
  split
  next h =>
    refine generate_error h3 h4 hp3 ?_
    rw [if_pos h.1, h.2]
    exact hq'
  next h =>
    obtain ⟨p4, hp4⟩ : ∃ p4, (if f.restrict4 then purge4 5 f.further4 r4 r4 else .ok r4) = .ok p4 := by
      split
      next h4 =>
        have : f.further4 = true := by
          cases hf : f.further4
          · exact absurd ⟨h4, hf⟩ h
          · rfl
        rw [this]
        exact ⟨q, hq⟩
      next => exact ⟨r4, rfl⟩
    exact generate_ok (by omega) h3 h4 hp3 hp4

/-- The combination of flags of the second refutation exists. -/
example (ord : SetOrder) : generate 5 ord (.ok []) ⟨true, true, true, true, false⟩ = .error .typeError := by
  have := C60_five_points (ord := ord) (hard := .ok []) ⟨true, true, true, true, false⟩
  rwa [if_pos ⟨rfl, rfl⟩] at this

end Lips

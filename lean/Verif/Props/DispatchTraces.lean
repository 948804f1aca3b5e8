import Verif.Props.DispatchNames

/-!
Property C82 for traces, tr5 and open strings; property C85: parentheses inside a slot.
-/

namespace Lips

variable {K : Type*} [Field K] {n : ℕ}

/-- Text of a slot without parentheses. -/
abbrev plain (s : Slot n) : Bool × Slot n := (false, s)

theorem slotText_plain (s : Slot n) : slotText (slotOf (plain s)) = slotBody (slotOf (plain s)).2 := by
  simp [slotText, slotOf]

/-! ### tr5 -/

theorem length_pyStr_eq_one (k : ℕ) : (pyStr k).length = 1 ↔ k < 10 := by
  constructor
  · intro h
    by_contra hk
    have h10 : 10 ≤ k := by omega
    have : pyStr k = pyStr (k / 10) ++ [Nat.digitChar (k % 10)] := by
      unfold pyStr
      rw [Nat.toDigits_of_base_le (by omega) h10]
    rw [this, List.length_append, List.length_singleton] at h
    have := pyStr_ne_nil (k / 10)
    have := List.length_pos_iff.2 this
    omega
  · intro h
    rw [pyStr_digit h]; rfl

theorem oneChar_iff (s : Slot n) (h : SlotWritten s) :
    (slotText (slotOf (plain s))).length = 1 ↔ oneChar s = true := by
  obtain ⟨l, ts, rfl⟩ := h
  rw [slotText_plain]
  cases ts with
  | nil => simp [slotOf, slotBody, oneChar, length_pyStr_eq_one]
  | cons t ts =>
    simp only [slotOf, List.map_cons, slotBody, List.flatMap_cons, List.length_append, List.length_cons, oneChar]
    have := List.length_pos_iff.2 (pyStr_ne_nil ((l : ℕ) + 1))
    constructor
    · intro h; omega
    · intro h; simp at h

/-- Texts of four slots. -/
abbrev texts4 (q : Slot n × Slot n × Slot n × Slot n) : List Char × List Char × List Char × List Char :=
  (slotText (slotOf (plain q.1)), slotText (slotOf (plain q.2.1)), slotText (slotOf (plain q.2.2.1)),
    slotText (slotOf (plain q.2.2.2)))

theorem rotateText_eq (k : ℕ) (q : Slot n × Slot n × Slot n × Slot n)
    (h : SlotWritten q.1 ∧ SlotWritten q.2.1 ∧ SlotWritten q.2.2.1 ∧ SlotWritten q.2.2.2) :
    rotateText k (texts4 q) = (tr5Rotate k q).map texts4 := by
  induction k generalizing q with
  | zero => rfl
  | succ k ih =>
    obtain ⟨a, b, c, d⟩ := q
    simp only [rotateText, tr5Rotate]
    by_cases ho : oneChar a = true
    · rw [if_pos ((oneChar_iff a h.1).2 ho), if_pos ho]
      rfl
    · rw [if_neg (fun hh => ho ((oneChar_iff a h.1).1 hh)), if_neg ho]
      exact ih (b, c, d, a) ⟨h.2.1, h.2.2.1, h.2.2.2, h.1⟩

theorem tr5Rotate_ok (k : ℕ) (q r : Slot n × Slot n × Slot n × Slot n) (hr : tr5Rotate k q = some r)
    (h : SlotWritten q.1 ∧ SlotWritten q.2.1 ∧ SlotWritten q.2.2.1 ∧ SlotWritten q.2.2.2) :
    oneChar r.1 = true ∧ SlotWritten r.2.1 ∧ SlotWritten r.2.2.1 ∧ SlotWritten r.2.2.2 := by
  induction k generalizing q with
  | zero => cases hr
  | succ k ih =>
    obtain ⟨a, b, c, d⟩ := q
    simp only [tr5Rotate] at hr
    split at hr
    · rename_i ho
      cases hr
      exact ⟨ho, h.2⟩
    · exact ih (b, c, d, a) hr ⟨h.2.1, h.2.2.1, h.2.2.2, h.1⟩

theorem evalStringText_eq (ps : Point K n) (o e : Char) (ho : o ∈ ['<', '⟨', '[']) (he : e ∈ ['⟩', ']', '>'])
    (l : Fin n) (b c d : Slot n) (hb : SlotWritten b) (hc : SlotWritten c) (hd : SlotWritten d) :
    evalStringText ps (tr5Text o (slotText (slotOf (plain [(true, l)]))) (slotText (slotOf (plain b)))
      (slotText (slotOf (plain c))) (slotText (slotOf (plain d))) e) =
      some (computeNB ps o l [b, c, d] l e) := by
  have hl : slotText (slotOf (plain [(true, l)])) = pyStr ((l : ℕ) + 1) := by
    simp [slotText, slotOf, slotBody]
  have ht : tr5Text o (slotText (slotOf (plain [(true, l)]))) (slotText (slotOf (plain b)))
      (slotText (slotOf (plain c))) (slotText (slotOf (plain d))) e =
      stringText o (l + 1) ([plain b, plain c, plain d].map slotOf) (l + 1) e := by
    rw [hl]; simp [tr5Text, stringText]
  have hall : ∀ s ∈ [plain b, plain c, plain d], SlotWritten s.2 := by
    intro s hs
    simp only [List.mem_cons, List.not_mem_nil, or_false] at hs
    rcases hs with rfl | rfl | rfl <;> assumption
  rw [ht, evalStringText, classify_string _ _ _ _ _ ho he (by simp) (slotsOf_ne _ hall)]
  simp only [evalString_eq ps o e l l _ hall]
  rfl

theorem evalTr5_eq (ps : Point K n) (m : List Char) (a b c d : Slot n)
    (hm : unpack4 m = .ok (texts4 (a, b, c, d))) (h : SlotWritten a ∧ SlotWritten b ∧ SlotWritten c ∧ SlotWritten d) :
    evalTr5 ps m = some (computeTr5 ps a b c d) := by
  rw [evalTr5, hm, computeTr5]
  simp only [rotateText_eq 4 (a, b, c, d) h]
  cases hr : tr5Rotate 4 (a, b, c, d) with
  | none => rfl
  | some r =>
    obtain ⟨h1, h2, h3, h4⟩ := tr5Rotate_ok 4 _ r hr h
    obtain ⟨r1, r2, r3, r4⟩ := r
    obtain ⟨l, rfl⟩ : ∃ l, r1 = [(true, l)] := by
      revert h1
      match r1 with
      | [] => simp [oneChar]
      | [(true, l)] => intro _; exact ⟨l, rfl⟩
      | [(false, l)] => simp [oneChar]
      | _ :: _ :: _ => simp [oneChar]
    simp only [Option.map_some, texts4]
    rw [evalStringText_eq ps '[' '⟩' (by decide) (by decide) l r2 r3 r4 h2 h3 h4,
      evalStringText_eq ps '⟨' ']' (by decide) (by decide) l r2 r3 r4 h2 h3 h4]
    cases computeNB ps '[' l [r2, r3, r4] l '⟩' <;> cases computeNB ps '⟨' l [r2, r3, r4] l ']' <;> rfl

/-- C82: `tr5(a|b|c|d)`, the slots being signed sums of labels without parentheses, is evaluated as
tr5 of these slots. -/
theorem C82_tr5 (ps : Point K n) (fuel : ℕ) (a b c d : Slot n)
    (h : SlotWritten a ∧ SlotWritten b ∧ SlotWritten c ∧ SlotWritten d) :
    computeText ps fuel ("tr5(".toList ++ ['|'].intercalate ([a, b, c, d].map fun s => slotText (slotOf (plain s))) ++
      [')']) = some (asNum (computeTr5 ps a b c d)) := by
  set m := ['|'].intercalate ([a, b, c, d].map fun s => slotText (slotOf (plain s))) with hm
  have hb : '|' ∈ m := by simp [hm]
  have hsp : m.splitOn '|' = [a, b, c, d].map fun s => slotText (slotOf (plain s)) := by
    rw [hm]
    apply List.splitOn_intercalate
    · intro l hl
      obtain ⟨s, _, rfl⟩ := List.mem_map.1 hl
      exact bar_not_mem_slotText _
    · simp
  have hchars : ∀ x ∈ m, x.isDigit = true ∨ isOp x = true := by
    have : ∀ (l : List (List Char)), (∀ t ∈ l, ∀ x ∈ t, x.isDigit = true ∨ isOp x = true) →
        ∀ x ∈ ['|'].intercalate l, x.isDigit = true ∨ isOp x = true := by
      intro l
      induction l with
      | nil => simp
      | cons t l ih =>
        intro h
        cases l with
        | nil => simpa using h t (by simp)
        | cons u l =>
          intro x hx
          rw [List.intercalate_cons_cons] at hx
          simp only [List.mem_append, List.mem_cons, List.not_mem_nil, or_false] at hx
          rcases hx with (hx | rfl) | hx
          · exact h t (by simp) x hx
          · right; decide
          · exact ih (fun t ht => h t (by simp [ht])) x hx
    apply this
    intro t ht x hx
    obtain ⟨s, _, rfl⟩ := List.mem_map.1 ht
    rw [slotText_plain] at hx
    rcases mem_slotBody hx with h | rfl | rfl
    · exact .inl h
    · right; decide
    · right; decide
  have hcl : classify ("tr5(".toList ++ m ++ [')']) = .tr5 m := by
    have h1 : afterDigits "tr5_".toList ("tr5(".toList ++ m ++ [')']) = none := by simp [afterDigits]
    have h2 : between "tr5(".toList ')' ("tr5(".toList ++ m ++ [')']) = some m := by
      have e : ("tr5(".toList ++ m ++ [')']).drop "tr5(".toList.length = m ++ [')'] := by
        rw [List.append_assoc, List.drop_left]
      unfold between
      rw [e, if_pos ⟨by simp, by simp⟩, List.dropLast_concat]
    have h3 : m ≠ [] ∧ (m.all fun c => c.isDigit || isOp c) = true := by
      refine ⟨fun e => by rw [e] at hb; simp at hb, ?_⟩
      rw [List.all_eq_true]
      intro x hx
      rcases hchars x hx with h | h <;> simp [h]
    rw [classify, matchTr5, h1, h2]
    simp only [if_pos h3]
  rw [computeText_plain, hcl]
  · have : unpack4 m = .ok (texts4 (a, b, c, d)) := by
      rw [unpack4, if_pos hb, hsp]; rfl
    simp only [evalForm, evalTr5_eq ps m a b c d this h, Option.map_some]
  · intro x hx
    simp only [List.mem_append, List.mem_singleton] at hx
    rcases hx with (hx | hx) | rfl
    · exact (by decide : ∀ x ∈ _, x ∉ boldChars) x hx
    · rcases hchars x hx with h | h
      · exact digit_not_bold h
      · simp only [isOp, Bool.or_eq_true, decide_eq_true_eq] at h
        rcases h with (rfl | rfl) | rfl <;> decide
    · decide

/-- C82: `tr5_ijkl` with one-digit labels is evaluated as tr5 of the four labels. -/
theorem C82_tr5_labels (ps : Point K n) (fuel : ℕ) (i j k l : Fin n) (h : OneDigit [i, j, k, l]) :
    computeText ps fuel ("tr5_".toList ++ digitText [i, j, k, l]) =
      some (asNum (computeTr5 ps [(true, i)] [(true, j)] [(true, k)] [(true, l)])) := by
  have hd := isDigits_digitText h (by simp)
  have hcl : classify ("tr5_".toList ++ digitText [i, j, k, l]) = .tr5 (digitText [i, j, k, l]) := by
    simp [classify, matchTr5, afterDigits, hd]
  rw [computeText_plain, hcl]
  · have hb : '|' ∉ digitText [i, j, k, l] := fun hm => (digit_ne (digitText_isDigit h _ hm)).1 rfl
    have h1 : ∀ x ∈ [i, j, k, l], [digitOf ((x : ℕ) + 1)] = slotText (slotOf (plain [(true, x)])) := by
      intro x hx
      simp [slotText, slotOf, slotBody, pyStr_digit (h x hx), digitOf]
    have : unpack4 (digitText [i, j, k, l]) = .ok (texts4 ([(true, i)], [(true, j)], [(true, k)], [(true, l)])) := by
      rw [unpack4, if_neg hb]
      simp only [digitText, List.map_cons, List.map_nil, texts4]
      rw [h1 i (by simp), h1 j (by simp), h1 k (by simp), h1 l (by simp)]
    simp only [evalForm, evalTr5_eq ps _ _ _ _ _ this ⟨⟨_, _, rfl⟩, ⟨_, _, rfl⟩, ⟨_, _, rfl⟩, ⟨_, _, rfl⟩⟩,
      Option.map_some]
  · intro x hx
    rcases List.mem_append.1 hx with hx | hx
    · exact (by decide : ∀ x ∈ _, x ∉ boldChars) x hx
    · exact digitText_not_bold h x hx

/-! ### Traces -/

theorem tr_out (t : List Char) (h : ∀ x ∈ t, x.isDigit = true ∨ isOp x = true) : t.foldl trStep .out = .out := by
  induction t with
  | nil => rfl
  | cons x t ih =>
    have hx : trStep .out x = .out := by
      have h1 : x ≠ '(' := by
        rintro rfl
        rcases h '(' (by simp) with h | h <;> (revert h; decide)
      rcases h x (by simp) with h | h <;> simp [trStep, h, h1]
    rw [List.foldl_cons, hx]
    exact ih fun y hy => h y (by simp [hy])

theorem tr_in (t : List Char) (h : ∀ x ∈ t, x.isDigit = true ∨ isOp x = true) : t.foldl trStep .open1 = .open1 := by
  induction t with
  | nil => rfl
  | cons x t ih =>
    have hx : trStep .open1 x = .open1 := by
      rcases h x (by simp) with h | h <;> simp [trStep, h]
    rw [List.foldl_cons, hx]
    exact ih fun y hy => h y (by simp [hy])

theorem body_chars (s : List (Bool × ℕ)) : ∀ x ∈ slotBody s, x.isDigit = true ∨ isOp x = true := by
  intro x hx
  rcases mem_slotBody hx with h | rfl | rfl
  · exact .inl h
  · right; decide
  · right; decide

theorem tr_slot (s : Bool × List (Bool × ℕ)) (h : s.2 ≠ []) : (slotText s).foldl trStep .out = .out := by
  unfold slotText
  split
  · obtain ⟨x, t, e⟩ : ∃ x t, slotBody s.2 = x :: t := by
      obtain ⟨u, us, e⟩ := List.exists_cons_of_ne_nil h
      exact List.exists_cons_of_ne_nil (e ▸ slotBody_ne_nil u us)
    have hb := body_chars s.2
    rw [e] at hb ⊢
    have hx : trStep .open0 x = .open1 := by
      rcases hb x (by simp) with h | h <;> simp [trStep, h]
    have h0 : trStep .out '(' = .open0 := by decide
    simp only [List.foldl_cons, List.foldl_append, List.foldl_nil, h0, hx, tr_in t fun y hy => hb y (by simp [hy])]
    decide
  · exact tr_out _ (body_chars _)

theorem tr_slots (slots : List (Bool × List (Bool × ℕ))) (h : ∀ s ∈ slots, s.2 ≠ []) :
    (['|'].intercalate (slots.map slotText)).foldl trStep .out = .out := by
  induction slots with
  | nil => rfl
  | cons s slots ih =>
    cases slots with
    | nil => simpa using tr_slot s (h s (by simp))
    | cons s' slots =>
      have := ih fun x hx => h x (by simp [hx])
      simp only [List.map_cons, List.intercalate_cons_cons, List.foldl_append] at this ⊢
      rw [tr_slot s (h s (by simp))]
      exact this

theorem stripParens_slots (slots : List (Bool × List (Bool × ℕ))) :
    stripParens (['|'].intercalate (slots.map slotText)) = ['|'].intercalate (slots.map fun s => slotBody s.2) := by
  induction slots with
  | nil => rfl
  | cons s slots ih =>
    cases slots with
    | nil => simp [stripParens_slot]
    | cons s' slots =>
      simp only [List.map_cons, List.intercalate_cons_cons, stripParens_append, stripParens_slot] at ih ⊢
      rw [ih]; rfl

theorem bar_not_mem_body (s : List (Bool × ℕ)) : '|' ∉ slotBody s := by
  have := bar_not_mem_slotText (false, s)
  simpa [slotText] using this

/-- C82: `tr(slot|slot|...)`, each slot with or without parentheses around it, is evaluated as the
trace of these slots. -/
theorem C82_tr (ps : Point K n) (fuel : ℕ) (ss : List (Bool × Slot n)) (hne : ss ≠ [])
    (h : ∀ s ∈ ss, SlotWritten s.2) :
    computeText ps fuel ("tr(".toList ++ ['|'].intercalate ((ss.map slotOf).map slotText) ++ [')']) =
      some (.ok (.num (computeTr ps (ss.map Prod.snd)))) := by
  set m := ['|'].intercalate ((ss.map slotOf).map slotText) with hm
  have hcl : classify ("tr(".toList ++ m ++ [')']) = .tr ((ss.map slotOf).map fun s => slotBody s.2) := by
    have h0 : matchTr5 ("tr(".toList ++ m ++ [')']) = none := by
      simp [matchTr5, afterDigits, between]
    have h2 : between "tr(".toList ')' ("tr(".toList ++ m ++ [')']) = some m := by
      have e : ("tr(".toList ++ m ++ [')']).drop "tr(".toList.length = m ++ [')'] := by
        rw [List.append_assoc, List.drop_left]
      unfold between
      rw [e, if_pos ⟨by simp, by simp⟩, List.dropLast_concat]
    have h3 : trMiddle m = true := by
      rw [trMiddle, hm, tr_slots _ (slotsOf_ne ss h)]; rfl
    rw [classify, h0, matchTr, h2]
    simp only [h3, if_true]
    rw [hm, stripParens_slots, List.splitOn_intercalate]
    · intro l hl
      obtain ⟨s, _, rfl⟩ := List.mem_map.1 hl
      exact bar_not_mem_body _
    · simpa using hne
  rw [computeText_plain, hcl]
  · have : readSlots n ((ss.map slotOf).map fun s => slotBody s.2) = .ok (ss.map Prod.snd) := by
      have h2 := readSlots_ok (ss.map fun s => plain s.2) (by
        intro s hs
        obtain ⟨x, hx, rfl⟩ := List.mem_map.1 hs
        exact h x hx)
      rw [List.map_map, List.map_map, List.map_map] at h2
      rw [List.map_map]
      exact h2
    simp only [evalForm, this]
  · intro x hx
    simp only [List.mem_append, List.mem_singleton] at hx
    rcases hx with (hx | hx) | rfl
    · exact (by decide : ∀ x ∈ _, x ∉ boldChars) x hx
    · refine intercalate_not_bold _ ?_ x hx
      intro t ht
      obtain ⟨s, _, rfl⟩ := List.mem_map.1 ht
      exact slot_not_bold s
    · decide

/-! ### Open strings -/

theorem ob_digits (t : List Char) (h : isDigits t = true) (q : OBq) (r : OBq)
    (hq : (q = .start ∨ q = .op ∨ q = .digit ∨ q = .close) ∧ r = .digit ∨
      (q = .paren ∨ q = .inOp ∨ q = .inDigit) ∧ r = .inDigit) : t.foldl obStep q = r := by
  obtain ⟨hne, hd⟩ := isDigits_iff.1 h
  clear h
  induction t generalizing q with
  | nil => exact absurd rfl hne
  | cons c t ih =>
    have hc := hd c (by simp)
    obtain ⟨-, h2, -⟩ := digit_ne hc
    have hs : obStep q c = r := by
      rcases hq with ⟨rfl | rfl | rfl | rfl, rfl⟩ | ⟨rfl | rfl | rfl, rfl⟩ <;> simp [obStep, hc, h2]
    rw [List.foldl_cons, hs]
    cases t with
    | nil => rfl
    | cons c' t' =>
      refine ih _ (by rcases hq with ⟨-, rfl⟩ | ⟨-, rfl⟩ <;> simp) (by simp) fun x hx => hd x (List.mem_cons_of_mem _ hx)

theorem ob_body (s : List (Bool × ℕ)) (h : s ≠ []) (q : OBq) (r : OBq)
    (hq : (q = .start ∨ q = .op ∨ q = .digit ∨ q = .close) ∧ r = .digit ∨
      (q = .paren ∨ q = .inOp ∨ q = .inDigit) ∧ r = .inDigit) : (slotBody s).foldl obStep q = r := by
  obtain ⟨t, ts, rfl⟩ := List.exists_cons_of_ne_nil h
  rw [slotBody, List.foldl_append, ob_digits _ (isDigits_pyStr _) _ _ hq]
  have hr : r = .digit ∨ r = .inDigit := by tauto
  clear h hq
  induction ts with
  | nil => rfl
  | cons u ts ih =>
    rw [List.flatMap_cons, List.foldl_append, List.foldl_cons]
    rcases hr with rfl | rfl
    · have : obStep .digit (if u.1 = true then '+' else '-') = .op := by cases u.1 <;> decide
      rw [this, ob_digits _ (isDigits_pyStr _) _ .digit (by simp), ih]
    · have : obStep .inDigit (if u.1 = true then '+' else '-') = .inOp := by cases u.1 <;> decide
      rw [this, ob_digits _ (isDigits_pyStr _) _ .inDigit (by simp), ih]

theorem ob_bodies (slots : List (List (Bool × ℕ))) (hne : slots ≠ []) (h : ∀ s ∈ slots, s ≠ []) (q : OBq)
    (hq : q = .start ∨ q = .op) : (['|'].intercalate (slots.map slotBody)).foldl obStep q = .digit := by
  induction slots generalizing q with
  | nil => exact absurd rfl hne
  | cons s slots ih =>
    have h1 := ob_body s (h s (by simp)) q .digit (by tauto)
    cases slots with
    | nil => simpa using h1
    | cons s' slots =>
      simp only [List.map_cons, List.intercalate_cons_cons, List.foldl_append, h1]
      exact ih (by simp) (fun x hx => h x (by simp [hx])) _ (.inr (by decide))

/-- Texts of the slots of an open string that its pattern admits: several slots without
parentheses, or a single slot in parentheses. -/
def OpenOk (ss : List (Bool × Slot n)) : Prop :=
  (ss ≠ [] ∧ ∀ s ∈ ss, s.1 = false ∧ SlotWritten s.2) ∨ ∃ s, ss = [(true, s)] ∧ SlotWritten s

theorem OpenOk.slots {ss : List (Bool × Slot n)} (h : OpenOk ss) : ss ≠ [] ∧ ∀ s ∈ ss, SlotWritten s.2 := by
  rcases h with ⟨h1, h2⟩ | ⟨s, rfl, h⟩
  · exact ⟨h1, fun s hs => (h2 s hs).2⟩
  · exact ⟨by simp, by simpa using h⟩

theorem obMiddle_ok {ss : List (Bool × Slot n)} (h : OpenOk ss) :
    obMiddle (['|'].intercalate ((ss.map slotOf).map slotText)) = true := by
  rcases h with ⟨hne, h⟩ | ⟨s, rfl, h⟩
  · have : (ss.map slotOf).map slotText = (ss.map fun s => (slotOf s).2).map slotBody := by
      rw [List.map_map, List.map_map]
      refine List.map_congr_left fun s hs => ?_
      simp only [Function.comp, slotText, slotOf, (h s hs).1]
      simp
    unfold obMiddle
    rw [this, ob_bodies _ (by simpa using hne) _ _ (.inl rfl)]
    intro s hs
    obtain ⟨x, hx, rfl⟩ := List.mem_map.1 hs
    exact slotOf_ne_nil x (h x hx).2
  · have hb := ob_body (slotOf (true, s)).2 (slotOf_ne_nil (true, s) h) .paren .inDigit (by simp)
    have h0 : obStep .start '(' = .paren := by decide
    unfold obMiddle
    simp only [List.map_cons, List.map_nil, List.intercalate_singleton, slotText]
    simp only [show (slotOf (true, s)).1 = true from rfl, if_true]
    rw [List.foldl_cons, h0, List.foldl_append, hb]
    rfl

theorem split_slots (x : List (List Char)) (ss : List (Bool × Slot n)) (y : List (List Char))
    (hx : ∀ t ∈ x, '|' ∉ t) (hy : ∀ t ∈ y, '|' ∉ t) (hne : ss ≠ []) :
    (['|'].intercalate (x ++ ((ss.map slotOf).map slotText ++ y))).splitOn '|' =
      x ++ ((ss.map slotOf).map slotText ++ y) := by
  apply List.splitOn_intercalate
  · intro l hl
    simp only [List.mem_append, List.mem_map] at hl
    rcases hl with hl | ⟨s, _, rfl⟩ | hl
    · exact hx l hl
    · exact bar_not_mem_slotText s
    · exact hy l hl
  · simp [hne]

theorem slots_not_bold (ss : List (Bool × Slot n)) : ∀ t ∈ (ss.map slotOf).map slotText, ∀ c ∈ t, c ∉ boldChars := by
  intro t ht
  obtain ⟨s, _, rfl⟩ := List.mem_map.1 ht
  exact slot_not_bold s

/-- C82: an open string `|slot|...|d⟩` or `|slot|...|d]`, its slots written without parentheses or
its single slot in parentheses, is evaluated as that open string. -/
theorem C82_open_begin (ps : Point K n) (fuel : ℕ) (c : Char) (hc : c ∈ ['⟩', ']']) (d : Fin n)
    (ss : List (Bool × Slot n)) (h : OpenOk ss) :
    computeText ps fuel ('|' :: (['|'].intercalate ((ss.map slotOf).map slotText ++ [pyStr (d + 1)]) ++ [c])) =
      some (match computeOpenBegin ps (ss.map Prod.snd) d c with
        | .ok v => .ok (.vec v)
        | .error e => .error e) := by
  obtain ⟨hne, hok⟩ := h.slots
  have hs := split_slots [] ss [pyStr ((d : ℕ) + 1)] (by simp) (by simpa using bar_not_mem_pyStr _) hne
  simp only [List.nil_append] at hs
  set body := ['|'].intercalate ((ss.map slotOf).map slotText ++ [pyStr ((d : ℕ) + 1)]) with hbody
  have hc' : c ≠ '|' := by
    simp only [List.mem_cons, List.not_mem_nil, or_false] at hc
    rcases hc with rfl | rfl <;> decide
  have hmo : ∀ closes, c ∈ closes → matchOne ['|'] closes ('|' :: (body ++ [c])) = none := by
    intro closes _
    simp only [matchOne, List.getLast?_append, List.getLast?_singleton, Option.some_or, List.dropLast_concat]
    rw [if_neg]
    rintro ⟨-, -, hd⟩
    have hb : '|' ∈ body := by
      by_contra hb
      rw [List.splitOn_eq_singleton hb] at hs
      obtain ⟨s, ss', rfl⟩ := List.exists_cons_of_ne_nil hne
      simp at hs
    exact (digit_ne ((isDigits_iff.1 hd).2 _ hb)).1 rfl
  have hmo' : ∀ closes, matchOne ['|'] closes ('|' :: (body ++ [c])) = none := by
    intro closes
    by_cases hcc : c ∈ closes
    · exact hmo closes hcc
    · refine matchOne_none (.inr ?_)
      intro x hx
      simp at hx
      exact hx ▸ hcc
  have hcl : classify ('|' :: (body ++ [c])) = .openBegin ((ss.map slotOf).map slotText) (pyStr (d + 1)) c := by
    have hnb : matchNB ('|' :: (body ++ [c])) = none := by
      simp only [matchNB, List.getLast?_append, List.getLast?_singleton, Option.some_or, List.dropLast_concat, hs]
      split
      · split
        · rw [if_neg (fun hh => absurd hh.1 (by decide))]
        · rfl
      · rfl
    have hob : matchOpenBegin ('|' :: (body ++ [c])) =
        some ((ss.map slotOf).map slotText, pyStr (d + 1), c) := by
      simp only [matchOpenBegin, List.getLast?_append, List.getLast?_singleton, Option.some_or, List.dropLast_concat, hs]
      rw [if_pos ⟨hc, isDigits_pyStr _, obMiddle_ok h⟩]
    rw [classify_bracket _ _ (by decide), classifyBracket, matchTwo_none (.inl (by decide)),
      matchOne_none (.inl (by decide)), hmo', matchTwo_none (.inl (by decide)), hmo',
      matchOne_none (.inl (by decide)), hnb, hob]
  rw [computeText_plain, hcl]
  · simp only [evalForm, readSlots_ok ss hok, readLabel_ok]
    rfl
  · intro x hx
    simp only [List.mem_cons, List.mem_append, List.not_mem_nil, or_false] at hx
    rcases hx with rfl | hx | rfl
    · decide
    · refine intercalate_not_bold _ ?_ x hx
      intro t ht
      rcases List.mem_append.1 ht with ht | ht
      · exact slots_not_bold ss t ht
      · simp only [List.mem_singleton] at ht
        subst ht
        exact pyStr_not_bold _
    · simp only [List.mem_cons, List.not_mem_nil, or_false] at hc
      rcases hc with rfl | rfl <;> decide

/-- C82: an open string `⟨a|slot|...|` or `[a|slot|...|`, its slots written without parentheses or its
single slot in parentheses, is evaluated as that open string. -/
theorem C82_open_end (ps : Point K n) (fuel : ℕ) (o : Char) (ho : o ∈ ['⟨', '[']) (a : Fin n)
    (ss : List (Bool × Slot n)) (h : OpenOk ss) :
    computeText ps fuel (o :: (['|'].intercalate (pyStr (a + 1) :: (ss.map slotOf).map slotText) ++ ['|'])) =
      some (match computeOpenEnd ps o a (ss.map Prod.snd) with
        | .ok v => .ok (.vec v)
        | .error e => .error e) := by
  obtain ⟨hne, hok⟩ := h.slots
  have hs := split_slots [pyStr ((a : ℕ) + 1)] ss [] (by simpa using bar_not_mem_pyStr _) (by simp) hne
  simp only [List.append_nil, List.singleton_append] at hs
  set body := ['|'].intercalate (pyStr ((a : ℕ) + 1) :: (ss.map slotOf).map slotText) with hbody
  have hbar : '|' ∈ body := by
    by_contra hb
    rw [List.splitOn_eq_singleton hb] at hs
    obtain ⟨s, ss', rfl⟩ := List.exists_cons_of_ne_nil hne
    simp at hs
  have hmo : ∀ opens closes, matchOne opens closes (o :: (body ++ ['|'])) = none := by
    intro opens closes
    simp only [matchOne, List.getLast?_append, List.getLast?_singleton, Option.some_or, List.dropLast_concat]
    rw [if_neg]
    rintro ⟨-, -, hd⟩
    exact (digit_ne ((isDigits_iff.1 hd).2 _ hbar)).1 rfl
  have hmt : ∀ opens closes, '|' ∉ closes → matchTwo opens closes (o :: (body ++ ['|'])) = none := by
    intro opens closes hcl
    simp only [matchTwo, List.getLast?_append, List.getLast?_singleton, Option.some_or, List.dropLast_concat]
    split
    · rename_i h1 h2
      cases h1
      rw [if_neg (fun hh => hcl hh.2.1)]
    · rfl
  have hcl : classify (o :: (body ++ ['|'])) = .openEnd o (pyStr (a + 1)) ((ss.map slotOf).map slotText) := by
    have hnb : matchNB (o :: (body ++ ['|'])) = none := by
      simp only [matchNB, List.getLast?_append, List.getLast?_singleton, Option.some_or, List.dropLast_concat, hs]
      split
      · rw [if_neg (fun hh => absurd hh.2.1 (by decide))]
      · rfl
    have hoe : matchOpenEnd (o :: (body ++ ['|'])) = some (o, pyStr (a + 1), (ss.map slotOf).map slotText) := by
      simp only [matchOpenEnd, List.getLast?_append, List.getLast?_singleton, Option.some_or, List.dropLast_concat, hs]
      rw [if_pos ⟨ho, trivial, isDigits_pyStr _, obMiddle_ok h⟩]
    have hob : matchOpenBegin (o :: (body ++ ['|'])) = none := by
      simp only [List.mem_cons, List.not_mem_nil, or_false] at ho
      rcases ho with rfl | rfl <;> simp [matchOpenBegin]
    rw [classify_bracket _ _ (by simp only [List.mem_cons, List.not_mem_nil, or_false] at ho ⊢; tauto),
      classifyBracket, hmt _ _ (by decide), hmo, hmo, hmt _ _ (by decide), hmo, hmo, hnb, hob, hoe]
  rw [computeText_plain, hcl]
  · simp only [evalForm, readSlots_ok ss hok, readLabel_ok]
    rfl
  · intro x hx
    simp only [List.mem_cons, List.mem_append, List.not_mem_nil, or_false] at hx
    rcases hx with rfl | hx | rfl
    · simp only [List.mem_cons, List.not_mem_nil, or_false] at ho
      rcases ho with rfl | rfl <;> decide
    · refine intercalate_not_bold _ ?_ x hx
      intro t ht
      rcases List.mem_cons.1 ht with rfl | ht
      · exact pyStr_not_bold _
      · exact slots_not_bold ss t ht
    · decide

/-- C82 is false for open strings with several slots in parentheses, the form the expression
printer of closed strings uses: the first one is followed by a bar, which the pattern does not admit,
so the text is never taken for an open string. -/
theorem C82_open_parentheses_missed (s : List (Bool × ℕ)) (hs : s ≠ [])
    (rest : List Char) : obMiddle (slotText (true, s) ++ '|' :: rest) = false := by
  have hb := ob_body s hs .paren .inDigit (by simp)
  have h0 : obStep .start '(' = .paren := by decide
  have h1 : obStep (obStep .inDigit ')') '|' = .dead := by decide
  have hdead : ∀ t : List Char, t.foldl obStep .dead = .dead := by
    intro t; induction t with
    | nil => rfl
    | cons _ _ ih => exact ih
  unfold obMiddle slotText
  simp only [if_true]
  simp only [List.foldl_append, List.foldl_cons, List.foldl_nil, h0, hb, h1, hdead]

example : classify "|(1+2)|(3+4)|5⟩".toList = .expression ∧ classify "⟨1|(2+3)|(4+5)|".toList = .expression ∧
    classify "|1+2|3+4|5⟩".toList = .openBegin ["1+2".toList, "3+4".toList] "5".toList '⟩' ∧
    classify "⟨1|(2+3)|(4+5)|6⟩".toList = .string '⟨' "1".toList ["(2+3)".toList, "(4+5)".toList] "6".toList '⟩' := by
  decide

end Lips

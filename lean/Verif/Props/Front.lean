import Verif.Model.Front
import Verif.Spec.Front
import Verif.Props.Indexing
import Verif.Props.Text

/-!
Properties C50, C82, C85: texts of invariants are read as what they stand for.
-/

namespace Lips

theorem digit_ne {c : Char} (h : c.isDigit = true) :
    c ≠ '|' ∧ c ≠ '(' ∧ c ≠ ')' ∧ c ≠ '+' ∧ c ≠ '-' ∧ c ≠ '_' := by
  refine ⟨?_, ?_, ?_, ?_, ?_, ?_⟩ <;> (rintro rfl; revert h; decide)

theorem pyStr_ne_nil (k : ℕ) : pyStr k ≠ [] := by
  have := isDigits_pyStr k
  intro h
  rw [h] at this
  revert this; decide

theorem isDigits_iff {t : List Char} : isDigits t = true ↔ t ≠ [] ∧ ∀ c ∈ t, c.isDigit = true := by
  simp [isDigits]

/-! ### The automata accept the texts -/

theorem nb_digits (t : List Char) (h : isDigits t = true) (q : NBq)
    (hq : q = .start ∨ q = .bar ∨ q = .op ∨ q = .paren ∨ q = .digit) : t.foldl nbStep q = .digit := by
  obtain ⟨hne, hd⟩ := isDigits_iff.1 h
  clear h
  induction t generalizing q with
  | nil => exact absurd rfl hne
  | cons c t ih =>
    have hc := hd c (by simp)
    obtain ⟨-, h2, -⟩ := digit_ne hc
    have hs : nbStep q c = .digit := by
      rcases hq with rfl | rfl | rfl | rfl | rfl <;> simp [nbStep, hc, h2]
    rw [List.foldl_cons, hs]
    cases t with
    | nil => rfl
    | cons c' t' => exact ih _ (by simp) (by simp) fun x hx => hd x (List.mem_cons_of_mem _ hx)

theorem nb_tail (ts : List (Bool × ℕ)) :
    (ts.flatMap fun u => (if u.1 then '+' else '-') :: pyStr u.2).foldl nbStep .digit = .digit := by
  induction ts with
  | nil => rfl
  | cons u ts ih =>
    rw [List.flatMap_cons, List.foldl_append, List.foldl_cons]
    have : nbStep .digit (if u.1 = true then '+' else '-') = .op := by cases u.1 <;> decide
    rw [this, nb_digits _ (isDigits_pyStr _) _ (by simp), ih]

theorem nb_body (s : List (Bool × ℕ)) (h : s ≠ []) (q : NBq)
    (hq : q = .start ∨ q = .bar ∨ q = .op ∨ q = .paren ∨ q = .digit) :
    (slotBody s).foldl nbStep q = .digit := by
  cases s with
  | nil => exact absurd rfl h
  | cons t ts => rw [slotBody, List.foldl_append, nb_digits _ (isDigits_pyStr _) _ hq, nb_tail]

theorem nb_slot (s : Bool × List (Bool × ℕ)) (h : s.2 ≠ []) (q : NBq)
    (hq : q = .start ∨ q = .bar ∨ q = .op) :
    (slotText s).foldl nbStep q = if s.1 then .close else .digit := by
  cases hs : s.1 with
  | true =>
    simp only [slotText, hs, if_true, List.foldl_cons, List.foldl_append, List.foldl_nil]
    have : nbStep q '(' = .paren := by rcases hq with rfl | rfl | rfl <;> decide
    rw [this, nb_body _ h _ (by simp)]
    decide
  | false =>
    simp only [slotText, hs, Bool.false_eq_true, if_false]
    exact nb_body _ h _ (by rcases hq with h | h | h <;> simp [h])

theorem nb_slots (slots : List (Bool × List (Bool × ℕ))) (hne : slots ≠ [])
    (h : ∀ s ∈ slots, s.2 ≠ []) (q : NBq) (hq : q = .start ∨ q = .bar ∨ q = .op) :
    (['|'].intercalate (slots.map slotText)).foldl nbStep q = .digit ∨
      (['|'].intercalate (slots.map slotText)).foldl nbStep q = .close := by
  induction slots generalizing q with
  | nil => exact absurd rfl hne
  | cons s slots ih =>
    cases slots with
    | nil =>
      simp only [List.map_cons, List.map_nil, List.intercalate_singleton]
      rw [nb_slot s (h s (by simp)) q hq]
      cases s.1 <;> simp
    | cons s' slots =>
      simp only [List.map_cons, List.intercalate_cons_cons, List.foldl_append]
      rw [nb_slot s (h s (by simp)) q hq]
      apply ih (by simp) (fun x hx => h x (List.mem_cons_of_mem _ hx))
      cases s.1
      · right; right; decide
      · right; left; decide

theorem nbMiddle_slots (slots : List (Bool × List (Bool × ℕ))) (hne : slots ≠ [])
    (h : ∀ s ∈ slots, s.2 ≠ []) : nbMiddle (['|'].intercalate (slots.map slotText)) = true := by
  unfold nbMiddle
  rcases nb_slots slots hne h .start (by simp) with h | h <;> rw [h]

/-! ### Splitting the texts -/

theorem bar_not_mem_pyStr (k : ℕ) : '|' ∉ pyStr k := fun h => (digit_ne (pyStr_digits k _ h)).1 rfl

theorem mem_slotBody {s : List (Bool × ℕ)} {c : Char} (h : c ∈ slotBody s) :
    c.isDigit = true ∨ c = '+' ∨ c = '-' := by
  cases s with
  | nil => simp [slotBody] at h
  | cons t ts =>
    simp only [slotBody, List.mem_append, List.mem_flatMap, List.mem_cons] at h
    rcases h with h | ⟨u, _, h | h⟩
    · exact .inl (pyStr_digits _ _ h)
    · cases hu : u.1 <;> simp [hu] at h <;> simp [h]
    · exact .inl (pyStr_digits _ _ h)

theorem bar_not_mem_slotText (s : Bool × List (Bool × ℕ)) : '|' ∉ slotText s := by
  have hb : '|' ∉ slotBody s.2 := by
    intro h
    rcases mem_slotBody h with h | h | h
    · exact (digit_ne h).1 rfl
    · revert h; decide
    · revert h; decide
  unfold slotText
  split
  · simp [hb]
  · exact hb

theorem matchNB_text (o : Char) (a : ℕ) (slots : List (Bool × List (Bool × ℕ))) (d : ℕ) (c : Char)
    (ho : o ∈ ['<', '⟨', '[']) (hc : c ∈ ['⟩', ']', '>']) (hne : slots ≠ []) (h : ∀ s ∈ slots, s.2 ≠ []) :
    matchNB (stringText o a slots d c) = some (o, pyStr a, slots.map slotText, pyStr d, c) := by
  have hs : (['|'].intercalate (pyStr a :: (slots.map slotText ++ [pyStr d]))).splitOn '|' =
      pyStr a :: (slots.map slotText ++ [pyStr d]) := by
    apply List.splitOn_intercalate
    · intro l hl
      simp only [List.mem_cons, List.mem_append, List.mem_map, List.not_mem_nil, or_false] at hl
      rcases hl with rfl | ⟨s, _, rfl⟩ | rfl
      · exact bar_not_mem_pyStr a
      · exact bar_not_mem_slotText s
      · exact bar_not_mem_pyStr d
    · simp
  have h1 := nbMiddle_slots slots hne h
  simp only [matchNB, stringText, List.getLast?_append, List.getLast?_singleton, Option.some_or,
    List.dropLast_concat, hs]
  rw [if_pos ⟨ho, hc, isDigits_pyStr a, isDigits_pyStr d, h1⟩]

/-! ### C50 -/

theorem stripParens_append (a b : List Char) : stripParens (a ++ b) = stripParens a ++ stripParens b := by
  simp [stripParens]

theorem stripParens_body (s : List (Bool × ℕ)) : stripParens (slotBody s) = slotBody s := by
  rw [stripParens, List.filter_eq_self]
  intro c hc
  rcases mem_slotBody hc with h | rfl | rfl
  · obtain ⟨-, h1, h2, -⟩ := digit_ne h
    simp [h1, h2]
  · decide
  · decide

theorem stripParens_slot (s : Bool × List (Bool × ℕ)) : stripParens (slotText s) = slotBody s.2 := by
  unfold slotText
  split
  · have : '(' :: (slotBody s.2 ++ [')']) = ['('] ++ (slotBody s.2 ++ [')']) := rfl
    rw [this, stripParens_append, stripParens_append, stripParens_body]
    simp [stripParens]
  · exact stripParens_body _

theorem slotBody_plus (ks : List ℕ) : slotBody (ks.map fun k => (true, k)) = ['+'].intercalate (ks.map pyStr) := by
  cases ks with
  | nil => rfl
  | cons k ks =>
    simp only [List.map_cons, slotBody]
    induction ks generalizing k with
    | nil => simp
    | cons k' ks ih =>
      simp only [List.map_cons, List.intercalate_cons_cons, List.flatMap_cons, if_true]
      rw [← ih k']
      simp

theorem mapM_ok {α β : Type*} (f : α → Except Err β) (g : α → β) (l : List α) (h : ∀ x ∈ l, f x = .ok (g x)) :
    l.mapM f = .ok (l.map g) := by
  induction l with
  | nil => rfl
  | cons x l ih =>
    rw [List.mapM_cons, h x (by simp), ih fun y hy => h y (List.mem_cons_of_mem _ hy)]
    rfl

theorem pyInt_ok (k : ℕ) : pyInt (pyStr k) = .ok k := by rw [pyInt, if_pos (isDigits_pyStr k), pyInt_pyStr]

theorem lNBToString_eq (first : Char) (s : ℕ) (ms : List (List ℕ)) (hne : ms ≠ []) (e : ℕ) (last : Char) :
    lNBToString first s ms e last =
      stringText first s (ms.map fun ks => (true, ks.map fun k => (true, k))) e last := by
  have : (ms.map fun item => ['('] ++ ['+'].intercalate (item.map pyStr) ++ [')']) =
      (ms.map fun ks => (true, ks.map fun k => (true, k))).map slotText := by
    rw [List.map_map]
    refine List.map_congr_left fun ks _ => ?_
    simp [slotText, slotBody_plus]
  have hcat : ∀ (l : List (List Char)) (x : List Char), l ≠ [] →
      ['|'].intercalate (l ++ [x]) = ['|'].intercalate l ++ ['|'] ++ x := by
    intro l x hl
    induction l with
    | nil => exact absurd rfl hl
    | cons y l ih =>
      cases l with
      | nil => simp
      | cons z l =>
        have := ih (by simp)
        simp only [List.cons_append, List.intercalate_cons_cons] at this ⊢
        rw [this]; simp
  rw [lNBToString, stringText, this]
  obtain ⟨m, ms', rfl⟩ := List.exists_cons_of_ne_nil hne
  have hc := hcat ((m :: ms').map (fun ks => (true, ks.map fun k => (true, k))) |>.map slotText) (pyStr e) (by simp)
  have hcons : ∀ (x y : List Char) (l : List (List Char)),
      ['|'].intercalate (x :: (y :: l)) = x ++ ['|'] ++ ['|'].intercalate (y :: l) := by
    intro x y l; simp
  simp only [List.map_cons, List.cons_append] at hc ⊢
  rw [hcons, hc]
  simp

/-- C50: unpacking the text made from start, slots and end gives them back, for labels of any number
of digits and any number of slots. -/
theorem C50_round_trip (first last : Char) (s : ℕ) (ms : List (List ℕ)) (e : ℕ)
    (hf : first ∈ ['<', '⟨', '[']) (hl : last ∈ ['⟩', ']', '>']) (hne : ms ≠ []) (hm : ∀ m ∈ ms, m ≠ []) :
    getLNB (lNBToString first s ms e last) = .ok (s, ms, e) := by
  rw [getLNB, lNBToString_eq _ _ _ hne, matchNB_text _ _ _ _ _ hf hl (by simpa using hne) (by simpa using hm)]
  simp only [pyInt_ok]
  have : ((ms.map fun ks => (true, ks.map fun k => (true, k))).map slotText).mapM
      (fun entry => ((stripParens entry).splitOn '+').mapM pyInt) = .ok ms := by
    rw [List.map_map, List.mapM_map]
    rw [mapM_ok _ id _ fun ks hks => ?_, List.map_id]
    simp only [Function.comp, stripParens_slot, slotBody_plus, id]
    rw [List.splitOn_intercalate, List.mapM_map, mapM_ok _ id _ fun k _ => ?_, List.map_id]
    · exact pyInt_ok k
    · intro l hl h
      obtain ⟨k, _, rfl⟩ := List.mem_map.1 hl
      exact (digit_ne (pyStr_digits k _ h)).2.2.2.1 rfl
    · simpa using hm ks hks
  rw [this]

/-- C50: with no slot, or with an empty one, unpacking raises IndexError: the text is not a spinor
string. -/
theorem C50_empty_slot (first last : Char) (s e : ℕ) :
    getLNB (lNBToString first s [] e last) = .error .indexError ∧
    getLNB (lNBToString first s [[]] e last) = .error .indexError := by
  have h1 : (pyStr s ++ '|' :: '|' :: pyStr e).splitOn '|' = [pyStr s, [], pyStr e] := by
    rw [List.splitOn_append_cons_self_of_not_mem (bar_not_mem_pyStr s)]
    have : '|' :: pyStr e = [] ++ '|' :: pyStr e := rfl
    rw [this, List.splitOn_append_cons_self_of_not_mem (by simp),
      List.splitOn_eq_singleton (bar_not_mem_pyStr e)]
  have h2 : (pyStr s ++ '|' :: '(' :: ')' :: '|' :: pyStr e).splitOn '|' = [pyStr s, ['(', ')'], pyStr e] := by
    rw [List.splitOn_append_cons_self_of_not_mem (bar_not_mem_pyStr s)]
    have : '(' :: ')' :: '|' :: pyStr e = ['(', ')'] ++ '|' :: pyStr e := rfl
    rw [this, List.splitOn_append_cons_self_of_not_mem (by decide),
      List.splitOn_eq_singleton (bar_not_mem_pyStr e)]
  have a1 : lNBToString first s [] e last = first :: ((pyStr s ++ '|' :: '|' :: pyStr e) ++ [last]) := by
    simp [lNBToString]
  have a2 : lNBToString first s [[]] e last =
      first :: ((pyStr s ++ '|' :: '(' :: ')' :: '|' :: pyStr e) ++ [last]) := by
    simp [lNBToString]
  constructor
  · rw [a1, getLNB, matchNB]
    simp only [List.getLast?_append, List.getLast?_singleton, Option.some_or, List.dropLast_concat, h1]
    have : nbMiddle [] = false := by decide
    simp [this]
  · rw [a2, getLNB, matchNB]
    simp only [List.getLast?_append, List.getLast?_singleton, Option.some_or, List.dropLast_concat, h2]
    have : nbMiddle ['(', ')'] = false := by decide
    simp [this]

/-! Labels with one and two digits. -/
example : lNBToString '⟨' 1 [[2, 13], [4]] 11 '⟩' = "⟨1|(2+13)|(4)|11⟩".toList := by decide

end Lips

import Verif.Props.DispatchTraces

/-!
Property C85: parentheses inside a slot of a spinor string.
-/

namespace Lips

variable {K : Type*} [Field K] {n : ℕ}

/-- What the code reads: removing the parentheses leaves a flat sum in which a minus sign applies to
the first label after it only. -/
def SignedSum.flat : SignedSum → List (Bool × ℕ)
  | .label k => [(true, k)]
  | .plus a b => a.flat ++ b.flat
  | .minus a b => a.flat ++ (match b.flat with
    | [] => []
    | t :: ts => (!t.1, t.2) :: ts)

/-- Value of a flat sum. -/
def flatValue {M : Type*} [AddCommGroup M] (f : ℕ → M) (l : List (Bool × ℕ)) : M :=
  (l.map fun t => if t.1 then f t.2 else -f t.2).sum

theorem SignedSum.flat_head (e : SignedSum) : ∃ k ts, e.flat = (true, k) :: ts := by
  induction e with
  | label k => exact ⟨k, [], rfl⟩
  | plus a b iha ihb =>
    obtain ⟨k, ts, h⟩ := iha
    exact ⟨k, ts ++ b.flat, by simp [flat, h]⟩
  | minus a b iha ihb =>
    obtain ⟨k, ts, h⟩ := iha
    exact ⟨k, _, by rw [flat, h]; rfl⟩

theorem slotBody_append (s : List (Bool × ℕ)) (hs : s ≠ []) (b : Bool) (k : ℕ) (ts : List (Bool × ℕ)) :
    slotBody (s ++ (b, k) :: ts) = slotBody s ++ (if b then '+' else '-') :: slotBody ((true, k) :: ts) := by
  obtain ⟨t, s', rfl⟩ := List.exists_cons_of_ne_nil hs
  simp [slotBody]

theorem SignedSum.text_plus (a b : SignedSum) :
    ∃ l r, (SignedSum.plus a b).text = a.text ++ '+' :: (l ++ b.text ++ r) ∧ stripParens l = [] ∧ stripParens r = [] := by
  cases b with
  | label k => exact ⟨[], [], by simp [text], by decide, by decide⟩
  | plus x y => exact ⟨['('], [')'], by simp [text], by decide, by decide⟩
  | minus x y => exact ⟨['('], [')'], by simp [text], by decide, by decide⟩

theorem SignedSum.text_minus (a b : SignedSum) :
    ∃ l r, (SignedSum.minus a b).text = a.text ++ '-' :: (l ++ b.text ++ r) ∧ stripParens l = [] ∧ stripParens r = [] := by
  cases b with
  | label k => exact ⟨[], [], by simp [text], by decide, by decide⟩
  | plus x y => exact ⟨['('], [')'], by simp [text], by decide, by decide⟩
  | minus x y => exact ⟨['('], [')'], by simp [text], by decide, by decide⟩

/-- Removing the parentheses of a sum leaves the text of the flat sum. -/
theorem SignedSum.strip (e : SignedSum) : stripParens e.text = slotBody e.flat := by
  have hcons : ∀ (c : Char) (t : List Char), c ≠ '(' → c ≠ ')' → stripParens (c :: t) = c :: stripParens t := by
    intro c t h1 h2; simp [stripParens, h1, h2]
  induction e with
  | label k => exact stripParens_body [(true, k)] ▸ by simp [text, slotBody]
  | plus a b iha ihb =>
    obtain ⟨l, r, h, hl, hr⟩ := text_plus a b
    obtain ⟨k, ts, hb⟩ := b.flat_head
    obtain ⟨k', ts', ha⟩ := a.flat_head
    rw [h, stripParens_append, hcons _ _ (by decide) (by decide), stripParens_append, stripParens_append, hl, hr,
      iha, ihb, flat, hb, slotBody_append _ (by rw [ha]; simp)]
    simp
  | minus a b iha ihb =>
    obtain ⟨l, r, h, hl, hr⟩ := text_minus a b
    obtain ⟨k, ts, hb⟩ := b.flat_head
    obtain ⟨k', ts', ha⟩ := a.flat_head
    rw [h, stripParens_append, hcons _ _ (by decide) (by decide), stripParens_append, stripParens_append, hl, hr,
      iha, ihb, flat, hb]
    simp only
    rw [slotBody_append _ (by rw [ha]; simp)]
    simp

/-- All labels of a sum are particles of the point. -/
def SignedSum.InRange (n : ℕ) : SignedSum → Prop
  | .label k => 1 ≤ k ∧ k ≤ n
  | .plus a b => a.InRange n ∧ b.InRange n
  | .minus a b => a.InRange n ∧ b.InRange n

theorem SignedSum.flat_inRange {n : ℕ} (e : SignedSum) (h : e.InRange n) : ∀ t ∈ e.flat, 1 ≤ t.2 ∧ t.2 ≤ n := by
  induction e with
  | label k => simpa [flat, InRange] using h
  | plus a b iha ihb =>
    intro t ht
    rcases List.mem_append.1 ht with ht | ht
    · exact iha h.1 t ht
    · exact ihb h.2 t ht
  | minus a b iha ihb =>
    intro t ht
    obtain ⟨k, ts, hb⟩ := b.flat_head
    rw [flat, hb] at ht
    rcases List.mem_append.1 ht with ht | ht
    · exact iha h.1 t ht
    · rcases List.mem_cons.1 ht with rfl | ht
      · exact ihb h.2 (true, k) (by rw [hb]; simp)
      · exact ihb h.2 t (by rw [hb]; simp [ht])

/-- What a slot with parentheses is evaluated to: the sum without the parentheses. -/
theorem readSlot_sum (ps : Point K n) (f : Particle K → M2 K) (e : SignedSum) (h : e.InRange n) :
    ∃ s : Slot n, readSlot n e.text = .ok s ∧
      ∀ g : ℕ → M2 K, (∀ l : Fin n, g (l + 1) = f (ps l)) → slotMat f ps s = flatValue g e.flat := by
  obtain ⟨k, ts, hf⟩ := e.flat_head
  have hr := e.flat_inRange h
  have hex : ∀ l : List (Bool × ℕ), (∀ t ∈ l, 1 ≤ t.2 ∧ t.2 ≤ n) →
      ∃ s : Slot n, l = s.map fun t => (t.1, (t.2 : ℕ) + 1) := by
    intro l
    induction l with
    | nil => intro _; exact ⟨[], rfl⟩
    | cons t l ih =>
      intro hl
      obtain ⟨s, hs⟩ := ih fun x hx => hl x (by simp [hx])
      have ht := hl t (by simp)
      refine ⟨(t.1, ⟨t.2 - 1, by omega⟩) :: s, ?_⟩
      rw [List.map_cons, ← hs]
      congr 1
      ext <;> simp
      omega
  obtain ⟨s, hs⟩ := hex e.flat hr
  refine ⟨s, ?_, ?_⟩
  · have hok : SlotWritten s := by
      cases s with
      | nil => rw [hs] at hf; simp at hf
      | cons t s =>
        rw [hs] at hf
        simp only [List.map_cons, List.cons.injEq, Prod.mk.injEq] at hf
        exact ⟨t.2, s, by rw [← hf.1.1]⟩
    have := readSlot_ok (plain s) hok
    unfold readSlot at this ⊢
    rw [stripParens_slot] at this
    rw [e.strip, hs]
    exact this
  · intro g hg
    rw [slotMat, flatValue, hs, List.map_map]
    congr 1
    refine List.map_congr_left fun t _ => ?_
    simp only [Function.comp, hg]

/-- No minus sign stands before a parenthesis. -/
def SignedSum.NoGroupMinus : SignedSum → Prop
  | .label _ => True
  | .plus a b => a.NoGroupMinus ∧ b.NoGroupMinus
  | .minus a (.label _) => a.NoGroupMinus
  | .minus _ _ => False

theorem SignedSum.flat_value {M : Type*} [AddCommGroup M] (f : ℕ → M) (e : SignedSum) (h : e.NoGroupMinus) :
    flatValue f e.flat = e.value f := by
  induction e with
  | label k => simp [flat, flatValue, value]
  | plus a b iha ihb =>
    rw [flat, flatValue, List.map_append, List.sum_append, value, ← iha h.1, ← ihb h.2]
    rfl
  | minus a b iha ihb =>
    cases b with
    | label k =>
      rw [flat, flatValue, List.map_append, List.sum_append, value, ← iha h]
      simp [flat, flatValue, value, sub_eq_add_neg]
    | plus x y => exact absurd h (by simp [NoGroupMinus])
    | minus x y => exact absurd h (by simp [NoGroupMinus])

/-- C85, where no minus sign stands before a parenthesis: the slot is evaluated as the sum it stands
for. What is missing is the minus sign before a parenthesis, where the claim is false. -/
theorem C85_parentheses_partial (ps : Point K n) (f : Particle K → M2 K) (e : SignedSum)
    (h : e.InRange n) (hm : e.NoGroupMinus) :
    ∃ s : Slot n, readSlot n e.text = .ok s ∧
      ∀ g : ℕ → M2 K, (∀ l : Fin n, g (l + 1) = f (ps l)) → slotMat f ps s = e.value g := by
  obtain ⟨s, h1, h2⟩ := readSlot_sum ps f e h
  exact ⟨s, h1, fun g hg => by rw [h2 g hg, e.flat_value g hm]⟩

/-- C85 is false after a minus sign: the text `⟨a|b-(c+d)|x]` is accepted and evaluated as
`⟨a|b-c+d|x]`. -/
theorem C85_minus_before_parenthesis (ps : Point K n) (fuel : ℕ) (a b c d x : Fin n) :
    computeText ps fuel ('⟨' :: (pyStr (a + 1) ++ '|' ::
      ((SignedSum.minus (.label (b + 1)) (.plus (.label (c + 1)) (.label (d + 1)))).text ++ '|' :: pyStr (x + 1)) ++ [']'])) =
      some (asNum (computeNB ps '⟨' a [[(true, b), (false, c), (true, d)]] x ']')) := by
  set e := SignedSum.minus (.label (b + 1)) (.plus (.label (c + 1)) (.label (d + 1))) with he
  have htext : e.text = pyStr (b + 1) ++ '-' :: '(' :: (pyStr (c + 1) ++ '+' :: pyStr (d + 1) ++ [')']) := by
    simp [he, SignedSum.text]
  have hbar : '|' ∉ e.text := by
    rw [htext]
    simp [bar_not_mem_pyStr]
  have hread : readSlot n e.text = .ok [(true, b), (false, c), (true, d)] := by
    have := readSlot_ok (plain [(true, b), (false, c), (true, d)]) ⟨_, _, rfl⟩
    unfold readSlot at this ⊢
    rw [stripParens_slot] at this
    rw [e.strip, he]
    exact this
  have hmid : nbMiddle e.text = true := by
    have h1 := nb_digits _ (isDigits_pyStr ((b : ℕ) + 1)) .start (by simp)
    have h2 := nb_digits _ (isDigits_pyStr ((c : ℕ) + 1)) .paren (by simp)
    have h3 := nb_digits _ (isDigits_pyStr ((d : ℕ) + 1)) .op (by simp)
    have h4 : nbStep (nbStep .digit '-') '(' = .paren := by decide
    have h5 : nbStep .digit '+' = .op := by decide
    have h6 : nbStep .digit ')' = .close := by decide
    unfold nbMiddle
    rw [htext]
    simp only [List.foldl_append, List.foldl_cons, List.foldl_nil, h1, h2, h3, h4, h5, h6]
  have hs : (pyStr ((a : ℕ) + 1) ++ '|' :: (e.text ++ '|' :: pyStr ((x : ℕ) + 1))).splitOn '|' =
      [pyStr (a + 1), e.text, pyStr (x + 1)] := by
    rw [List.splitOn_append_cons_self_of_not_mem (bar_not_mem_pyStr _),
      List.splitOn_append_cons_self_of_not_mem hbar, List.splitOn_eq_singleton (bar_not_mem_pyStr _)]
  set rest := pyStr ((a : ℕ) + 1) ++ '|' :: (e.text ++ '|' :: pyStr ((x : ℕ) + 1)) with hrest
  have hnb : matchNB ('⟨' :: (rest ++ [']'])) = some ('⟨', pyStr (a + 1), [e.text], pyStr (x + 1), ']') := by
    simp only [matchNB, List.getLast?_append, List.getLast?_singleton, Option.some_or, List.dropLast_concat, hs]
    simp only [List.getLast?_cons_cons, List.getLast?_singleton, List.dropLast_cons_cons, List.dropLast_singleton]
    rw [if_pos ⟨by decide, by decide, isDigits_pyStr _, isDigits_pyStr _, by simpa using hmid⟩]
  have hcl : classify ('⟨' :: (rest ++ [']'])) = .string '⟨' (pyStr (a + 1)) [e.text] (pyStr (x + 1)) ']' := by
    have h2 : ∀ u v, (rest ++ [']']).dropLast.splitOn '|' ≠ [u, v] := by
      intro u v; rw [List.dropLast_concat, hs]; simp
    have hco : ∀ u ∈ (rest ++ [']']).getLast?, u ∉ ['|'] := by
      intro u hu
      simp at hu
      subst hu; decide
    rw [classify_bracket _ _ (by decide), classifyBracket, matchTwo_none (.inr h2), matchOne_none (.inr hco),
      matchOne_none (.inl (by decide)), matchTwo_none (.inl (by decide)), matchOne_none (.inl (by decide)),
      matchOne_none (.inl (by decide)), hnb]
  rw [computeText_plain, hcl]
  · simp only [evalForm, evalString, readLabel_ok, readSlots, List.mapM_cons, List.mapM_nil, hread, List.length_singleton]
    rw [if_neg (by decide)]
    rfl
  · intro y hy
    have hdig := pyStr_not_bold
    rw [hrest, htext] at hy
    simp only [List.mem_cons, List.mem_append, List.not_mem_nil, or_false] at hy
    have hcs : ∀ z : Char, z ∈ ['⟨', '|', '-', '(', '+', ')', ']'] → z ∉ boldChars := by decide
    have : y ∈ ['⟨', '|', '-', '(', '+', ')', ']'] ∨ y ∈ pyStr ((a : ℕ) + 1) ∨ y ∈ pyStr ((b : ℕ) + 1) ∨
        y ∈ pyStr ((c : ℕ) + 1) ∨ y ∈ pyStr ((d : ℕ) + 1) ∨ y ∈ pyStr ((x : ℕ) + 1) := by
      simp only [List.mem_cons, List.not_mem_nil, or_false]
      tauto
    rcases this with h | h | h | h | h | h
    · exact hcs y h
    all_goals exact hdig _ y h

/-- C85: the value differs from the one the text stands for by `2⟨a|d|x]`. -/
theorem C85_wrong_by (c : Ctx K) (ps : Point K n) (a b k d x : Fin n) (r l : Fin n → V2 K)
    (h : ∀ i, IsMassless c (ps i) (r i) (l i)) :
    ∃ right wrong, computeNB ps '⟨' a [[(true, b), (false, k), (false, d)]] x ']' = .ok right ∧
      computeNB ps '⟨' a [[(true, b), (false, k), (true, d)]] x ']' = .ok wrong ∧
      ∃ v, computeNB ps '⟨' a [[(true, d)]] x ']' = .ok v ∧ wrong = right + 2 * v := by
  have ha := (h a).toHasSpinors.r_u
  have hx := (h x).toHasSpinors.l_u
  have hsx : nbSyntaxError 1 '⟨' ']' = false := by decide
  simp only [computeNB, List.length_singleton, hsx, Bool.false_eq_true, if_false, if_true,
    show ¬ (']' = '⟩') by decide, ha, hx, need]
  refine ⟨_, _, rfl, rfl, _, rfl, ?_⟩
  simp only [chain, decide_true, slotMat, List.map_cons, List.map_nil, List.sum_cons, List.sum_nil, mul_one, if_true,
    Bool.false_eq_true, if_false, add_zero, Matrix.vecMul_add, Matrix.vecMul_neg]
  simp only [dot2, Pi.add_apply, Pi.neg_apply]
  ring

end Lips

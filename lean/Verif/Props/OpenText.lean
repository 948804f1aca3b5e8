import Verif.Props.SpinText

/-!
Property C106 on texts: spinors with an open index, `⟨a|`, `[a|`, `|a⟩` and `|a]`, are put in `oPs('..')` by `_parse` for labels of any number of
digits (particles_eval.py:31-35, 109-164).
-/

namespace Lips

open RE

/-! ### Patterns that need a character -/

/-- Every match has one of these characters. -/
def Needs (r : RE) (l : List Char) : Prop := ∀ pre u post, r.Takes pre u post → ∃ c ∈ l, c ∈ u

theorem needs_lit {s : String} {l : List Char} (h : ∃ c ∈ l, c ∈ s.toList) : Needs (lit s) l := fun pre u post ht => by
  rw [takes_lit] at ht
  rw [ht]; exact h

theorem needs_of {s : String} {l : List Char} (h : s.toList ⊆ l) : Needs (of s) l := fun pre u post ht => by
  obtain ⟨c, hc, rfl⟩ := takes_of.1 ht
  exact ⟨c, h hc, by simp⟩

theorem needs_cat {r : RE} {rs : List RE} {l : List Char} (i : ℕ) (hi : rs[i]? = some r) (h : Needs r l) : Needs (cat rs) l := by
  induction rs generalizing i with
  | nil => simp at hi
  | cons a rs ih =>
    intro pre u post ht
    obtain ⟨v, w, rfl, h1, h2⟩ := takes_cat_cons.1 ht
    rcases i with _ | i
    · simp only [List.getElem?_cons_zero, Option.some.injEq] at hi
      subst hi
      obtain ⟨c, hc, hu⟩ := h _ _ _ h1
      exact ⟨c, hc, List.mem_append_left _ hu⟩
    · obtain ⟨c, hc, hu⟩ := ih i (by simpa using hi) _ _ _ h2
      exact ⟨c, hc, List.mem_append_right _ hu⟩

theorem Needs.same {r : RE} {l t : List Char} {f : List Char → List Char} (h : Needs r l) (ht : FreeOf l t) : r.sub f 0 [] t = t := by
  apply sub_none
  intro b1 x b2 e
  rw [run_eq_nil]
  intro u post hu hk
  obtain ⟨c, hc, hm⟩ := h _ _ _ hk
  refine ht c hc ?_
  rw [e]
  have h2 : c ∈ x :: (b2 ++ []) := by rw [hu]; simp [hm]
  rw [List.append_nil] at h2
  exact List.mem_append_right _ h2

/-- Every match has two bars. -/
def TwoBars (r : RE) : Prop := ∀ pre u post, r.Takes pre u post → 2 ≤ u.count '|'

theorem TwoBars.same {r : RE} {t : List Char} {f : List Char → List Char} (h : TwoBars r) (ht : t.count '|' ≤ 1) : r.sub f 0 [] t = t := by
  apply sub_none
  intro b1 x b2 e
  rw [run_eq_nil]
  intro u post hu hk
  have h1 := h _ _ _ hk
  have h2 : (x :: (b2 ++ [])).count '|' = u.count '|' + post.count '|' := by rw [hu, List.count_append]
  have h3 : t.count '|' = b1.count '|' + (x :: b2).count '|' := by rw [e, List.count_append]
  rw [List.append_nil] at h2
  omega

theorem count_bars {rs : List RE} (i j : ℕ) (hij : i < j) (hi : rs[i]? = some (lit "|")) (hj : rs[j]? = some (lit "|")) : TwoBars (cat rs) := by
  have one : ∀ (rs : List RE) (j : ℕ), rs[j]? = some (lit "|") → ∀ pre u post, (cat rs).Takes pre u post → 1 ≤ u.count '|' := by
    intro rs
    induction rs with
    | nil => intro j hj; simp at hj
    | cons a rs ih =>
      intro j hj pre u post ht
      obtain ⟨v, w, rfl, h1, h2⟩ := takes_cat_cons.1 ht
      rw [List.count_append]
      rcases j with _ | j
      · simp only [List.getElem?_cons_zero, Option.some.injEq] at hj
        subst hj
        rw [takes_lit] at h1
        have : v.count '|' = 1 := by rw [h1]; decide
        omega
      · have := ih j (by simpa using hj) _ _ _ h2
        omega
  induction rs generalizing i j with
  | nil => simp at hi
  | cons a rs ih =>
    intro pre u post ht
    obtain ⟨v, w, rfl, h1, h2⟩ := takes_cat_cons.1 ht
    rw [List.count_append]
    obtain ⟨j, rfl⟩ : ∃ k, j = k + 1 := ⟨j - 1, by omega⟩
    rcases i with _ | i
    · simp only [List.getElem?_cons_zero, Option.some.injEq] at hi
      subst hi
      rw [takes_lit] at h1
      have h3 : v.count '|' = 1 := by rw [h1]; decide
      have := one rs j (by simpa using hj) _ _ _ h2
      omega
    · have := ih i j (by omega) (by simpa using hi) (by simpa using hj) _ _ _ h2
      omega

/-! ### The substitutions for names -/

def nameLetters : List Char := ['s', 'S', 'm', 'M', 'o', 'μ', 'Ω', 'Π', 't', 'Δ']

/-- Names of invariants have a letter, or an opening and a closing bracket. -/
theorem names_same {t : List Char} (hl : FreeOf nameLetters t) (hb : FreeOf ['⟩', ']', '>'] t ∨ FreeOf ['⟨', '[', '<'] t) :
    runPasses passesNames t = t := by
  have key : ∀ (r : RE) (f : List Char → List Char), Needs r nameLetters ∨ (Needs r ['⟩', ']', '>'] ∧ Needs r ['⟨', '[', '<']) →
      r.sub f 0 [] t = t := by
    rintro r f (h | ⟨h1, h2⟩)
    · exact h.same hl
    · rcases hb with hb | hb
      · exact h1.same hb
      · exact h2.same hb
  simp only [passesNames, runPasses, List.foldl_cons, List.foldl_nil]
  rw [key eA2bis _ (.inr ⟨needs_cat 3 rfl (needs_lit (by decide)), needs_cat 0 rfl (needs_lit (by decide))⟩),
    key eA2 _ (.inr ⟨needs_cat 4 rfl (needs_lit (by decide)), needs_cat 0 rfl (needs_lit (by decide))⟩),
    key eS2bis _ (.inr ⟨needs_cat 3 rfl (needs_lit (by decide)), needs_cat 0 rfl (needs_lit (by decide))⟩),
    key eS2 _ (.inr ⟨needs_cat 4 rfl (needs_lit (by decide)), needs_cat 0 rfl (needs_lit (by decide))⟩),
    key eSijk _ (.inl (needs_cat 0 rfl (needs_of (by decide)))),
    key eMi _ (.inl (needs_cat 0 rfl (needs_of (by decide)))),
    key _ _ (.inl (needs_cat 1 rfl (needs_lit (by decide)))),
    key eMVar _ (.inl (needs_cat 1 rfl (needs_of (by decide)))),
    key eOijk _ (.inl (needs_cat 0 rfl (needs_lit (by decide)))),
    key ePijk _ (.inl (needs_cat 0 rfl (needs_lit (by decide)))),
    key etr5 _ (.inl (needs_cat 0 rfl (needs_lit (by decide)))),
    key etr _ (.inl (needs_cat 0 rfl (needs_lit (by decide)))),
    key eDadj _ (.inl (needs_cat 0 rfl (needs_lit (by decide)))),
    key eDnon _ (.inl (needs_cat 0 rfl (needs_lit (by decide)))),
    key eNB _ (.inr ⟨needs_cat 6 rfl (needs_of (by decide)), needs_cat 0 rfl (needs_of (by decide))⟩)]

/-! ### The last substitutions -/

/-- A digit and this character next to each other. -/
theorem pair_left_same {r : RE} {f : List Char → List Char} {c : Char}
    (hr : ∀ pre u post, r.Takes pre u post → ∃ d, u = [d, c] ∧ d.isDigit = true) {a b : List Char}
    (ha : ∀ x ∈ a, x.isDigit = false) (hb : c ∉ b) : r.sub f 0 [] (a ++ b) = a ++ b := by
  apply sub_none
  intro b1 x b2 e
  rw [run_eq_nil]
  intro u post hu hk
  obtain ⟨d, rfl, hd⟩ := hr _ _ _ hk
  rw [List.append_nil] at hu
  rw [hu] at e
  simp only [List.cons_append, List.nil_append] at e
  rcases List.append_eq_append_iff.1 e with ⟨q, h1, h2⟩ | ⟨q, h1, h2⟩
  · exact hb (by rw [h2]; simp)
  · rcases q with _ | ⟨y, q⟩
    · exact hb (by rw [List.nil_append] at h2; rw [← h2]; simp)
    · simp only [List.cons_append, List.cons.injEq] at h2
      have := ha y (by rw [h1]; simp)
      rw [← h2.1, hd] at this
      simp at this

/-- A parenthesis and something after it. -/
theorem pair_last_same {r : RE} {f : List Char → List Char}
    (hr : ∀ pre u post, r.Takes pre u post → ∃ y, u = [')', y]) {b : List Char} (hb : ')' ∉ b) :
    r.sub f 0 [] (b ++ [')']) = b ++ [')'] := by
  apply sub_none
  intro b1 x b2 e
  rw [run_eq_nil]
  intro u post hu hk
  obtain ⟨y, rfl⟩ := hr _ _ _ hk
  rw [List.append_nil] at hu
  rw [hu] at e
  simp only [List.cons_append, List.nil_append] at e
  rcases List.append_eq_append_iff.1 e with ⟨q, h1, h2⟩ | ⟨q, h1, h2⟩
  · have := congrArg List.length h2
    simp at this
    omega
  · rcases q with _ | ⟨z, q⟩
    · simp at h2
    · simp only [List.cons_append, List.cons.injEq] at h2
      exact hb (by rw [h1, ← h2.1]; simp)

/-- What the last substitutions leave as it is. -/
theorem end_same {t : List Char} (ht : FreeOf ['s', 'o', '(', ')', 'q', '/', 'b'] t) : runPasses passesEnd (wrap t) = wrap t := by
  have e1 : wrap t = "oPs('".toList ++ (t ++ "')".toList) := by simp [wrap]
  have e2 : wrap t = ("oPs('".toList ++ t ++ ['\'']) ++ [')'] := by simp [wrap]
  have hfree : ∀ l, l ⊆ ['q', '/', 'b'] → FreeOf l (wrap t) := by
    intro l hl
    refine FreeOf.sub (l := ['q', '/', 'b']) ?_ hl
    exact (FreeOf.append (by unfold FreeOf; decide) (ht.sub (by decide))).append (by unfold FreeOf; decide)
  have left : ∀ (r : RE) (c : Char) (f : List Char → List Char), c ∈ ['s', 'o', '('] →
      (∀ pre u post, r.Takes pre u post → ∃ d, u = [d, c] ∧ d.isDigit = true) → r.sub f 0 [] (wrap t) = wrap t := by
    intro r c f hc hr
    rw [e1]
    refine pair_left_same hr (by decide) ?_
    have h3 : c ∉ t := ht c (by clear hr; revert c; decide)
    have h4 : c ∉ "')".toList := by clear hr h3; revert c; decide
    simp only [List.mem_append, not_or]
    exact ⟨h3, h4⟩
  have last : ∀ (r : RE) (f : List Char → List Char), (∀ pre u post, r.Takes pre u post → ∃ y, u = [')', y]) →
      r.sub f 0 [] (wrap t) = wrap t := by
    intro r f hr
    rw [e2]
    refine pair_last_same hr ?_
    simp only [List.mem_append, not_or]
    exact ⟨⟨by decide, ht _ (by decide)⟩, by decide⟩
  simp only [passesEnd, replace, runPasses, List.foldl_cons, List.foldl_nil]
  rw [(needs_lit (s := "sqrt") (l := ['q']) (by decide)).same (hfree _ (by decide)),
    left (cat [dig, lit "s"]) 's' _ (by decide) ?_, left (cat [dig, lit "o"]) 'o' _ (by decide) ?_,
    left (cat [notAfter "tr", dig, lit "("]) '(' _ (by decide) ?_, last (cat [lit ")", dig]) _ ?_, last (lit ")(") _ ?_, last (lit ")o") _ ?_,
    (needs_cat (l := ['/']) 2 rfl (needs_lit (by decide))).same (hfree _ (by decide)),
    (needs_cat (l := ['b']) 1 rfl (needs_lit (by decide))).same (hfree _ (by decide))]
  · intro pre u post h
    rw [takes_lit] at h
    exact ⟨'o', h⟩
  · intro pre u post h
    rw [takes_lit] at h
    exact ⟨'(', h⟩
  · intro pre u post h
    simp only [takes_cat_cons, takes_cat_nil, takes_lit, takes_dig] at h
    obtain ⟨_, _, rfl, rfl, _, _, rfl, ⟨d, rfl, -⟩, rfl⟩ := h
    exact ⟨d, rfl⟩
  · intro pre u post h
    simp only [takes_cat_cons, takes_cat_nil, takes_lit, takes_dig, notAfter, takes_notBehind] at h
    obtain ⟨_, _, rfl, ⟨rfl, -⟩, _, _, rfl, ⟨d, rfl, hd⟩, _, _, rfl, rfl, rfl⟩ := h
    exact ⟨d, rfl, hd⟩
  · intro pre u post h
    simp only [takes_cat_cons, takes_cat_nil, takes_lit, takes_dig] at h
    obtain ⟨_, _, rfl, ⟨d, rfl, hd⟩, _, _, rfl, rfl, rfl⟩ := h
    exact ⟨d, rfl, hd⟩
  · intro pre u post h
    simp only [takes_cat_cons, takes_cat_nil, takes_lit, takes_dig] at h
    obtain ⟨_, _, rfl, ⟨d, rfl, hd⟩, _, _, rfl, rfl, rfl⟩ := h
    exact ⟨d, rfl, hd⟩

/-! ### The substitutions for open indices -/

theorem digits_eq {x y p q : List Char} {m m' : Char} (hx : ∀ c ∈ x, c.isDigit = true) (hy : ∀ c ∈ y, c.isDigit = true)
    (hm : m.isDigit = false) (hm' : m'.isDigit = false) (h : x ++ m :: p = y ++ m' :: q) : x = y ∧ m = m' ∧ p = q := by
  induction x generalizing y with
  | nil =>
    rcases y with _ | ⟨c, y⟩
    · simpa using h
    · simp only [List.nil_append, List.cons_append, List.cons.injEq] at h
      have := hy c (by simp)
      rw [← h.1, hm] at this
      simp at this
  | cons c x ih =>
    rcases y with _ | ⟨d, y⟩
    · simp only [List.nil_append, List.cons_append, List.cons.injEq] at h
      have := hx c (by simp)
      rw [h.1, hm'] at this
      simp at this
    · simp only [List.cons_append, List.cons.injEq] at h
      obtain ⟨rfl, h⟩ := h
      obtain ⟨rfl, h2, h3⟩ := ih (fun c hc => hx c (by simp [hc])) (fun c hc => hy c (by simp [hc])) h
      exact ⟨rfl, h2, h3⟩

/-- Nothing is ahead at the end. -/
theorem ahead_nil {a : RE} {pre : List Char} (h : ∀ pre post, ¬a.Takes pre [] post) : (notAhead a).Takes pre [] [] := by
  rw [takes_notAhead]
  refine ⟨rfl, fun v w e ht => ?_⟩
  have := List.append_eq_nil_iff.1 e.symm
  rw [this.1] at ht
  exact h _ _ ht

theorem cat_dig_nil {rs : List RE} (pre post : List Char) : ¬(cat (dig :: rs)).Takes pre [] post := by
  intro h
  obtain ⟨v, w, e, h1, -⟩ := takes_cat_cons.1 h
  obtain ⟨c, rfl, -⟩ := takes_dig.1 h1
  simp at e

theorem cat_lit_nil {s : String} (hs : s.toList ≠ []) {rs : List RE} (pre post : List Char) : ¬(cat (lit s :: rs)).Takes pre [] post := by
  intro h
  obtain ⟨v, w, e, h1, -⟩ := takes_cat_cons.1 h
  rw [takes_lit] at h1
  have := List.append_eq_nil_iff.1 e.symm
  exact hs (by rw [← h1, this.1])

theorem noSlot_nil {pre : List Char} : noSlot.Takes pre [] [] := by
  refine takes_cat_cons.2 ⟨[], [], rfl, ahead_nil cat_dig_nil, ?_⟩
  exact takes_cat_cons.2 ⟨[], [], rfl, ahead_nil (cat_lit_nil (by decide)), takes_cat_nil.2 rfl⟩

theorem notClosed_nil {pre : List Char} : notClosed.Takes pre [] [] := by
  refine ahead_nil fun pre post h => ?_
  rw [takes_lit] at h
  exact absurd h (by decide)

/-- `⟨a|` and `[a|`. -/
theorem hit_left {r o a : RE} {x : Char} {l : List Char} (hr : r = cat [notOpened, o, some1 dig, lit "|", .notAhead (cat (dig :: [a])), noSlot, notClosed])
    (ho : ∀ pre u post, o.Takes pre u post ↔ ∃ c ∈ l, u = [c]) (hx : x ∈ l) {ds : List Char} (hds : ds ≠ []) (hd : ∀ c ∈ ds, c.isDigit = true) :
    r.Hit [] (x :: (ds ++ ['|'])) [] := by
  refine ⟨by simp, head_unique ?_ ?_⟩
  · rw [hr]
    refine takes_cat_cons.2 ⟨[], x :: (ds ++ ['|']), rfl, takes_notBehind.2 ⟨rfl, rfl⟩, ?_⟩
    refine takes_cat_cons.2 ⟨[x], ds ++ ['|'], rfl, (ho _ _ _).2 ⟨x, hx, rfl⟩, ?_⟩
    refine takes_cat_cons.2 ⟨ds, ['|'], rfl, takes_plus_dig.2 ⟨hds, hd⟩, ?_⟩
    refine takes_cat_cons.2 ⟨['|'], [], rfl, takes_lit.2 rfl, ?_⟩
    refine takes_cat_cons.2 ⟨[], [], rfl, ahead_nil cat_dig_nil, ?_⟩
    refine takes_cat_cons.2 ⟨[], [], rfl, noSlot_nil, ?_⟩
    exact takes_cat_cons.2 ⟨[], [], rfl, notClosed_nil, takes_cat_nil.2 rfl⟩
  · intro v w e hv
    rw [hr] at hv
    obtain ⟨_, _, rfl, h0, hv⟩ := takes_cat_cons.1 hv
    obtain ⟨rfl, -⟩ := takes_notBehind.1 h0
    obtain ⟨_, _, rfl, h1, hv⟩ := takes_cat_cons.1 hv
    obtain ⟨y, -, rfl⟩ := (ho _ _ _).1 h1
    obtain ⟨ds', _, rfl, h2, hv⟩ := takes_cat_cons.1 hv
    obtain ⟨-, hd'⟩ := takes_plus_dig.1 h2
    obtain ⟨_, w', rfl, h3, -⟩ := takes_cat_cons.1 hv
    rw [takes_lit] at h3
    subst h3
    have e : x :: (ds ++ '|' :: []) = y :: (ds' ++ '|' :: (w' ++ w)) := by simpa using e
    obtain ⟨rfl, e'⟩ := List.cons.inj e
    obtain ⟨rfl, -, h5⟩ := digits_eq hd hd' (m := '|') (m' := '|') (by decide) (by decide) e'
    have := List.append_eq_nil_iff.1 h5.symm
    simp [this.1]

/-- `|a⟩` and `|a]`. -/
theorem hit_right {r o : RE} {p1 p2 p3 : List (Char → Bool)} {x : Char} {l : List Char}
    (hr : r = cat [notOpened, .notBehind p1, .notBehind p2, .notBehind p3, lit "|", some1 dig, o, notClosed])
    (hp : endsIn p1.reverse [] = false ∧ endsIn p2.reverse [] = false ∧ endsIn p3.reverse [] = false)
    (ho : ∀ pre u post, o.Takes pre u post ↔ ∃ c ∈ l, u = [c]) (hx : x ∈ l) (hl : ∀ c ∈ l, c.isDigit = false) {ds : List Char} (hds : ds ≠ [])
    (hd : ∀ c ∈ ds, c.isDigit = true) : r.Hit [] ('|' :: (ds ++ [x])) [] := by
  refine ⟨by simp, head_unique ?_ ?_⟩
  · rw [hr]
    refine takes_cat_cons.2 ⟨[], '|' :: (ds ++ [x]), rfl, takes_notBehind.2 ⟨rfl, rfl⟩, ?_⟩
    refine takes_cat_cons.2 ⟨[], '|' :: (ds ++ [x]), rfl, takes_notBehind.2 ⟨rfl, hp.1⟩, ?_⟩
    refine takes_cat_cons.2 ⟨[], '|' :: (ds ++ [x]), rfl, takes_notBehind.2 ⟨rfl, hp.2.1⟩, ?_⟩
    refine takes_cat_cons.2 ⟨[], '|' :: (ds ++ [x]), rfl, takes_notBehind.2 ⟨rfl, hp.2.2⟩, ?_⟩
    refine takes_cat_cons.2 ⟨['|'], ds ++ [x], rfl, takes_lit.2 rfl, ?_⟩
    refine takes_cat_cons.2 ⟨ds, [x], rfl, takes_plus_dig.2 ⟨hds, hd⟩, ?_⟩
    refine takes_cat_cons.2 ⟨[x], [], rfl, (ho _ _ _).2 ⟨x, hx, rfl⟩, ?_⟩
    exact takes_cat_cons.2 ⟨[], [], rfl, notClosed_nil, takes_cat_nil.2 rfl⟩
  · intro v w e hv
    rw [hr] at hv
    obtain ⟨_, _, rfl, h0, hv⟩ := takes_cat_cons.1 hv
    obtain ⟨rfl, -⟩ := takes_notBehind.1 h0
    obtain ⟨_, _, rfl, h0, hv⟩ := takes_cat_cons.1 hv
    obtain ⟨rfl, -⟩ := takes_notBehind.1 h0
    obtain ⟨_, _, rfl, h0, hv⟩ := takes_cat_cons.1 hv
    obtain ⟨rfl, -⟩ := takes_notBehind.1 h0
    obtain ⟨_, _, rfl, h0, hv⟩ := takes_cat_cons.1 hv
    obtain ⟨rfl, -⟩ := takes_notBehind.1 h0
    obtain ⟨_, _, rfl, h1, hv⟩ := takes_cat_cons.1 hv
    rw [takes_lit] at h1
    subst h1
    obtain ⟨ds', _, rfl, h2, hv⟩ := takes_cat_cons.1 hv
    obtain ⟨-, hd'⟩ := takes_plus_dig.1 h2
    obtain ⟨_, w', rfl, h3, -⟩ := takes_cat_cons.1 hv
    obtain ⟨y, hy, rfl⟩ := (ho _ _ _).1 h3
    have e : '|' :: (ds ++ x :: []) = '|' :: (ds' ++ y :: (w' ++ w)) := by simpa using e
    obtain ⟨-, e⟩ := List.cons.inj e
    obtain ⟨rfl, rfl, h5⟩ := digits_eq hd hd' (hl x hx) (hl y hy) e
    have := List.append_eq_nil_iff.1 h5.symm
    simp [this.1]

theorem bars_openBegin : TwoBars eOpenBegin := count_bars 2 4 (by decide) rfl rfl
theorem bars_openEnd : TwoBars eOpenEnd := count_bars 3 5 (by decide) rfl rfl
theorem bars_doubleOpen : TwoBars eDoubleOpen := count_bars 4 6 (by decide) rfl rfl
theorem bars_doubleOpenDot : TwoBars eDoubleOpenDot := count_bars 4 6 (by decide) rfl rfl

/-- The four spinors with an open index: `⟨a|`, `[a|`, `|a⟩`, `|a]`. -/
def openSpinor (right sq : Bool) (a : ℕ) : List Char :=
  if right then '|' :: (pyStr a ++ [if sq then ']' else '⟩']) else (if sq then '[' else '⟨') :: (pyStr a ++ ['|'])

theorem openSpinor_free {l : List Char} (right sq : Bool) (a : ℕ) (hd : ∀ c ∈ l, c.isDigit = false) (hb : '|' ∉ l)
    (hx : (if right then (if sq then ']' else '⟩') else (if sq then '[' else '⟨')) ∉ l) : FreeOf l (openSpinor right sq a) := by
  cases right
  · refine .cons ?_ ((freeOf_pyStr hd a).append (.cons hb fun _ _ h => by simp at h))
    simpa using hx
  · refine .cons hb ((freeOf_pyStr hd a).append (.cons ?_ fun _ _ h => by simp at h))
    simpa using hx

theorem openSpinor_bars (right sq : Bool) (a : ℕ) : (wrap (openSpinor right sq a)).count '|' ≤ 1 := by
  have h : (pyStr a).count '|' = 0 := List.count_eq_zero.2 (not_mem_pyStr (by decide) a)
  cases right <;> cases sq <;> simp [wrap, openSpinor, List.count_append, h]

theorem wrap_free {l t : List Char} (h : FreeOf l t) (hl : FreeOf l "oPs('')".toList) : FreeOf l (wrap t) := by
  refine FreeOf.append (.append ?_ h) ?_
  · intro c hc hm
    exact hl c hc ((by decide : "oPs('".toList ⊆ "oPs('')".toList) hm)
  · intro c hc hm
    exact hl c hc ((by decide : "')".toList ⊆ "oPs('')".toList) hm)

theorem open_spinor_open (right sq : Bool) (a : ℕ) :
    runPasses passesOpen (openSpinor right sq a) = wrap (openSpinor right sq a) := by
  have hne := pyStr_ne_nil a
  have hd := pyStr_digits a
  have hb := openSpinor_bars right sq a
  have nAu : Needs eAu ['⟨', '<'] := needs_cat 1 rfl (needs_of (by decide))
  have nAd : Needs eAd ['⟩', '>'] := needs_cat 6 rfl (needs_of (by decide))
  have nSd : Needs eSd ['['] := needs_cat 1 rfl (needs_lit (by decide))
  have nSu : Needs eSu [']'] := needs_cat 6 rfl (needs_lit (by decide))
  have free : ∀ l, (∀ c ∈ l, c.isDigit = false) → '|' ∉ l →
      (if right then (if sq then ']' else '⟩') else (if sq then '[' else '⟨')) ∉ l → FreeOf l (openSpinor right sq a) :=
    fun l h1 h2 h3 => openSpinor_free right sq a h1 h2 h3
  simp only [passesOpen, runPasses, List.foldl_cons, List.foldl_nil]
  cases right <;> cases sq
  · rw [sub_hit_all (show eAu.Hit [] (openSpinor false false a) [] from hit_left rfl (takes_of_list rfl) (by decide) hne hd)]
    rw [nAd.same (wrap_free (free _ (by decide) (by decide) (by decide)) (by unfold FreeOf; decide)),
      nSd.same (wrap_free (free _ (by decide) (by decide) (by decide)) (by unfold FreeOf; decide)),
      nSu.same (wrap_free (free _ (by decide) (by decide) (by decide)) (by unfold FreeOf; decide)),
      bars_openBegin.same hb, bars_openEnd.same hb, bars_doubleOpen.same hb, bars_doubleOpenDot.same hb]
  · rw [nAu.same (free _ (by decide) (by decide) (by decide)), nAd.same (free _ (by decide) (by decide) (by decide)),
      sub_hit_all (show eSd.Hit [] (openSpinor false true a) [] from hit_left rfl (takes_lit_one rfl) (by decide) hne hd)]
    rw [nSu.same (wrap_free (free _ (by decide) (by decide) (by decide)) (by unfold FreeOf; decide)),
      bars_openBegin.same hb, bars_openEnd.same hb, bars_doubleOpen.same hb, bars_doubleOpenDot.same hb]
  · rw [nAu.same (free _ (by decide) (by decide) (by decide)),
      sub_hit_all (show eAd.Hit [] (openSpinor true false a) [] from hit_right rfl ⟨rfl, rfl, rfl⟩ (takes_of_list rfl) (by decide) (by decide) hne hd)]
    rw [nSd.same (wrap_free (free _ (by decide) (by decide) (by decide)) (by unfold FreeOf; decide)),
      nSu.same (wrap_free (free _ (by decide) (by decide) (by decide)) (by unfold FreeOf; decide)),
      bars_openBegin.same hb, bars_openEnd.same hb, bars_doubleOpen.same hb, bars_doubleOpenDot.same hb]
  · rw [nAu.same (free _ (by decide) (by decide) (by decide)), nAd.same (free _ (by decide) (by decide) (by decide)),
      nSd.same (free _ (by decide) (by decide) (by decide)),
      sub_hit_all (show eSu.Hit [] (openSpinor true true a) [] from hit_right rfl ⟨rfl, rfl, rfl⟩ (takes_lit_one rfl) (by decide) (by decide) hne hd)]
    rw [bars_openBegin.same hb, bars_openEnd.same hb, bars_doubleOpen.same hb, bars_doubleOpenDot.same hb]

/-- What `_parse` does to a text that only the substitutions for open indices touch. -/
theorem parse_open {t : List Char} (h : FreeOf (nameLetters ++ ['−', '\\', '<', '>', '}', '{', '\n', ' ', '^', '@', '(', ')', 'q', '/', 'b', '_', 'd', 'u']) t)
    (hb : FreeOf ['⟩', ']', '>'] t ∨ FreeOf ['⟨', '[', '<'] t) (ho : runPasses passesOpen t = wrap t) :
    parseText t = "oPs('".toList ++ t ++ "')".toList := by
  have t1 : runPasses passesTidy t = t := tidy_same (h.sub (by decide)) (hatOk_free (h '^' (by decide)))
  have hmk : FreeOf spinMarks t := h.sub (by decide)
  have t2 : runPasses passesMassive t = t := by
    rw [runPasses_massive]
    have hf : fourSubs t = t := by
      change eMassiveBu.sub _ 0 [] (eMassiveBd.sub _ 0 [] (eMassiveAd.sub _ 0 [] (eMassiveAu.sub _ 0 [] t))) = _
      rw [mark_Au.sub_no_mark (hmk.sub (by decide)), mark_Ad.sub_no_mark (hmk.sub (by decide)), mark_Bd.sub_no_mark (hmk.sub (by decide)),
        mark_Bu.sub_no_mark (hmk.sub (by decide))]
    rw [hf]
    exact (needs_lit (l := ['@']) (by decide)).same (h.sub (by decide))
  have t3 : runPasses passesNames t = t := names_same (h.sub (by decide)) hb
  have t5 : runPasses passesEnd (wrap t) = wrap t := end_same (h.sub (by decide))
  have hrun : ∀ t, parseText t = runPasses passesEnd (runPasses passesOpen (runPasses passesNames (runPasses passesMassive (runPasses passesTidy t)))) := by
    intro t
    simp only [parseText, runPasses, List.foldl_append]
  rw [hrun, t1, t2, t3, ho, t5]
  rfl

/-- C106: `_parse` puts `⟨a|`, `[a|`, `|a⟩` and `|a]` in `oPs('..')`, once, for every label. -/
theorem C106_open_spinor (right sq : Bool) (a : ℕ) : parseText (openSpinor right sq a) = "oPs('".toList ++ openSpinor right sq a ++ "')".toList := by
  have free : ∀ l, (∀ c ∈ l, c.isDigit = false) → '|' ∉ l →
      (if right then (if sq then ']' else '⟩') else (if sq then '[' else '⟨')) ∉ l → FreeOf l (openSpinor right sq a) :=
    fun l h1 h2 h3 => openSpinor_free right sq a h1 h2 h3
  refine parse_open (free _ (by decide) (by decide) ?_) ?_ (open_spinor_open right sq a)
  · cases right <;> cases sq <;> decide
  · cases right
    · exact .inl (free _ (by decide) (by decide) (by cases sq <;> decide))
    · exact .inr (free _ (by decide) (by decide) (by cases sq <;> decide))

/-! ### Pieces open at both sides -/

/-- `a`, and `+b` or `-b` any number of times. -/
def signedSum (a : ℕ) (ss : List (Bool × ℕ)) : List Char := pyStr a ++ ss.flatMap fun p => (if p.1 then '+' else '-') :: pyStr p.2

theorem signedSum_free {l : List Char} (hd : ∀ c ∈ l, c.isDigit = false) (hs : '+' ∉ l ∧ '-' ∉ l) (a : ℕ) (ss : List (Bool × ℕ)) :
    FreeOf l (signedSum a ss) := by
  refine (freeOf_pyStr hd a).append fun c hc h => ?_
  obtain ⟨p, -, h⟩ := List.mem_flatMap.1 h
  rcases List.mem_cons.1 h with rfl | h
  · split_ifs at hc
    · exact hs.1 hc
    · exact hs.2 hc
  · exact freeOf_pyStr hd p.2 c hc h

theorem takes_signedSum (a : ℕ) (ss : List (Bool × ℕ)) (pre post : List Char) : openSlot.Takes pre (signedSum a ss) post := by
  have tail : ∀ (ss : List (Bool × ℕ)) (pre : List Char),
      (star (cat [of "+|-", some1 dig])).Takes pre (ss.flatMap fun p => (if p.1 then '+' else '-') :: pyStr p.2) post := by
    intro ss
    induction ss with
    | nil => intro pre; exact takes_star_nil
    | cons p ss ih =>
      intro pre
      rw [List.flatMap_cons]
      refine takes_star_cons (by simp) ?_ (ih _)
      refine takes_cat_cons.2 ⟨[if p.1 then '+' else '-'], pyStr p.2, rfl, takes_of.2 ⟨_, ?_, rfl⟩,
        takes_cat_cons.2 ⟨pyStr p.2, [], by simp, takes_plus_dig.2 ⟨pyStr_ne_nil _, pyStr_digits _⟩, takes_cat_nil.2 rfl⟩⟩
      split_ifs <;> decide
  refine takes_cat_cons.2 ⟨pyStr a, _, rfl, takes_plus_dig.2 ⟨pyStr_ne_nil _, pyStr_digits _⟩, ?_⟩
  exact takes_cat_cons.2 ⟨_, [], by simp, tail ss _, takes_cat_nil.2 rfl⟩

theorem hit_double (a : ℕ) (ss : List (Bool × ℕ)) : eDoubleOpen.Hit [] ('|' :: (signedSum a ss ++ ['|'])) [] := by
  have hn : '|' ∉ signedSum a ss := signedSum_free (l := ['|']) (by decide) (by decide) a ss '|' (by simp)
  refine ⟨by simp, head_unique ?_ ?_⟩
  · refine takes_cat_cons.2 ⟨[], _, rfl, takes_notBehind.2 ⟨rfl, rfl⟩, ?_⟩
    refine takes_cat_cons.2 ⟨[], _, rfl, takes_notBehind.2 ⟨rfl, rfl⟩, ?_⟩
    refine takes_cat_cons.2 ⟨[], _, rfl, ?_, ?_⟩
    · simp only [freeStart, takes_cat_cons, takes_cat_nil, takes_notBehind]
      exact ⟨[], [], rfl, ⟨rfl, rfl⟩, [], [], rfl, ⟨rfl, rfl⟩, [], [], rfl, ⟨rfl, rfl⟩, [], [], rfl, ⟨rfl, rfl⟩, [], [], rfl, ⟨rfl, rfl⟩,
        [], [], rfl, ⟨rfl, rfl⟩, [], [], rfl, ⟨rfl, rfl⟩, rfl⟩
    refine takes_cat_cons.2 ⟨[], _, rfl, ?_, ?_⟩
    · simp only [noCorner, takes_cat_cons, takes_cat_nil, takes_notBehind]
      exact ⟨[], [], rfl, ⟨rfl, rfl⟩, [], [], rfl, ⟨rfl, rfl⟩, [], [], rfl, ⟨rfl, rfl⟩, [], [], rfl, ⟨rfl, rfl⟩, rfl⟩
    refine takes_cat_cons.2 ⟨['|'], signedSum a ss ++ ['|'], rfl, takes_lit.2 rfl, ?_⟩
    refine takes_cat_cons.2 ⟨signedSum a ss, ['|'], rfl, ?_, ?_⟩
    · exact takes_plus.2 ⟨signedSum a ss, [], by simp, takes_alt.2 (.inr (takes_signedSum a ss _ _)), takes_star_nil⟩
    refine takes_cat_cons.2 ⟨['|'], [], rfl, takes_lit.2 rfl, ?_⟩
    refine takes_cat_cons.2 ⟨[], [], rfl, ahead_nil cat_dig_nil, ?_⟩
    refine takes_cat_cons.2 ⟨[], [], rfl, noSlot_nil, ?_⟩
    exact takes_cat_cons.2 ⟨[], [], rfl, notClosed_nil, takes_cat_nil.2 rfl⟩
  · intro v w e hv
    have h2 := bars_doubleOpen _ _ _ hv
    have e' : ('|' :: signedSum a ss) ++ ['|'] = v ++ w := by simpa using e
    rcases List.append_eq_append_iff.1 e' with ⟨q, h1, h3⟩ | ⟨q, h1, h3⟩
    · rcases q with _ | ⟨x, q⟩
      · rw [List.append_nil] at h1
        rw [h1, List.count_cons_self, List.count_eq_zero.2 hn] at h2
        omega
      · simp only [List.cons_append, List.cons.injEq] at h3
        obtain ⟨rfl, h3⟩ := h3
        have := List.append_eq_nil_iff.1 h3.symm
        rw [h1, this.1]
        rfl
    · have : ('|' :: signedSum a ss).count '|' = v.count '|' + q.count '|' := by rw [h1, List.count_append]
      rw [List.count_cons_self, List.count_eq_zero.2 hn] at this
      omega

/-- The indices are exchanged only after an `@`. -/
theorem dot_same {t : List Char} {f : List Char → List Char} (h : '@' ∉ t) : eDoubleOpenDot.sub f 0 [] t = t := by
  apply sub_none
  intro b1 x b2 e
  rw [run_eq_nil]
  intro u post hu hk
  obtain ⟨_, _, rfl, h0, hk⟩ := takes_cat_cons.1 hk
  obtain ⟨rfl, -⟩ := takes_notBehind.1 h0
  obtain ⟨_, _, rfl, h1, -⟩ := takes_cat_cons.1 hk
  obtain ⟨-, h1⟩ := takes_behind.1 h1
  simp only [List.reverse_nil, List.nil_append, List.append_nil] at h1
  have hm : massiveEnd.reverse = (fun x => decide (x = '@')) :: massiveEnd.reverse.tail := rfl
  rw [hm] at h1
  rcases hb : b1.reverse with _ | ⟨c, s⟩
  · rw [hb] at h1
    simp [endsIn] at h1
  · rw [hb] at h1
    simp only [endsIn, Bool.and_eq_true, decide_eq_true_eq] at h1
    refine h ?_
    have : c ∈ b1 := by rw [← List.mem_reverse, hb]; simp
    rw [e, ← h1.1]
    exact List.mem_append_left _ this

/-- C106: `_parse` puts `|a|`, `|a+b|`, `|a-b+c|`, … in `oPs('..')`, once, for all labels. -/
theorem C106_double_open (a : ℕ) (ss : List (Bool × ℕ)) :
    parseText ('|' :: (signedSum a ss ++ ['|'])) = "oPs('".toList ++ '|' :: (signedSum a ss ++ ['|']) ++ "')".toList := by
  have free : ∀ l, (∀ c ∈ l, c.isDigit = false) → ('+' ∉ l ∧ '-' ∉ l) → '|' ∉ l → FreeOf l ('|' :: (signedSum a ss ++ ['|'])) :=
    fun l h1 h2 h3 => .cons h3 ((signedSum_free h1 h2 a ss).append (.cons h3 fun _ _ h => by simp at h))
  refine parse_open (free _ (by decide) (by decide) (by decide)) (.inl (free _ (by decide) (by decide) (by decide))) ?_
  have nAu : Needs eAu ['⟨', '<'] := needs_cat 1 rfl (needs_of (by decide))
  have nAd : Needs eAd ['⟩', '>'] := needs_cat 6 rfl (needs_of (by decide))
  have nSd : Needs eSd ['['] := needs_cat 1 rfl (needs_lit (by decide))
  have nSu : Needs eSu [']'] := needs_cat 6 rfl (needs_lit (by decide))
  have nB : Needs eOpenBegin ['⟩', ']'] := needs_cat 6 rfl (needs_of (by decide))
  have nE : Needs eOpenEnd ['⟨', '<', '['] := needs_cat 1 rfl (needs_of (by decide))
  simp only [passesOpen, runPasses, List.foldl_cons, List.foldl_nil]
  rw [nAu.same (free _ (by decide) (by decide) (by decide)), nAd.same (free _ (by decide) (by decide) (by decide)),
    nSd.same (free _ (by decide) (by decide) (by decide)), nSu.same (free _ (by decide) (by decide) (by decide)),
    nB.same (free _ (by decide) (by decide) (by decide)), nE.same (free _ (by decide) (by decide) (by decide)),
    sub_hit_all (hit_double a ss), dot_same]
  exact wrap_free (free ['@'] (by decide) (by decide) (by decide)) (by unfold FreeOf; decide) '@' (by simp)

example : '|' :: (signedSum 12 [(true, 3), (false, 10)] ++ ['|']) = "|12+3-10|".toList ∧
    parseText "|12+3-10|".toList = "oPs('|12+3-10|')".toList := by decide +kernel

example : openSpinor false false 12 = "⟨12|".toList ∧ openSpinor false true 3 = "[3|".toList ∧ openSpinor true false 4 = "|4⟩".toList ∧
    openSpinor true true 10 = "|10]".toList ∧ parseText "|10]".toList = "oPs('|10]')".toList := by decide +kernel

end Lips

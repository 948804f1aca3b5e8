import Verif.Props.OpenPiece
import Verif.Props.DispatchTraces

/-!
Property C106 on texts: pieces open at the right whose first label after the bar has two digits or more are broken up, whatever the labels
(particles_eval.py:31-35, 55-61, 109-164). With `C106_open_end` this says which of these pieces `_parse` finds.
-/

namespace Lips

open RE

/-- What `_parse` does to a text without names other than those with open indices. -/
theorem parse_late {t : List Char} (h : FreeOf (nameLetters ++ ['−', '\\', '<', '>', '}', '{', '\n', ' ', '^', '@', '(', ')', 'q', '/', 'b', '_', 'd', 'u']) t)
    (hb : FreeOf ['⟩', ']', '>'] t ∨ FreeOf ['⟨', '[', '<'] t) : parseText t = runPasses passesEnd (runPasses passesOpen t) := by
  have t1 : runPasses passesTidy t = t := tidy_same (h.sub (by decide)) (hatOk_free (h '^' (by decide)))
  have hmk : FreeOf spinMarks t := h.sub (by decide)
  have t2 : runPasses passesMassive t = t := by
    rw [runPasses_massive]
    have hf : fourSubs t = t := by
      change eMassiveBu.sub _ 0 [] (eMassiveBd.sub _ 0 [] (eMassiveAd.sub _ 0 [] (eMassiveAu.sub _ 0 [] t))) = _
      rw [mark_Au.sub_no_mark (hmk.sub (by decide)), mark_Ad.sub_no_mark (hmk.sub (by decide)), mark_Bd.sub_no_mark (hmk.sub (by decide)),
        mark_Bu.sub_no_mark (hmk.sub (by decide))]
    rw [hf]
    exact (needs_lit (l := ['@']) (by decide)).same (h.sub (by decide))
  have t3 : runPasses passesNames t = t := names_same (h.sub (by decide)) hb
  have hrun : ∀ t, parseText t = runPasses passesEnd (runPasses passesOpen (runPasses passesNames (runPasses passesMassive (runPasses passesTidy t)))) := by
    intro t
    simp only [parseText, runPasses, List.foldl_append]
  rw [hrun, t1, t2, t3]

/-- A label of two digits or more. -/
theorem pyStr_two {d : ℕ} (h : 10 ≤ d) : ∃ c e s, c.isDigit = true ∧ e.isDigit = true ∧ pyStr d = c :: e :: s := by
  have hl : 2 ≤ (pyStr d).length := by
    have h1 : (pyStr d).length ≠ 1 := fun h1 => by
      rw [length_pyStr_eq_one] at h1
      omega
    have := List.length_pos_iff.2 (pyStr_ne_nil d)
    omega
  rcases hp : pyStr d with _ | ⟨c, _ | ⟨e, s⟩⟩
  · rw [hp] at hl; simp at hl
  · rw [hp] at hl; simp at hl
  · exact ⟨c, e, s, pyStr_digits d c (by rw [hp]; simp), pyStr_digits d e (by rw [hp]; simp), rfl⟩

/-- `⟨a|` and `[a|` with a label of two digits or more after it. -/
theorem hit_left_digits {r o b : RE} {x : Char} {l : List Char} (hr : r = cat [notOpened, o, some1 dig, lit "|", .notAhead (cat (dig :: [b])), noSlot, notClosed])
    (ho : ∀ pre u post, o.Takes pre u post ↔ ∃ c ∈ l, u = [c]) (hx : x ∈ l) (hbq : ∀ pre u post, b.Takes pre u post → ∃ c, u = [c] ∧ c.isDigit = false)
    {ds : List Char} (hds : ds ≠ []) (hd : ∀ c ∈ ds, c.isDigit = true) {c e : Char} {s : List Char} (hc : c.isDigit = true) (he : e.isDigit = true) :
    r.Hit [] (x :: (ds ++ ['|'])) (c :: e :: s) := by
  have look : ∀ (b : RE) (pre : List Char), (∀ pre u post, b.Takes pre u post → ∃ c, u = [c] ∧ c.isDigit = false) →
      (notAhead (cat (dig :: [b]))).Takes pre [] (c :: e :: s) := by
    intro b pre hbq
    rw [takes_notAhead]
    refine ⟨rfl, fun v w e1 ht => ?_⟩
    obtain ⟨_, _, rfl, h1, h2⟩ := takes_cat_cons.1 ht
    obtain ⟨g, rfl, -⟩ := takes_dig.1 h1
    obtain ⟨_, _, rfl, h3, -⟩ := takes_cat_cons.1 h2
    obtain ⟨k, rfl, hk⟩ := hbq _ _ _ h3
    simp only [List.cons_append, List.nil_append, List.cons.injEq] at e1
    rw [← e1.2.1, he] at hk
    simp at hk
  have hofs : ∀ pre u post, (of "+|-").Takes pre u post → ∃ c, u = [c] ∧ c.isDigit = false := by
    intro pre u post h
    obtain ⟨g, hg, rfl⟩ := takes_of.1 h
    exact ⟨g, rfl, (by decide : ∀ g ∈ "+|-".toList, g.isDigit = false) g hg⟩
  refine ⟨by simp, head_unique ?_ ?_⟩
  · rw [hr]
    refine takes_cat_cons.2 ⟨[], x :: (ds ++ ['|']), rfl, takes_notBehind.2 ⟨rfl, rfl⟩, ?_⟩
    refine takes_cat_cons.2 ⟨[x], ds ++ ['|'], rfl, (ho _ _ _).2 ⟨x, hx, rfl⟩, ?_⟩
    refine takes_cat_cons.2 ⟨ds, ['|'], rfl, takes_plus_dig.2 ⟨hds, hd⟩, ?_⟩
    refine takes_cat_cons.2 ⟨['|'], [], rfl, takes_lit.2 rfl, ?_⟩
    refine takes_cat_cons.2 ⟨[], [], rfl, look _ _ hbq, ?_⟩
    refine takes_cat_cons.2 ⟨[], [], rfl, ?_, ?_⟩
    · refine takes_cat_cons.2 ⟨[], [], rfl, look _ _ hofs, ?_⟩
      refine takes_cat_cons.2 ⟨[], [], rfl, ?_, takes_cat_nil.2 rfl⟩
      rw [takes_notAhead]
      refine ⟨rfl, fun v w e1 ht => ?_⟩
      obtain ⟨v', _, rfl, h1, -⟩ := takes_cat_cons.1 ht
      rw [takes_lit] at h1
      have h1 : v' = ['('] := h1
      subst h1
      have e1 := (List.cons.inj e1).1
      rw [e1] at hc
      exact absurd hc (by decide)
    · refine takes_cat_cons.2 ⟨[], [], rfl, ?_, takes_cat_nil.2 rfl⟩
      rw [notClosed, takes_notAhead]
      refine ⟨rfl, fun v w e1 ht => ?_⟩
      rw [takes_lit] at ht
      have ht : v = ['\'', ')'] := ht
      subst ht
      have e1 := (List.cons.inj e1).1
      rw [e1] at hc
      exact absurd hc (by decide)
  · intro v w e hv
    rw [hr] at hv
    obtain ⟨_, _, rfl, h0, hv⟩ := takes_cat_cons.1 hv
    obtain ⟨rfl, -⟩ := takes_notBehind.1 h0
    obtain ⟨_, _, rfl, h1, hv⟩ := takes_cat_cons.1 hv
    obtain ⟨y, -, rfl⟩ := (ho _ _ _).1 h1
    obtain ⟨ds', _, rfl, h2, hv⟩ := takes_cat_cons.1 hv
    obtain ⟨-, hd'⟩ := takes_plus_dig.1 h2
    obtain ⟨_, w', rfl, h3, hv⟩ := takes_cat_cons.1 hv
    rw [takes_lit] at h3
    subst h3
    obtain ⟨_, _, rfl, h4, hv⟩ := takes_cat_cons.1 hv
    obtain ⟨rfl, -⟩ := takes_notAhead.1 h4
    obtain ⟨_, _, rfl, h5, hv⟩ := takes_cat_cons.1 hv
    obtain ⟨_, _, rfl, h6, h5⟩ := takes_cat_cons.1 h5
    obtain ⟨rfl, -⟩ := takes_notAhead.1 h6
    obtain ⟨_, _, rfl, h7, h5⟩ := takes_cat_cons.1 h5
    obtain ⟨rfl, -⟩ := takes_notAhead.1 h7
    rw [takes_cat_nil] at h5
    subst h5
    obtain ⟨_, _, rfl, h8, hv⟩ := takes_cat_cons.1 hv
    obtain ⟨rfl, -⟩ := takes_notAhead.1 h8
    rw [takes_cat_nil] at hv
    subst hv
    have e := by simpa using e
    obtain ⟨rfl, e'⟩ := e
    obtain ⟨rfl, -, -⟩ := digits_eq hd hd' (m := '|') (m' := '|') (by decide) (by decide) e'
    simp

/-- A bar that neither a digit nor a parenthesis follows. -/
theorem bar_same {r : RE} {f : List Char → List Char} {p q : List Char}
    (hr : ∀ pre u post, r.Takes pre u post → ∃ b g z, u = b ++ '|' :: g :: z ∧ g ≠ '\'') (hp : '|' ∉ p) (hq : '|' ∉ q) :
    r.sub f 0 [] (p ++ '|' :: '\'' :: (q ++ ['|'])) = p ++ '|' :: '\'' :: (q ++ ['|']) := by
  apply sub_none
  intro b1 x b2 e
  rw [run_eq_nil]
  intro u post hu hk
  obtain ⟨b, g, z, rfl, hg⟩ := hr _ _ _ hk
  rw [List.append_nil] at hu
  rw [hu] at e
  have e : p ++ '|' :: '\'' :: (q ++ ['|']) = (b1 ++ b) ++ '|' :: g :: (z ++ post) := by simpa using e
  rcases List.append_eq_append_iff.1 e with ⟨k, h1, h2⟩ | ⟨k, h1, h2⟩
  · rcases k with _ | ⟨y, k⟩
    · simp only [List.nil_append, List.cons.injEq] at h2
      exact hg h2.2.1.symm
    · rw [List.cons_append] at h2
      have h3 : ('\'' :: q) ++ ['|'] = k ++ '|' :: g :: (z ++ post) := (List.cons.inj h2).2
      have hq' : '|' ∉ '\'' :: q := by simp [hq]
      rcases List.append_eq_append_iff.1 h3 with ⟨j, h4, h5⟩ | ⟨j, h4, h5⟩
      · have := congrArg List.length h5
        simp at this
        omega
      · rcases j with _ | ⟨y, j⟩
        · simp at h5
        · rw [List.cons_append] at h5
          exact hq' (by rw [h4, ← (List.cons.inj h5).1]; simp)
  · rcases k with _ | ⟨y, k⟩
    · simp only [List.nil_append, List.cons.injEq] at h2
      exact hg h2.2.1
    · rw [List.cons_append] at h2
      exact hp (by rw [h1, ← (List.cons.inj h2).1]; simp)

theorem slot_first {pre u post : List Char} (h : (some1 (alt wideSlot openSlot)).Takes pre u post) : ∃ g z, u = g :: z ∧ g ≠ '\'' := by
  obtain ⟨v, w, rfl, h1, -⟩ := takes_plus.1 h
  rcases takes_alt.1 h1 with h1 | h1
  · obtain ⟨v', w', rfl, h2, -⟩ := takes_cat_cons.1 h1
    rw [takes_lit] at h2
    have h2 : v' = ['('] := h2
    subst h2
    exact ⟨'(', w' ++ w, rfl, by decide⟩
  · obtain ⟨v', w', rfl, h2, -⟩ := takes_cat_cons.1 h1
    obtain ⟨h3, h4⟩ := takes_plus_dig.1 h2
    obtain ⟨g, z, rfl⟩ := List.exists_cons_of_ne_nil h3
    refine ⟨g, z ++ w' ++ w, rfl, ?_⟩
    rintro rfl
    exact absurd (h4 '\'' (by simp)) (by decide)

theorem cat_slot {rs : List RE} {pre u post : List Char} (i : ℕ) (hi : rs[i]? = some (lit "|")) (hj : rs[i + 1]? = some (some1 (alt wideSlot openSlot)))
    (h : (cat rs).Takes pre u post) : ∃ b g z, u = b ++ '|' :: g :: z ∧ g ≠ '\'' := by
  induction i generalizing rs pre u with
  | zero =>
    rcases rs with _ | ⟨r1, _ | ⟨r2, rs⟩⟩
    · simp at hi
    · simp at hj
    · simp only [List.getElem?_cons_zero, Option.some.injEq, zero_add, List.getElem?_cons_succ] at hi hj
      subst hi hj
      obtain ⟨v, w, rfl, h1, h2⟩ := takes_cat_cons.1 h
      rw [takes_lit] at h1
      have h1 : v = ['|'] := h1
      subst h1
      obtain ⟨v, w, rfl, h3, -⟩ := takes_cat_cons.1 h2
      obtain ⟨g, z, rfl, hg⟩ := slot_first h3
      exact ⟨[], g, z ++ w, rfl, hg⟩
  | succ i ih =>
    rcases rs with _ | ⟨r1, rs⟩
    · simp at hi
    · obtain ⟨v, w, rfl, h1, h2⟩ := takes_cat_cons.1 h
      obtain ⟨b, g, z, rfl, hg⟩ := ih (by simpa using hi) (by simpa using hj) h2
      exact ⟨v ++ b, g, z, by simp, hg⟩

/-- A parenthesis and the character after it. -/
theorem par_quiet {r : RE} {pre p post : List Char} (hr : ∀ pre u post, r.Takes pre u post → ∃ y, u = [')', y]) (hp : ')' ∉ p) :
    r.Quiet pre p post := by
  intro b1 x b2 e
  rw [run_eq_nil]
  intro u post' hu hk
  obtain ⟨y, rfl⟩ := hr _ _ _ hk
  have h1 : x = ')' := (List.cons.inj hu).1
  exact hp (by rw [e, h1]; simp)

/-- A digit after a parenthesis gets a `*`. -/
theorem par_star {p s : List Char} {c : Char} (hp : ')' ∉ p) (hs : ')' ∉ s) (hc : c.isDigit = true) :
    (cat [lit ")", dig]).sub starLast 0 [] (p ++ ')' :: c :: s) = p ++ ')' :: '*' :: c :: s := by
  have hr : ∀ pre u post, (cat [lit ")", dig]).Takes pre u post → ∃ y, u = [')', y] := by
    intro pre u post h
    simp only [takes_cat_cons, takes_cat_nil, takes_lit, takes_dig] at h
    obtain ⟨_, _, rfl, rfl, _, _, rfl, ⟨d, rfl, -⟩, rfl⟩ := h
    exact ⟨d, rfl⟩
  have hh : ∀ pre, (cat [lit ")", dig]).Hit pre [')', c] s := by
    intro pre
    refine ⟨by simp, head_unique ?_ ?_⟩
    · exact takes_cat_cons.2 ⟨[')'], [c], rfl, takes_lit.2 rfl, takes_cat_cons.2 ⟨[c], [], rfl, takes_dig.2 ⟨c, rfl, hc⟩, takes_cat_nil.2 rfl⟩⟩
    · intro v w e hv
      obtain ⟨y, rfl⟩ := hr _ _ _ hv
      simp only [List.cons_append, List.nil_append, List.cons.injEq, true_and] at e
      rw [e.1]
  have h1 := sub_quiet (f := starLast) (par_quiet (pre := []) (post := ')' :: c :: s) hr hp)
  have h2 := sub_hit (f := starLast) (hh (p.reverse ++ []))
  have h3 := sub_quiet (f := starLast) (par_quiet (pre := [')', c].reverse ++ (p.reverse ++ [])) (post := []) hr hs)
  rw [List.append_nil s] at h3
  rw [h1, show ')' :: c :: s = [')', c] ++ s from rfl, h2, h3]
  simp [starLast, sub]

/-- No `(` or `o` comes after a parenthesis with a `*` after it. -/
theorem par_same {r : RE} {f : List Char → List Char} {p s : List Char} (hr : ∀ pre u post, r.Takes pre u post → ∃ y, u = [')', y] ∧ y ≠ '*')
    (hp : ')' ∉ p) (hs : ')' ∉ s) : r.sub f 0 [] (p ++ ')' :: '*' :: s) = p ++ ')' :: '*' :: s := by
  have hr' : ∀ pre u post, r.Takes pre u post → ∃ y, u = [')', y] := fun pre u post h => by
    obtain ⟨y, h1, -⟩ := hr _ _ _ h
    exact ⟨y, h1⟩
  apply sub_none
  refine quiet_append (par_quiet hr' hp) (quiet_cons ?_ (par_quiet hr' (by simp [hs])))
  rw [run_eq_nil]
  intro u post hu hk
  obtain ⟨y, rfl, hy⟩ := hr _ _ _ hk
  simp only [List.cons_append, List.nil_append, List.cons.injEq, true_and] at hu
  exact hy hu.1.symm

/-- C106: `⟨a|b|`, `[a|b+c|`, … are broken up if `b` has two digits or more: `⟨a|` is taken for a spinor alone, the sum and the bar are left. -/
theorem C106_open_end_wrong {d : ℕ} (hd : 10 ≤ d) (sq : Bool) (a : ℕ) (ss : List (Bool × ℕ)) :
    parseText (openEndPiece sq a d ss) = "oPs('".toList ++ openSpinor false sq a ++ "')*".toList ++ signedSum d ss ++ ['|'] := by
  have free : ∀ l, (∀ c ∈ l, c.isDigit = false) → ('+' ∉ l ∧ '-' ∉ l) → '|' ∉ l → (if sq then '[' else '⟨') ∉ l →
      FreeOf l (openEndPiece sq a d ss) := fun l h1 h2 h3 h4 => openEndPiece_free h1 h2 h3 h4 a d ss
  have hx : (if sq then '[' else '⟨') ≠ '|' := by cases sq <;> decide
  have hsp : openSpinor false sq a = (if sq then '[' else '⟨') :: (pyStr a ++ ['|']) := by simp [openSpinor]
  have hn : '|' ∉ signedSum d ss := signedSum_free (l := ['|']) (by decide) (by decide) d ss '|' (by simp)
  have ha : '|' ∉ pyStr a := not_mem_pyStr (by decide) a
  obtain ⟨c, e, s, hc, he, hce⟩ := pyStr_two hd
  obtain ⟨s', hS⟩ : ∃ s', signedSum d ss ++ ['|'] = c :: e :: s' := ⟨_, by rw [signedSum, hce]; rfl⟩
  have wfree : ∀ l, (∀ c ∈ l, c.isDigit = false) → ('+' ∉ l ∧ '-' ∉ l) → '|' ∉ l → (if sq then '[' else '⟨') ∉ l → FreeOf l "oPs('')".toList →
      FreeOf l (wrap (openSpinor false sq a) ++ (signedSum d ss ++ ['|'])) := by
    intro l h1 h2 h3 h4 h5
    exact (wrap_free (openSpinor_free false sq a h1 h3 (by simpa using h4)) h5).append
      ((signedSum_free h1 h2 d ss).append (.cons h3 fun _ _ h => by simp at h))
  -- the spinor
  have hit : ∀ r : RE, r.Hit [] (openSpinor false sq a) (c :: e :: s') → Needs r [if sq then '[' else '⟨'] ∨ Needs r ['⟨', '<'] ∧ sq = false →
      r.sub wrap 0 [] (openEndPiece sq a d ss) = wrap (openSpinor false sq a) ++ (signedSum d ss ++ ['|']) := by
    intro r h1 h2
    have e1 : openEndPiece sq a d ss = openSpinor false sq a ++ (c :: e :: s') := by rw [← hS, hsp]; simp [openEndPiece]
    have hq : r.Quiet ((openSpinor false sq a).reverse ++ []) (signedSum d ss ++ ['|']) [] := by
      have fr : ∀ l, (∀ c ∈ l, c.isDigit = false) → ('+' ∉ l ∧ '-' ∉ l) → '|' ∉ l → FreeOf l (signedSum d ss ++ ['|'] ++ []) := by
        intro l h1 h2 h3
        rw [List.append_nil]
        exact (signedSum_free h1 h2 d ss).append (.cons h3 fun _ _ h => by simp at h)
      rcases h2 with h2 | ⟨h2, -⟩
      · exact h2.quiet (fr _ (by cases sq <;> decide) (by cases sq <;> decide) (by cases sq <;> decide))
      · exact h2.quiet (fr _ (by decide) (by decide) (by decide))
    have h3 := sub_quiet (f := wrap) hq
    rw [List.append_nil (signedSum d ss ++ ['|'])] at h3
    rw [e1, sub_hit h1, ← hS, h3]
    simp [sub]
  have hopen : runPasses passesOpen (openEndPiece sq a d ss) = wrap (openSpinor false sq a) ++ (signedSum d ss ++ ['|']) := by
    have nAu : Needs eAu ['⟨', '<'] := needs_cat 1 rfl (needs_of (by decide))
    have nAd : Needs eAd ['⟩', '>'] := needs_cat 6 rfl (needs_of (by decide))
    have nSd : Needs eSd ['['] := needs_cat 1 rfl (needs_lit (by decide))
    have nSu : Needs eSu [']'] := needs_cat 6 rfl (needs_lit (by decide))
    have nB : Needs eOpenBegin ['⟩', ']'] := needs_cat 6 rfl (needs_of (by decide))
    have bar : ∀ (r : RE) (f : List Char → List Char), (∀ pre u post, r.Takes pre u post → ∃ b g z, u = b ++ '|' :: g :: z ∧ g ≠ '\'') →
        r.sub f 0 [] (wrap (openSpinor false sq a) ++ (signedSum d ss ++ ['|'])) = wrap (openSpinor false sq a) ++ (signedSum d ss ++ ['|']) := by
      intro r f hr
      have e2 : wrap (openSpinor false sq a) ++ (signedSum d ss ++ ['|']) =
          ("oPs('".toList ++ (if sq then '[' else '⟨') :: pyStr a) ++ '|' :: '\'' :: ((')' :: signedSum d ss) ++ ['|']) := by
        rw [hsp]; simp [wrap]
      rw [e2]
      refine bar_same hr ?_ ?_
      · simp only [List.mem_append, List.mem_cons, not_or]
        exact ⟨by decide, hx.symm, ha⟩
      · simp [hn]
    have hE : ∀ f, eOpenEnd.sub f 0 [] (wrap (openSpinor false sq a) ++ (signedSum d ss ++ ['|'])) = _ := fun f =>
      bar eOpenEnd f fun pre u post h => cat_slot 3 rfl rfl h
    have hDD : ∀ f, eDoubleOpen.sub f 0 [] (wrap (openSpinor false sq a) ++ (signedSum d ss ++ ['|'])) = _ := fun f =>
      bar eDoubleOpen f fun pre u post h => cat_slot 4 rfl rfl h
    have hDt : ∀ f, eDoubleOpenDot.sub f 0 [] (wrap (openSpinor false sq a) ++ (signedSum d ss ++ ['|'])) = _ := fun f =>
      bar eDoubleOpenDot f fun pre u post h => cat_slot 4 rfl rfl h
    have hne := pyStr_ne_nil a
    have hdg := pyStr_digits a
    have q1 : ∀ pre u post, (of "⟩|>").Takes pre u post → ∃ c, u = [c] ∧ c.isDigit = false := by
      intro pre u post h
      obtain ⟨g, hg, rfl⟩ := takes_of.1 h
      exact ⟨g, rfl, (by decide : ∀ g ∈ "⟩|>".toList, g.isDigit = false) g hg⟩
    have q2 : ∀ pre u post, (lit "]").Takes pre u post → ∃ c, u = [c] ∧ c.isDigit = false := by
      intro pre u post h
      rw [takes_lit] at h
      exact ⟨']', h, by decide⟩
    simp only [passesOpen, runPasses, List.foldl_cons, List.foldl_nil]
    cases sq
    · rw [hit eAu (by rw [hsp]; exact hit_left_digits rfl (takes_of_list rfl) (by decide) q1 hne hdg hc he) (.inr ⟨nAu, rfl⟩),
        nAd.same (wfree _ (by decide) (by decide) (by decide) (by decide) (by unfold FreeOf; decide)),
        nSd.same (wfree _ (by decide) (by decide) (by decide) (by decide) (by unfold FreeOf; decide)),
        nSu.same (wfree _ (by decide) (by decide) (by decide) (by decide) (by unfold FreeOf; decide)),
        nB.same (wfree _ (by decide) (by decide) (by decide) (by decide) (by unfold FreeOf; decide)), hE, hDD, hDt]
    · rw [nAu.same (free _ (by decide) (by decide) (by decide) (by decide)), nAd.same (free _ (by decide) (by decide) (by decide) (by decide)),
        hit eSd (by rw [hsp]; exact hit_left_digits rfl (takes_lit_one rfl) (by decide) q2 hne hdg hc he) (.inl nSd),
        nSu.same (wfree _ (by decide) (by decide) (by decide) (by decide) (by unfold FreeOf; decide)),
        nB.same (wfree _ (by decide) (by decide) (by decide) (by decide) (by unfold FreeOf; decide)), hE, hDD, hDt]
  rw [parse_late (free _ (by decide) (by decide) (by decide) (by cases sq <;> decide))
    (.inl (free _ (by decide) (by decide) (by decide) (by cases sq <;> decide))), hopen]
  -- the last substitutions
  have hp : ')' ∉ "oPs('".toList ++ (openSpinor false sq a ++ ['\'']) := by
    have h1 : ')' ∉ openSpinor false sq a := openSpinor_free (l := [')']) false sq a (by decide) (by decide) (by cases sq <;> decide) ')' (by simp)
    simp only [List.mem_append, not_or]
    exact ⟨by decide, h1, by decide⟩
  have hs : ')' ∉ c :: e :: s' := by
    rw [← hS]
    exact ((signedSum_free (l := [')']) (by decide) (by decide) d ss).append (.cons (by decide) fun _ _ h => by simp at h)) ')' (by simp)
  have e3 : wrap (openSpinor false sq a) ++ (signedSum d ss ++ ['|']) =
      ("oPs('".toList ++ (openSpinor false sq a ++ ['\''])) ++ ')' :: c :: (e :: s') := by
    rw [hS]; simp [wrap]
  have left : ∀ (r : RE) (k : Char) (f : List Char → List Char), k ∈ ['s', 'o', '('] →
      (∀ pre u post, r.Takes pre u post → ∃ d, u = [d, k] ∧ d.isDigit = true) →
      r.sub f 0 [] (wrap (openSpinor false sq a) ++ (signedSum d ss ++ ['|'])) = wrap (openSpinor false sq a) ++ (signedSum d ss ++ ['|']) := by
    intro r k f hk hr
    have e4 : wrap (openSpinor false sq a) ++ (signedSum d ss ++ ['|']) =
        "oPs('".toList ++ (openSpinor false sq a ++ ("')".toList ++ (signedSum d ss ++ ['|']))) := by simp [wrap]
    rw [e4]
    refine pair_left_same hr (by decide) ?_
    have h1 : FreeOf ['s', 'o', '('] (openSpinor false sq a ++ ("')".toList ++ (signedSum d ss ++ ['|']))) :=
      (openSpinor_free false sq a (by decide) (by decide) (by cases sq <;> decide)).append
        ((show FreeOf ['s', 'o', '('] "')".toList by unfold FreeOf; decide).append
          ((signedSum_free (by decide) (by decide) d ss).append (.cons (by decide) fun _ _ h => by simp at h)))
    exact h1 k hk
  have fin : ∀ l, (∀ c ∈ l, c.isDigit = false) → ('+' ∉ l ∧ '-' ∉ l) → '|' ∉ l → (if sq then '[' else '⟨') ∉ l → FreeOf l "oPs('')*".toList →
      FreeOf l (("oPs('".toList ++ (openSpinor false sq a ++ ['\''])) ++ ')' :: '*' :: c :: (e :: s')) := by
    intro l h1 h2 h3 h4 h5
    have h6 : FreeOf l (c :: (e :: s')) := by
      rw [← hS]
      exact (signedSum_free h1 h2 d ss).append (.cons h3 fun _ _ h => by simp at h)
    refine .append (.append ?_ (.append (openSpinor_free false sq a h1 h3 (by simpa using h4)) ?_)) (.cons ?_ (.cons ?_ h6))
    · exact fun k hk hm => h5 k hk ((by decide : "oPs('".toList ⊆ "oPs('')*".toList) hm)
    · exact fun k hk hm => h5 k hk ((by decide : ['\''] ⊆ "oPs('')*".toList) hm)
    · exact fun hk => h5 _ hk (by decide)
    · exact fun hk => h5 _ hk (by decide)
  simp only [passesEnd, replace, runPasses, List.foldl_cons, List.foldl_nil]
  rw [(needs_lit (s := "sqrt") (l := ['q']) (by decide)).same (wfree _ (by decide) (by decide) (by decide) (by cases sq <;> decide) (by unfold FreeOf; decide)),
    left (cat [dig, lit "s"]) 's' _ (by decide) ?_, left (cat [dig, lit "o"]) 'o' _ (by decide) ?_,
    left (cat [notAfter "tr", dig, lit "("]) '(' _ (by decide) ?_, e3, par_star hp (fun h => hs (by simp [h])) hc,
    par_same (r := lit ")(") ?_ hp hs, par_same (r := lit ")o") ?_ hp hs,
    (needs_cat (l := ['/']) 2 rfl (needs_lit (by decide))).same (fin _ (by decide) (by decide) (by decide) (by cases sq <;> decide) (by unfold FreeOf; decide)),
    (needs_cat (l := ['b']) 1 rfl (needs_lit (by decide))).same (fin _ (by decide) (by decide) (by decide) (by cases sq <;> decide) (by unfold FreeOf; decide)),
    ← hS]
  · simp
  · intro pre u post h
    rw [takes_lit] at h
    exact ⟨'o', h, by decide⟩
  · intro pre u post h
    rw [takes_lit] at h
    exact ⟨'(', h, by decide⟩
  · intro pre u post h
    simp only [takes_cat_cons, takes_cat_nil, takes_lit, takes_dig, notAfter, takes_notBehind] at h
    obtain ⟨_, _, rfl, ⟨rfl, -⟩, _, _, rfl, ⟨d, rfl, hd⟩, _, _, rfl, rfl, rfl⟩ := h
    exact ⟨d, rfl, hd⟩
  · intro pre u post h
    simp only [takes_cat_cons, takes_cat_nil, takes_lit, takes_dig] at h
    obtain ⟨_, _, rfl, ⟨d, rfl, hd⟩, _, _, rfl, rfl, rfl⟩ := h
    exact ⟨d, rfl, hd⟩
  · intro pre u post h
    simp only [takes_cat_cons, takes_cat_nil, takes_lit, takes_dig] at h
    obtain ⟨_, _, rfl, ⟨d, rfl, hd⟩, _, _, rfl, rfl, rfl⟩ := h
    exact ⟨d, rfl, hd⟩

/-- C106: a piece open at the right is found as one name exactly if the first label after the bar has one digit. -/
theorem C106_open_end_iff (sq : Bool) (a d : ℕ) (ss : List (Bool × ℕ)) :
    parseText (openEndPiece sq a d ss) = "oPs('".toList ++ openEndPiece sq a d ss ++ "')".toList ↔ d < 10 := by
  refine ⟨fun h => ?_, fun h => C106_open_end h sq a ss⟩
  by_contra hd
  rw [C106_open_end_wrong (by omega)] at h
  have := congrArg List.getLast? h
  rw [List.getLast?_append, List.getLast?_append (l' := "')".toList)] at this
  simp at this

example : openEndPiece false 1 10 [] = "⟨1|10|".toList ∧ parseText "⟨1|10|".toList = "oPs('⟨1|')*10|".toList := by decide +kernel

end Lips

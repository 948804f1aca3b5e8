import Verif.Props.MassText

/-!
Property C106 on texts: pieces with one open index, `⟨a|b|`, `[a|b+c|`, `|a|b⟩`, `|a+b|c]`, …, are put in `oPs('..')` by `_parse` if the label of
the sum next to the bar of the spinor has one digit (particles_eval.py:47-61, 109-164; for more digits see `C106_two_digits_wrong`).
-/

namespace Lips

open RE

/-- `⟨a|` or `[a|`, a sum, and a bar. -/
def openEndPiece (sq : Bool) (a d : ℕ) (ss : List (Bool × ℕ)) : List Char :=
  (if sq then '[' else '⟨') :: (pyStr a ++ '|' :: (signedSum d ss ++ ['|']))

theorem pyStr_one {d : ℕ} (h : d < 10) : ∃ c : Char, c.isDigit = true ∧ pyStr d = [c] := by
  have : ∀ d < 10, (pyStr d).length = 1 := by decide +kernel
  obtain ⟨c, hc⟩ := List.length_eq_one_iff.1 (this d h)
  exact ⟨c, pyStr_digits d c (by rw [hc]; simp), hc⟩

/-- After the first label there is a sign or a bar. -/
theorem signedSum_head {d : ℕ} (h : d < 10) (ss : List (Bool × ℕ)) :
    ∃ c e s, c.isDigit = true ∧ e ∈ "+|-".toList ∧ signedSum d ss ++ ['|'] = c :: e :: s := by
  obtain ⟨c, hc, e⟩ := pyStr_one h
  rcases ss with _ | ⟨p, ss⟩
  · exact ⟨c, '|', [], hc, by decide, by simp [signedSum, e]⟩
  · exact ⟨c, if p.1 then '+' else '-', pyStr p.2 ++ ((ss.flatMap fun p => (if p.1 then '+' else '-') :: pyStr p.2) ++ ['|']), hc,
      by split_ifs <;> decide, by simp [signedSum, e]⟩

theorem openEndPiece_free {l : List Char} (hd : ∀ c ∈ l, c.isDigit = false) (hs : '+' ∉ l ∧ '-' ∉ l) (hb : '|' ∉ l) {sq : Bool}
    (hx : (if sq then '[' else '⟨') ∉ l) (a d : ℕ) (ss : List (Bool × ℕ)) : FreeOf l (openEndPiece sq a d ss) :=
  .cons hx ((freeOf_pyStr hd a).append (.cons hb ((signedSum_free hd hs d ss).append (.cons hb fun _ _ h => by simp at h))))

/-- The spinor `⟨a|` alone is not found in it. -/
theorem left_same {r o b : RE} {x : Char} {l : List Char} {f : List Char → List Char}
    (hr : r = cat [notOpened, o, some1 dig, lit "|", .notAhead (cat (dig :: [b])), noSlot, notClosed])
    (ho : ∀ pre u post, o.Takes pre u post ↔ ∃ c ∈ l, u = [c]) (hl : ∀ c ∈ l, c.isDigit = false) (hs : '+' ∉ l ∧ '-' ∉ l) (hb : '|' ∉ l)
    {a d : ℕ} (hd : d < 10) (ss : List (Bool × ℕ)) :
    r.sub f 0 [] (x :: (pyStr a ++ '|' :: (signedSum d ss ++ ['|']))) = x :: (pyStr a ++ '|' :: (signedSum d ss ++ ['|'])) := by
  have hn : Needs r l := by
    rw [hr]
    refine needs_cat 1 rfl fun pre u post h => ?_
    obtain ⟨c, hc, rfl⟩ := (ho _ _ _).1 h
    exact ⟨c, hc, by simp⟩
  apply sub_none
  refine quiet_cons ?_ (hn.quiet ?_)
  · rw [run_eq_nil]
    intro u post hu hk
    rw [hr] at hk
    obtain ⟨_, _, rfl, h0, hk⟩ := takes_cat_cons.1 hk
    obtain ⟨rfl, -⟩ := takes_notBehind.1 h0
    obtain ⟨_, _, rfl, h1, hk⟩ := takes_cat_cons.1 hk
    obtain ⟨y, -, rfl⟩ := (ho _ _ _).1 h1
    obtain ⟨ds', _, rfl, h2, hk⟩ := takes_cat_cons.1 hk
    obtain ⟨-, hd'⟩ := takes_plus_dig.1 h2
    obtain ⟨_, w', rfl, h3, hk⟩ := takes_cat_cons.1 hk
    rw [takes_lit] at h3
    subst h3
    have e : x :: (pyStr a ++ '|' :: (signedSum d ss ++ ['|'])) = y :: (ds' ++ '|' :: (w' ++ post)) := by simpa using hu
    obtain ⟨rfl, e'⟩ := List.cons.inj e
    obtain ⟨rfl, -, h5⟩ := digits_eq (pyStr_digits a) hd' (m := '|') (m' := '|') (by decide) (by decide) e'
    obtain ⟨_, w1, rfl, h6, hk⟩ := takes_cat_cons.1 hk
    obtain ⟨rfl, -⟩ := takes_notAhead.1 h6
    obtain ⟨v, w2, rfl, h7, hk⟩ := takes_cat_cons.1 hk
    obtain ⟨_, w3, rfl, h8, h9⟩ := takes_cat_cons.1 h7
    obtain ⟨rfl, h10⟩ := takes_notAhead.1 h8
    obtain ⟨c, e, s, hc, he, hce⟩ := signedSum_head hd ss
    rw [hce] at h5
    refine h10 [c, e] s ?_ ?_
    · simpa using h5.symm
    · exact takes_cat_cons.2 ⟨[c], [e], rfl, takes_dig.2 ⟨c, rfl, hc⟩, takes_cat_cons.2 ⟨[e], [], rfl, takes_of.2 ⟨e, he, rfl⟩, takes_cat_nil.2 rfl⟩⟩
  · rw [List.append_nil]
    exact (freeOf_pyStr hl a).append (.cons hb ((signedSum_free hl hs d ss).append (.cons hb fun _ _ h => by simp at h)))

theorem hit_end (sq : Bool) (a d : ℕ) (ss : List (Bool × ℕ)) : eOpenEnd.Hit [] (openEndPiece sq a d ss) [] := by
  have hn : '|' ∉ signedSum d ss := signedSum_free (l := ['|']) (by decide) (by decide) d ss '|' (by simp)
  have ha : '|' ∉ pyStr a := not_mem_pyStr (by decide) a
  have hx : (if sq then '[' else '⟨') ≠ '|' := by cases sq <;> decide
  refine ⟨by simp [openEndPiece], head_unique ?_ ?_⟩
  · refine takes_cat_cons.2 ⟨[], _, rfl, takes_notBehind.2 ⟨rfl, rfl⟩, ?_⟩
    refine takes_cat_cons.2 ⟨[if sq then '[' else '⟨'], pyStr a ++ '|' :: (signedSum d ss ++ ['|']), rfl, takes_of.2 ⟨_, by cases sq <;> decide, rfl⟩, ?_⟩
    refine takes_cat_cons.2 ⟨pyStr a, '|' :: (signedSum d ss ++ ['|']), rfl, takes_plus_dig.2 ⟨pyStr_ne_nil _, pyStr_digits _⟩, ?_⟩
    refine takes_cat_cons.2 ⟨['|'], signedSum d ss ++ ['|'], rfl, takes_lit.2 rfl, ?_⟩
    refine takes_cat_cons.2 ⟨signedSum d ss, ['|'], rfl, ?_, ?_⟩
    · exact takes_plus.2 ⟨signedSum d ss, [], by simp, takes_alt.2 (.inr (takes_signedSum d ss _ _)), takes_star_nil⟩
    refine takes_cat_cons.2 ⟨['|'], [], rfl, takes_lit.2 rfl, ?_⟩
    refine takes_cat_cons.2 ⟨[], [], rfl, ahead_nil cat_dig_nil, ?_⟩
    refine takes_cat_cons.2 ⟨[], [], rfl, noSlot_nil, ?_⟩
    exact takes_cat_cons.2 ⟨[], [], rfl, notClosed_nil, takes_cat_nil.2 rfl⟩
  · intro v w e hv
    have h2 := bars_openEnd _ _ _ hv
    have hc : ((if sq then '[' else '⟨') :: (pyStr a ++ '|' :: signedSum d ss)).count '|' = 1 := by
      rw [List.count_cons_of_ne hx, List.count_append, List.count_eq_zero.2 ha, List.count_cons_self, List.count_eq_zero.2 hn]
    have e' : ((if sq then '[' else '⟨') :: (pyStr a ++ '|' :: signedSum d ss)) ++ ['|'] = v ++ w := by simpa [openEndPiece] using e
    rcases List.append_eq_append_iff.1 e' with ⟨q, h1, h3⟩ | ⟨q, h1, h3⟩
    · rcases q with _ | ⟨z, q⟩
      · rw [List.append_nil] at h1
        rw [h1, hc] at h2
        omega
      · simp only [List.cons_append, List.cons.injEq] at h3
        obtain ⟨rfl, h3⟩ := h3
        have := List.append_eq_nil_iff.1 h3.symm
        rw [h1, this.1]
        simp [openEndPiece]
    · rw [h1, List.count_append] at hc
      omega

/-- A piece with a quotation mark and a parenthesis after it is not read again. -/
theorem closed_same {r : RE} {f : List Char → List Char} {p : List Char} (h2 : TwoBars r)
    (hl : ∀ pre u post, r.Takes pre u post → u.getLast? = some '|' ∧ ¬ ∃ s, post = '\'' :: ')' :: s) (hp : p.count '|' = 1) :
    r.sub f 0 [] (p ++ ['|', '\'', ')']) = p ++ ['|', '\'', ')'] := by
  apply sub_none
  intro b1 x b2 e
  rw [run_eq_nil]
  intro u post hu hk
  have hb := h2 _ _ _ hk
  obtain ⟨h3, h4⟩ := hl _ _ _ hk
  rw [List.append_nil] at hu
  rw [hu] at e
  obtain ⟨u', rfl⟩ : ∃ u', u = u' ++ ['|'] := by
    obtain ⟨w, v, rfl⟩ := List.eq_nil_or_concat u |>.resolve_left (by rintro rfl; simp at h3)
    rw [List.concat_eq_append, List.getLast?_concat, Option.some.injEq] at h3
    exact ⟨w, by rw [h3, List.concat_eq_append]⟩
  have e' : p ++ ['|', '\'', ')'] = (b1 ++ u') ++ ('|' :: post) := by simpa using e
  have hu' : 1 ≤ u'.count '|' := by
    rw [List.count_append] at hb
    have : ['|'].count '|' = 1 := by decide
    omega
  rcases List.append_eq_append_iff.1 e' with ⟨q, h5, h6⟩ | ⟨q, h5, h6⟩
  · rcases q with _ | ⟨z, q⟩
    · rw [List.nil_append] at h6
      exact h4 ⟨[], by simpa using (List.cons.inj h6).2.symm⟩
    · have h7 := congrArg (List.count '|') h6
      have h8 : (['|', '\'', ')']).count '|' = 1 := by decide
      rw [h8, List.cons_append] at h7
      have hz : z = '|' := (List.cons.inj h6).1.symm
      rw [hz, List.count_cons_self, List.count_append, List.count_cons_self] at h7
      omega
  · have h7 : p.count '|' = b1.count '|' + u'.count '|' + q.count '|' := by rw [h5, List.count_append, List.count_append]
    rcases q with _ | ⟨z, q⟩
    · rw [List.nil_append] at h6
      exact h4 ⟨[], by simpa using (List.cons.inj h6).2⟩
    · rw [List.cons_append] at h6
      rw [← (List.cons.inj h6).1, List.count_cons_self] at h7
      omega

theorem double_last (pre u post : List Char) (h : eDoubleOpen.Takes pre u post) : u.getLast? = some '|' ∧ ¬ ∃ s, post = '\'' :: ')' :: s := by
  obtain ⟨_, _, rfl, -, h⟩ := takes_cat_cons.1 h
  obtain ⟨_, _, rfl, -, h⟩ := takes_cat_cons.1 h
  obtain ⟨_, _, rfl, -, h⟩ := takes_cat_cons.1 h
  obtain ⟨_, _, rfl, -, h⟩ := takes_cat_cons.1 h
  obtain ⟨_, _, rfl, -, h⟩ := takes_cat_cons.1 h
  obtain ⟨_, _, rfl, -, h⟩ := takes_cat_cons.1 h
  obtain ⟨b, _, rfl, hb, h⟩ := takes_cat_cons.1 h
  rw [takes_lit] at hb
  have hb : b = ['|'] := hb
  subst hb
  obtain ⟨_, _, rfl, h1, h⟩ := takes_cat_cons.1 h
  obtain ⟨rfl, -⟩ := takes_notAhead.1 h1
  obtain ⟨_, _, rfl, h2, h⟩ := takes_cat_cons.1 h
  obtain ⟨_, _, rfl, h3, h2⟩ := takes_cat_cons.1 h2
  obtain ⟨rfl, -⟩ := takes_notAhead.1 h3
  obtain ⟨_, _, rfl, h4, h2⟩ := takes_cat_cons.1 h2
  obtain ⟨rfl, -⟩ := takes_notAhead.1 h4
  rw [takes_cat_nil] at h2
  subst h2
  obtain ⟨_, _, rfl, h5, h⟩ := takes_cat_cons.1 h
  obtain ⟨rfl, h6⟩ := takes_notAhead.1 h5
  rw [takes_cat_nil] at h
  subst h
  refine ⟨by simp [List.getLast?_append], ?_⟩
  rintro ⟨s, rfl⟩
  exact h6 ['\'', ')'] s rfl (takes_lit.2 rfl)

/-- C106: `_parse` puts `⟨a|b|`, `[a|b|`, `⟨a|b+c|`, `[a|b-c+d|`, … in `oPs('..')`, once, for all labels, if the first after the bar has one
digit. -/
theorem C106_open_end {d : ℕ} (hd : d < 10) (sq : Bool) (a : ℕ) (ss : List (Bool × ℕ)) :
    parseText (openEndPiece sq a d ss) = "oPs('".toList ++ openEndPiece sq a d ss ++ "')".toList := by
  have free : ∀ l, (∀ c ∈ l, c.isDigit = false) → ('+' ∉ l ∧ '-' ∉ l) → '|' ∉ l → (if sq then '[' else '⟨') ∉ l →
      FreeOf l (openEndPiece sq a d ss) := fun l h1 h2 h3 h4 => openEndPiece_free h1 h2 h3 h4 a d ss
  refine parse_open (free _ (by decide) (by decide) (by decide) (by cases sq <;> decide))
    (.inl (free _ (by decide) (by decide) (by decide) (by cases sq <;> decide))) ?_
  have nAd : Needs eAd ['⟩', '>'] := needs_cat 6 rfl (needs_of (by decide))
  have nSu : Needs eSu [']'] := needs_cat 6 rfl (needs_lit (by decide))
  have nB : Needs eOpenBegin ['⟩', ']'] := needs_cat 6 rfl (needs_of (by decide))
  have hAu : ∀ f, eAu.sub f 0 [] (openEndPiece sq a d ss) = openEndPiece sq a d ss := fun f =>
    left_same rfl (takes_of_list rfl) (by decide) (by decide) (by decide) hd ss
  have hSd : ∀ f, eSd.sub f 0 [] (openEndPiece sq a d ss) = openEndPiece sq a d ss := fun f =>
    left_same rfl (takes_lit_one rfl) (by decide) (by decide) (by decide) hd ss
  have hn : '|' ∉ signedSum d ss := signedSum_free (l := ['|']) (by decide) (by decide) d ss '|' (by simp)
  have ha : '|' ∉ pyStr a := not_mem_pyStr (by decide) a
  have hx : (if sq then '[' else '⟨') ≠ '|' := by cases sq <;> decide
  have hD : ∀ f, eDoubleOpen.sub f 0 [] (wrap (openEndPiece sq a d ss)) = wrap (openEndPiece sq a d ss) := by
    intro f
    have e : wrap (openEndPiece sq a d ss) =
        ("oPs('".toList ++ (if sq then '[' else '⟨') :: (pyStr a ++ '|' :: signedSum d ss)) ++ ['|', '\'', ')'] := by
      simp [wrap, openEndPiece]
    rw [e]
    refine closed_same bars_doubleOpen double_last ?_
    rw [List.count_append, List.count_cons_of_ne hx, List.count_append, List.count_eq_zero.2 ha, List.count_cons_self, List.count_eq_zero.2 hn]
    decide
  simp only [passesOpen, runPasses, List.foldl_cons, List.foldl_nil]
  rw [hAu, nAd.same (free _ (by decide) (by decide) (by decide) (by cases sq <;> decide)), hSd,
    nSu.same (free _ (by decide) (by decide) (by decide) (by cases sq <;> decide)),
    nB.same (free _ (by decide) (by decide) (by decide) (by cases sq <;> decide)), sub_hit_all (hit_end sq a d ss), hD, dot_same]
  exact wrap_free (free ['@'] (by decide) (by decide) (by decide) (by cases sq <;> decide)) (by unfold FreeOf; decide) '@' (by simp)

example : openEndPiece true 12 3 [(true, 10)] = "[12|3+10|".toList ∧ parseText "[12|3+10|".toList = "oPs('[12|3+10|')".toList := by decide +kernel

/-! ### Pieces open at the left -/

/-- A bar, a sum, and `|b⟩` or `|b]`. -/
def openBeginPiece (sq : Bool) (d : ℕ) (ss : List (Bool × ℕ)) (b : ℕ) : List Char :=
  ('|' :: signedSum d ss) ++ '|' :: (pyStr b ++ [if sq then ']' else '⟩'])

/-- The last label of a sum. -/
def lastLabel (d : ℕ) (ss : List (Bool × ℕ)) : ℕ := ((ss.getLast?).map Prod.snd).getD d

/-- Before the last label there is a sign or a bar. -/
theorem signedSum_last {d : ℕ} {ss : List (Bool × ℕ)} (h : lastLabel d ss < 10) :
    ∃ s e c, c.isDigit = true ∧ e ∈ "+|-".toList ∧ '|' :: signedSum d ss = s ++ [e, c] := by
  rcases List.eq_nil_or_concat ss with rfl | ⟨rs, p, rfl⟩
  · obtain ⟨c, hc, e⟩ := pyStr_one (d := d) h
    exact ⟨[], '|', c, hc, by decide, by simp [signedSum, e]⟩
  · rw [List.concat_eq_append] at h ⊢
    obtain ⟨c, hc, e⟩ := pyStr_one (d := p.2) (by simpa [lastLabel] using h)
    exact ⟨'|' :: signedSum d rs, if p.1 then '+' else '-', c, hc, by split_ifs <;> decide, by simp [signedSum, e]⟩

theorem openBeginPiece_free {l : List Char} (hd : ∀ c ∈ l, c.isDigit = false) (hs : '+' ∉ l ∧ '-' ∉ l) (hb : '|' ∉ l) {sq : Bool}
    (hx : (if sq then ']' else '⟩') ∉ l) (d : ℕ) (ss : List (Bool × ℕ)) (b : ℕ) : FreeOf l (openBeginPiece sq d ss b) :=
  (FreeOf.cons hb (signedSum_free hd hs d ss)).append (.cons hb ((freeOf_pyStr hd b).append (.cons hx fun _ _ h => by simp at h)))

/-- The spinor `|b⟩` alone is not found in it. -/
theorem right_same {r o : RE} {p1 p2 : List (Char → Bool)} {x : Char} {l : List Char} {f : List Char → List Char}
    (hr : r = cat [notOpened, .notBehind p1, .notBehind p2, .notBehind [among "+|-", Char.isDigit], lit "|", some1 dig, o, notClosed])
    (ho : ∀ pre u post, o.Takes pre u post ↔ ∃ c ∈ l, u = [c]) (hl : ∀ c ∈ l, c.isDigit = false) (hs : '+' ∉ l ∧ '-' ∉ l) (hb : '|' ∉ l)
    (hx : x ≠ '|') {d : ℕ} {ss : List (Bool × ℕ)} (h : lastLabel d ss < 10) (b : ℕ) :
    r.sub f 0 [] (('|' :: signedSum d ss) ++ '|' :: (pyStr b ++ [x])) = ('|' :: signedSum d ss) ++ '|' :: (pyStr b ++ [x]) := by
  apply sub_none
  intro b1 y b2 e
  rw [run_eq_nil]
  intro u post hu hk
  rw [hr] at hk
  obtain ⟨_, _, rfl, h0, hk⟩ := takes_cat_cons.1 hk
  obtain ⟨rfl, -⟩ := takes_notBehind.1 h0
  obtain ⟨_, _, rfl, h0, hk⟩ := takes_cat_cons.1 hk
  obtain ⟨rfl, -⟩ := takes_notBehind.1 h0
  obtain ⟨_, _, rfl, h0, hk⟩ := takes_cat_cons.1 hk
  obtain ⟨rfl, -⟩ := takes_notBehind.1 h0
  obtain ⟨_, _, rfl, h0, hk⟩ := takes_cat_cons.1 hk
  obtain ⟨rfl, hlook⟩ := takes_notBehind.1 h0
  obtain ⟨v, _, rfl, h1, hk⟩ := takes_cat_cons.1 hk
  rw [takes_lit] at h1
  have h1 : v = ['|'] := h1
  subst h1
  obtain ⟨ds', _, rfl, h2, hk⟩ := takes_cat_cons.1 hk
  obtain ⟨-, hd'⟩ := takes_plus_dig.1 h2
  obtain ⟨_, w', rfl, h3, -⟩ := takes_cat_cons.1 hk
  obtain ⟨c, hc, rfl⟩ := (ho _ _ _).1 h3
  rw [List.append_nil] at hu
  rw [hu] at e
  have e : ('|' :: signedSum d ss) ++ '|' :: (pyStr b ++ [x]) = b1 ++ '|' :: (ds' ++ c :: (w' ++ post)) := by simpa using e
  have hbar : '|' ∉ pyStr b ++ [x] := by
    simp only [List.mem_append, List.mem_singleton, not_or]
    exact ⟨not_mem_pyStr (by decide) b, hx.symm⟩
  have hA : FreeOf l ('|' :: signedSum d ss) := .cons hb (signedSum_free hl hs d ss)
  have key : b1 = '|' :: signedSum d ss := by
    rcases List.append_eq_append_iff.1 e with ⟨q, h5, h6⟩ | ⟨q, h5, h6⟩
    · rcases q with _ | ⟨z, q⟩
      · simpa using h5
      · rw [List.cons_append] at h6
        exact absurd (by rw [(List.cons.inj h6).2]; simp) hbar
    · rcases q with _ | ⟨z, q⟩
      · simpa using h5.symm
      · rw [List.cons_append] at h6
        have hq : ∀ g ∈ q, g ∉ l := fun g hg hgl => hA g hgl (by rw [h5]; simp [hg])
        rcases List.append_eq_append_iff.1 (List.cons.inj h6).2 with ⟨q', h7, h8⟩ | ⟨q', h7, h8⟩
        · rcases q' with _ | ⟨z, q'⟩
          · exact absurd (by rw [← (List.cons.inj h8).1]; exact hc) hb
          · rw [List.cons_append] at h8
            exact absurd hc (hq c (by rw [h7, (List.cons.inj h8).1]; simp))
        · rcases q' with _ | ⟨z, q'⟩
          · exact absurd (by rw [(List.cons.inj h8).1]; exact hc) hb
          · rw [List.cons_append] at h8
            have := hd' z (by rw [h7]; simp)
            rw [← (List.cons.inj h8).1] at this
            exact absurd this (by decide)
  obtain ⟨s, g, k, hk1, hg, hgk⟩ := signedSum_last h
  rw [key, hgk] at hlook
  simp only [List.reverse_append, List.reverse_cons, List.reverse_nil, List.nil_append, List.cons_append, List.append_nil, endsIn, among, hk1,
    decide_eq_true hg, Bool.true_and] at hlook
  simp at hlook

theorem hit_begin (sq : Bool) (d : ℕ) (ss : List (Bool × ℕ)) (b : ℕ) : eOpenBegin.Hit [] (openBeginPiece sq d ss b) [] := by
  have nB : Needs eOpenBegin ['⟩', ']'] := needs_cat 6 rfl (needs_of (by decide))
  refine ⟨by simp [openBeginPiece], head_unique ?_ ?_⟩
  · refine takes_cat_cons.2 ⟨[], _, rfl, takes_notBehind.2 ⟨rfl, rfl⟩, ?_⟩
    refine takes_cat_cons.2 ⟨[], _, rfl, ?_, ?_⟩
    · simp only [freeStart, takes_cat_cons, takes_cat_nil, takes_notBehind]
      exact ⟨[], [], rfl, ⟨rfl, rfl⟩, [], [], rfl, ⟨rfl, rfl⟩, [], [], rfl, ⟨rfl, rfl⟩, [], [], rfl, ⟨rfl, rfl⟩, [], [], rfl, ⟨rfl, rfl⟩,
        [], [], rfl, ⟨rfl, rfl⟩, [], [], rfl, ⟨rfl, rfl⟩, rfl⟩
    refine takes_cat_cons.2 ⟨['|'], signedSum d ss ++ '|' :: (pyStr b ++ [if sq then ']' else '⟩']), rfl, takes_lit.2 rfl, ?_⟩
    refine takes_cat_cons.2 ⟨signedSum d ss, '|' :: (pyStr b ++ [if sq then ']' else '⟩']), rfl, ?_, ?_⟩
    · exact takes_plus.2 ⟨signedSum d ss, [], by simp, takes_alt.2 (.inr (takes_signedSum d ss _ _)), takes_star_nil⟩
    refine takes_cat_cons.2 ⟨['|'], pyStr b ++ [if sq then ']' else '⟩'], rfl, takes_lit.2 rfl, ?_⟩
    refine takes_cat_cons.2 ⟨pyStr b, [if sq then ']' else '⟩'], rfl, takes_plus_dig.2 ⟨pyStr_ne_nil _, pyStr_digits _⟩, ?_⟩
    refine takes_cat_cons.2 ⟨[if sq then ']' else '⟩'], [], rfl, takes_of.2 ⟨_, by cases sq <;> decide, rfl⟩, ?_⟩
    exact takes_cat_cons.2 ⟨[], [], rfl, notClosed_nil, takes_cat_nil.2 rfl⟩
  · intro v w e hv
    obtain ⟨c, hc, hm⟩ := nB _ _ _ hv
    have hf : FreeOf ['⟩', ']'] (('|' :: signedSum d ss) ++ '|' :: pyStr b) :=
      (FreeOf.cons (by decide) (signedSum_free (by decide) (by decide) d ss)).append (.cons (by decide) (freeOf_pyStr (by decide) b))
    have e' : (('|' :: signedSum d ss) ++ '|' :: pyStr b) ++ [if sq then ']' else '⟩'] = v ++ w := by simpa [openBeginPiece] using e
    rcases List.append_eq_append_iff.1 e' with ⟨q, h1, h3⟩ | ⟨q, h1, h3⟩
    · rcases q with _ | ⟨z, q⟩
      · rw [List.append_nil] at h1
        exact absurd (h1 ▸ hm) (hf c hc)
      · rw [List.cons_append] at h3
        have := List.append_eq_nil_iff.1 (List.cons.inj h3).2.symm
        rw [h1, this.1, ← (List.cons.inj h3).1]
        simp [openBeginPiece]
    · exact absurd (by rw [h1]; exact List.mem_append_left _ hm) (hf c hc)

/-- A piece with a parenthesis and a quotation mark before it is not read again. -/
theorem opened_same {r : RE} {f : List Char → List Char} {s : List Char} (h2 : TwoBars r)
    (hl : ∀ pre u post, r.Takes pre u post → u.head? = some '|' ∧ ¬ ∃ s, pre = '\'' :: '(' :: s) (hs : s.count '|' = 1) :
    r.sub f 0 [] ("oPs('".toList ++ '|' :: s) = "oPs('".toList ++ '|' :: s := by
  apply sub_none
  intro b1 x b2 e
  rw [run_eq_nil]
  intro u post hu hk
  have hb := h2 _ _ _ hk
  obtain ⟨h3, h4⟩ := hl _ _ _ hk
  rw [List.append_nil] at hu
  have hx : x = '|' := by
    rcases u with _ | ⟨z, u⟩
    · simp at h3
    · rw [List.cons_append] at hu
      rw [(List.cons.inj hu).1]
      simpa using h3
  have hc1 : 2 ≤ (x :: b2).count '|' := by rw [hu, List.count_append]; omega
  have hc := congrArg (List.count '|') e
  have h0 : ("oPs('".toList).count '|' = 0 := by decide
  rw [List.count_append, List.count_append, List.count_cons_self, hs, h0] at hc
  have hb1 : '|' ∉ b1 := List.count_eq_zero.1 (by omega)
  have hp : '|' ∉ "oPs('".toList := by decide
  have key : b1 = "oPs('".toList := by
    rw [hx] at e
    rcases List.append_eq_append_iff.1 e with ⟨q, h5, h6⟩ | ⟨q, h5, h6⟩
    · rcases q with _ | ⟨z, q⟩
      · simpa using h5
      · rw [List.cons_append] at h6
        exact absurd (by rw [h5, ← (List.cons.inj h6).1]; simp) hb1
    · rcases q with _ | ⟨z, q⟩
      · simpa using h5.symm
      · rw [List.cons_append] at h6
        exact absurd (by rw [h5, ← (List.cons.inj h6).1]; simp) hp
  exact h4 ⟨['s', 'P', 'o'], by rw [key]; decide⟩

theorem double_first (pre u post : List Char) (h : eDoubleOpen.Takes pre u post) : u.head? = some '|' ∧ ¬ ∃ s, pre = '\'' :: '(' :: s := by
  obtain ⟨_, _, rfl, h0, h⟩ := takes_cat_cons.1 h
  obtain ⟨rfl, hno⟩ := takes_notBehind.1 h0
  obtain ⟨_, _, rfl, h0, h⟩ := takes_cat_cons.1 h
  obtain ⟨rfl, -⟩ := takes_notBehind.1 h0
  obtain ⟨v1, _, rfl, h0, h⟩ := takes_cat_cons.1 h
  have e1 : v1 = [] := by
    simp only [freeStart, takes_cat_cons, takes_cat_nil, takes_notBehind] at h0
    obtain ⟨_, _, rfl, ⟨rfl, -⟩, _, _, rfl, ⟨rfl, -⟩, _, _, rfl, ⟨rfl, -⟩, _, _, rfl, ⟨rfl, -⟩, _, _, rfl, ⟨rfl, -⟩, _, _, rfl, ⟨rfl, -⟩, _, _, rfl,
      ⟨rfl, -⟩, rfl⟩ := h0
    rfl
  subst e1
  obtain ⟨v2, _, rfl, h0, h⟩ := takes_cat_cons.1 h
  have e2 : v2 = [] := by
    simp only [noCorner, takes_cat_cons, takes_cat_nil, takes_notBehind] at h0
    obtain ⟨_, _, rfl, ⟨rfl, -⟩, _, _, rfl, ⟨rfl, -⟩, _, _, rfl, ⟨rfl, -⟩, _, _, rfl, ⟨rfl, -⟩, rfl⟩ := h0
    rfl
  subst e2
  obtain ⟨v, _, rfl, h1, -⟩ := takes_cat_cons.1 h
  rw [takes_lit] at h1
  have h1 : v = ['|'] := h1
  subst h1
  refine ⟨rfl, ?_⟩
  rintro ⟨s, rfl⟩
  simp [endsIn] at hno

/-- C106: `_parse` puts `|a|b⟩`, `|a|b]`, `|a+b|c⟩`, `|a-b+c|d]`, … in `oPs('..')`, once, for all labels, if the last before the bar has one
digit. -/
theorem C106_open_begin {d : ℕ} {ss : List (Bool × ℕ)} (h : lastLabel d ss < 10) (sq : Bool) (b : ℕ) :
    parseText (openBeginPiece sq d ss b) = "oPs('".toList ++ openBeginPiece sq d ss b ++ "')".toList := by
  have free : ∀ l, (∀ c ∈ l, c.isDigit = false) → ('+' ∉ l ∧ '-' ∉ l) → '|' ∉ l → (if sq then ']' else '⟩') ∉ l →
      FreeOf l (openBeginPiece sq d ss b) := fun l h1 h2 h3 h4 => openBeginPiece_free h1 h2 h3 h4 d ss b
  have hx : (if sq then ']' else '⟩') ≠ '|' := by cases sq <;> decide
  refine parse_open (free _ (by decide) (by decide) (by decide) (by cases sq <;> decide))
    (.inr (free _ (by decide) (by decide) (by decide) (by cases sq <;> decide))) ?_
  have nAu : Needs eAu ['⟨', '<'] := needs_cat 1 rfl (needs_of (by decide))
  have nSd : Needs eSd ['['] := needs_cat 1 rfl (needs_lit (by decide))
  have nE : Needs eOpenEnd ['⟨', '<', '['] := needs_cat 1 rfl (needs_of (by decide))
  have hAd : ∀ f, eAd.sub f 0 [] (openBeginPiece sq d ss b) = openBeginPiece sq d ss b := fun f =>
    right_same rfl (takes_of_list rfl) (by decide) (by decide) (by decide) hx h b
  have hSu : ∀ f, eSu.sub f 0 [] (openBeginPiece sq d ss b) = openBeginPiece sq d ss b := fun f =>
    right_same rfl (takes_lit_one rfl) (by decide) (by decide) (by decide) hx h b
  have hn : '|' ∉ signedSum d ss := signedSum_free (l := ['|']) (by decide) (by decide) d ss '|' (by simp)
  have hb : '|' ∉ pyStr b := not_mem_pyStr (by decide) b
  have hD : ∀ f, eDoubleOpen.sub f 0 [] (wrap (openBeginPiece sq d ss b)) = wrap (openBeginPiece sq d ss b) := by
    intro f
    have e : wrap (openBeginPiece sq d ss b) =
        "oPs('".toList ++ '|' :: (signedSum d ss ++ '|' :: (pyStr b ++ [if sq then ']' else '⟩', '\'', ')'])) := by
      simp [wrap, openBeginPiece]
    rw [e]
    refine opened_same bars_doubleOpen double_first ?_
    rw [List.count_append, List.count_eq_zero.2 hn, List.count_cons_self, List.count_append, List.count_eq_zero.2 hb, List.count_cons_of_ne hx]
    decide
  simp only [passesOpen, runPasses, List.foldl_cons, List.foldl_nil]
  rw [nAu.same (free _ (by decide) (by decide) (by decide) (by cases sq <;> decide)), hAd,
    nSd.same (free _ (by decide) (by decide) (by decide) (by cases sq <;> decide)), hSu, sub_hit_all (hit_begin sq d ss b),
    nE.same (wrap_free (free _ (by decide) (by decide) (by decide) (by cases sq <;> decide)) (by unfold FreeOf; decide)), hD, dot_same]
  exact wrap_free (free ['@'] (by decide) (by decide) (by decide) (by cases sq <;> decide)) (by unfold FreeOf; decide) '@' (by simp)

example : openBeginPiece true 12 [(true, 3)] 10 = "|12+3|10]".toList ∧ lastLabel 12 [(true, 3)] < 10 ∧
    parseText "|12+3|10]".toList = "oPs('|12+3|10]')".toList := by decide +kernel

end Lips

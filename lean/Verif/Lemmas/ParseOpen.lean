import Verif.Lemmas.ParseInsert

/-! The substitutions of `_parse` for open spinor strings find nothing in an expression of invariants. -/

namespace Lips

open RE

variable {pre u post : List Char}

/-! ### How names are made -/

/-- A beginning without bar, characters of strings, perhaps a closing bracket. -/
theorem name_form {l : Leaf} (h : l.Ok) : ∃ a w e, l.name = a ++ (w ++ e) ∧ '|' ∉ a ∧ (∀ x ∈ w, inString x) ∧
    (e = [] ∨ ∃ c ∈ "⟩]".toList, e = [c]) := by
  have dg : ∀ {ds : List Char}, Digits ds → ∀ x ∈ ds, inString x := fun h x hx => .inl (h.2 x hx)
  have wd : ∀ (t : String) {ds : List Char}, '|' ∉ t.toList → Digits ds → l.name = t.toList ++ ds → ∃ a w e, l.name = a ++ (w ++ e) ∧ '|' ∉ a ∧
      (∀ x ∈ w, inString x) ∧ (e = [] ∨ ∃ c ∈ "⟩]".toList, e = [c]) := fun t ds ht hd e =>
    ⟨t.toList, ds, [], by rw [e]; simp, ht, dg hd, .inl rfl⟩
  cases l with
  | two sq bar a b =>
    obtain ⟨ha, hb, -⟩ := h
    refine ⟨[openBr sq], a ++ '|' :: b, [closeBr sq], by simp [Leaf.name], by cases sq <;> decide, ?_, .inr ⟨_, by cases sq <;> decide, rfl⟩⟩
    intro x hx
    simp only [List.mem_append, List.mem_cons] at hx
    rcases hx with hx | rfl | hx
    · exact dg ha x hx
    · exact bar_inString
    · exact dg hb x hx
  | mandel p ds => exact wd "s_" (by decide) h.2 rfl
  | omega ds => exact wd "Ω_" (by decide) h rfl
  | pi ds => exact wd "Π_" (by decide) h rfl
  | tr5l ds => exact wd "tr5_" (by decide) h rfl
  | tr5s s ss =>
    refine ⟨"tr5(".toList, (s.text ++ joined ss) ++ [')'], [], by simp [Leaf.name], by decide, ?_, .inl rfl⟩
    intro x hx
    rcases List.mem_append.mp hx with hx | hx
    · exact (slots_chars h x hx).imp_right ((by decide : ∀ x ∈ ['|', '+', '-'], x ∈ "()+|-".toList) x)
    · exact .inr ((by decide : ∀ x ∈ [')'], x ∈ "()+|-".toList) x hx)
  | trace s ss =>
    refine ⟨"tr(".toList, (s.text ++ joined ss) ++ [')'], [], by simp [Leaf.name], by decide, ?_, .inl rfl⟩
    intro x hx
    rcases List.mem_append.mp hx with hx | hx
    · exact (slots_chars h x hx).imp_right ((by decide : ∀ x ∈ ['|', '+', '-'], x ∈ "()+|-".toList) x)
    · exact .inr ((by decide : ∀ x ∈ [')'], x ∈ "()+|-".toList) x hx)
  | delta c cs =>
    refine ⟨"Δ_".toList, c ++ cs.flatMap (fun k => '|' :: k), [], by simp [Leaf.name], by decide, ?_, .inl rfl⟩
    intro x hx
    simp only [List.mem_append, List.mem_flatMap, List.mem_cons] at hx
    rcases hx with hx | ⟨k, hk, rfl | hx⟩
    · exact dg (h.2 c (by simp)).1 x hx
    · exact bar_inString
    · exact dg (h.2 k (by simp [hk])).1 x hx
  | str o a ss b c =>
    obtain ⟨ho, hc, ha, hb, -, hs⟩ := h
    refine ⟨[o], a :: (joined ss ++ ['|', b]), [c], by simp [Leaf.name], ?_, ?_, .inr ⟨c, (by decide : ∀ x ∈ ['⟩', ']'], x ∈ "⟩]".toList) c hc, rfl⟩⟩
    · intro hx
      rw [List.mem_singleton] at hx
      exact absurd (hx ▸ ho) (by decide)
    · intro x hx
      simp only [List.mem_append, List.mem_cons, List.not_mem_nil, or_false] at hx
      rcases hx with rfl | hx | rfl | rfl
      · exact .inl ha
      · exact (joined_chars hs x hx).imp_right ((by decide : ∀ x ∈ ['|', '+', '-', '(', ')'], x ∈ "()+|-".toList) x)
      · exact bar_inString
      · exact .inl hb

/-- After a bar come characters of strings and perhaps a closing bracket. -/
theorem after_bar {l : Leaf} (h : l.Ok) {b1 b2 : List Char} (e : l.name = b1 ++ '|' :: b2) :
    ∃ w e, b2 = w ++ e ∧ (∀ x ∈ w, inString x) ∧ (e = [] ∨ ∃ c ∈ "⟩]".toList, e = [c]) := by
  obtain ⟨a, w, z, h1, ha, hw, hz⟩ := name_form h
  have hzb : '|' ∉ z := by
    rcases hz with rfl | ⟨c, hc, rfl⟩
    · simp
    · intro hx
      rw [List.mem_singleton] at hx
      exact absurd (hx ▸ hc) (by decide)
  rw [h1] at e
  rcases List.append_eq_append_iff.mp e with ⟨c, rfl, h2⟩ | ⟨c, h1, h2⟩
  · rcases List.append_eq_append_iff.mp h2 with ⟨d, rfl, h3⟩ | ⟨d, h3, h4⟩
    · exact absurd (by rw [h3]; simp) hzb
    · rcases d with _ | ⟨x, d⟩
      · exact absurd (by rw [List.nil_append] at h4; rw [← h4]; simp) hzb
      · simp only [List.cons_append, List.cons.injEq] at h4
        obtain ⟨-, h4⟩ := h4
        exact ⟨d, z, h4, fun y hy => hw y (by rw [h3]; simp [hy]), hz⟩
  · rcases c with _ | ⟨x, c⟩
    · rw [List.nil_append] at h2
      rcases w with _ | ⟨y, w⟩
      · exact absurd (by rw [List.nil_append] at h2; rw [← h2]; simp) hzb
      · simp only [List.cons_append, List.cons.injEq] at h2
        exact ⟨w, z, h2.2, fun y hy => hw y (by simp [hy]), hz⟩
    · simp only [List.cons_append, List.cons.injEq] at h2
      obtain ⟨rfl, h2⟩ := h2
      exact absurd (by rw [h1]; simp) ha

/-- Only the first character may be an opening bracket. -/
theorem name_tail {l : Leaf} (h : l.Ok) : ∃ c s, l.name = c :: s ∧ '⟨' ∉ s ∧ '[' ∉ s := by
  obtain ⟨c, s, e, -⟩ := name_head h
  have none : '⟨' ∉ "0123456789".toList ++ l.alphabet → '[' ∉ "0123456789".toList ++ l.alphabet → ∃ c s, l.name = c :: s ∧ '⟨' ∉ s ∧ '[' ∉ s := by
    intro h1 h2
    have key : ∀ x ∈ s, x ∈ "0123456789".toList ++ l.alphabet := by
      intro x hx
      rcases text_name_only h x (List.mem_append_right _ (by rw [e]; simp [hx])) with h | h
      · exact List.mem_append_left _ (digit_mem h)
      · exact List.mem_append_right _ h
    exact ⟨c, s, e, fun hx => h1 (key _ hx), fun hx => h2 (key _ hx)⟩
  have tail : ∀ o w, l.name = o :: w → (∀ x ∈ w, inString x ∨ x ∈ "⟩]".toList) → ∃ c s, l.name = c :: s ∧ '⟨' ∉ s ∧ '[' ∉ s := by
    intro o w e hw
    refine ⟨o, w, e, ?_, ?_⟩
    · intro hx
      rcases hw _ hx with (h | h) | h
      · exact absurd h (by decide)
      · exact absurd h (by decide)
      · exact absurd h (by decide)
    · intro hx
      rcases hw _ hx with (h | h) | h
      · exact absurd h (by decide)
      · exact absurd h (by decide)
      · exact absurd h (by decide)
  cases l with
  | two sq bar a b =>
    obtain ⟨ha, hb, -⟩ := h
    refine tail (openBr sq) (a ++ '|' :: (b ++ [closeBr sq])) (by simp [Leaf.name]) ?_
    intro x hx
    simp only [List.mem_append, List.mem_cons, List.not_mem_nil, or_false] at hx
    rcases hx with hx | rfl | hx | rfl
    · exact .inl (.inl (ha.2 x hx))
    · exact .inl bar_inString
    · exact .inl (.inl (hb.2 x hx))
    · exact .inr (by cases sq <;> decide)
  | str o a ss b c =>
    obtain ⟨ho, hc, ha, hb, -, hs⟩ := h
    refine tail o (a :: (joined ss ++ ['|', b, c])) rfl ?_
    intro x hx
    simp only [List.mem_append, List.mem_cons, List.not_mem_nil, or_false] at hx
    rcases hx with rfl | hx | rfl | rfl | rfl
    · exact .inl (.inl ha)
    · exact .inl ((joined_chars hs x hx).imp_right ((by decide : ∀ x ∈ ['|', '+', '-', '(', ')'], x ∈ "()+|-".toList) x))
    · exact .inl bar_inString
    · exact .inl (.inl hb)
    · exact .inr ((by decide : ∀ x ∈ ['⟩', ']'], x ∈ "⟩]".toList) _ hc)
  | mandel p ds =>
    exact none (by decide : '⟨' ∉ "0123456789".toList ++ "sS_".toList) (by decide : '[' ∉ "0123456789".toList ++ "sS_".toList)
  | omega ds =>
    exact none (by decide : '⟨' ∉ "0123456789".toList ++ "Ω_".toList) (by decide : '[' ∉ "0123456789".toList ++ "Ω_".toList)
  | pi ds =>
    exact none (by decide : '⟨' ∉ "0123456789".toList ++ "Π_".toList) (by decide : '[' ∉ "0123456789".toList ++ "Π_".toList)
  | tr5l ds =>
    exact none (by decide : '⟨' ∉ "0123456789".toList ++ "tr5_".toList) (by decide : '[' ∉ "0123456789".toList ++ "tr5_".toList)
  | tr5s s ss =>
    exact none (by decide : '⟨' ∉ "0123456789".toList ++ "tr5(|+-)".toList) (by decide : '[' ∉ "0123456789".toList ++ "tr5(|+-)".toList)
  | trace s ss =>
    exact none (by decide : '⟨' ∉ "0123456789".toList ++ "tr(|+-)".toList) (by decide : '[' ∉ "0123456789".toList ++ "tr(|+-)".toList)
  | delta c cs =>
    exact none (by decide : '⟨' ∉ "0123456789".toList ++ "Δ_|".toList) (by decide : '[' ∉ "0123456789".toList ++ "Δ_|".toList)

theorem name_all {l : Leaf} (h : l.Ok) : ∀ x ∈ l.name, x ∈ allChars := by
  intro x hx
  rcases text_name_only h x (List.mem_append_right _ hx) with h' | h'
  · exact List.mem_append_left _ (List.mem_append_left _ (digit_mem h'))
  · exact alphabet_all h x h'

/-! ### Patterns that begin with an opening bracket -/

theorem quiet_opening {rs : List RE} (hs : ∀ c ∈ allChars, c ≠ '⟨' → c ≠ '[' → (cat (notOpened :: rs)).starts c = false) {l : Leaf} (h : l.Ok) :
    (cat (notOpened :: rs)).Quiet pre (wrap l.name) post := by
  obtain ⟨c, s, e, h1, h2⟩ := name_tail h
  have hw : wrap l.name = "oPs('".toList ++ c :: (s ++ "')".toList) := by rw [e]; simp [wrap]
  have hst : ∀ x ∈ s, (cat (notOpened :: rs)).starts x = false := fun x hx =>
    hs x (name_all h x (by rw [e]; simp [hx])) (fun e => h1 (e ▸ hx)) (fun e => h2 (e ▸ hx))
  rw [hw]
  refine quiet_head ?_ rfl ?_
  · intro x hx
    have h3 := (by decide : ∀ x ∈ "oPs('".toList, x ∈ allChars ∧ x ≠ '⟨' ∧ x ≠ '[') x hx
    exact hs x h3.1 h3.2.1 h3.2.2
  · intro x hx
    rcases List.mem_append.mp hx with hx | hx
    · exact hst x hx
    · have h3 := (by decide : ∀ x ∈ "')".toList, x ∈ allChars ∧ x ≠ '⟨' ∧ x ≠ '[') x hx
      exact hs x h3.1 h3.2.1 h3.2.2

/-! ### Patterns that begin with a bar -/

/-- At every bar of the name nothing is found. -/
theorem quiet_bar {r : RE} (hs : ∀ c ∈ allChars, c ≠ '|' → r.starts c = false) {l : Leaf} (h : l.Ok)
    (hb : ∀ b1 b2, l.name = b1 ++ '|' :: b2 → r.run (b1.reverse ++ ("oPs('".toList.reverse ++ pre), '|' :: (b2 ++ ("')".toList ++ post))) = []) :
    r.Quiet pre (wrap l.name) post := by
  have hw : wrap l.name = "oPs('".toList ++ (l.name ++ "')".toList) := by simp [wrap]
  rw [hw]
  refine quiet_append (quiet_of_starts fun x hx => ?_) (quiet_append ?_ (quiet_of_starts fun x hx => ?_))
  · have h3 := (by decide : ∀ x ∈ "oPs('".toList, x ∈ allChars ∧ x ≠ '|') x hx
    exact hs x h3.1 h3.2
  · intro b1 c b2 e
    by_cases hc : c = '|'
    · subst hc
      exact hb b1 b2 e
    · exact run_of_starts (hs c (name_all h c (by rw [e]; simp)) hc) _
  · have h3 := (by decide : ∀ x ∈ "')".toList, x ∈ allChars ∧ x ≠ '|') x hx
    exact hs x h3.1 h3.2

/-- A pattern that ends with a closing bracket without a quotation mark after it. -/
theorem quiet_closing {r : RE} (hs : ∀ c ∈ allChars, c ≠ '|' → r.starts c = false)
    (ht : ∀ pre u post, r.Takes pre u post → ∃ v c, u = '|' :: (v ++ [c]) ∧ (∀ x ∈ v, inString x) ∧ c ∈ "⟩]>".toList ∧
      ∀ s, post ≠ "')".toList ++ s) {l : Leaf} (h : l.Ok) : r.Quiet pre (wrap l.name) post := by
  apply quiet_bar hs h
  intro b1 b2 e
  rw [run_eq_nil]
  intro u' post' hu hT
  obtain ⟨v, c, rfl, hv, hc, hp⟩ := ht _ _ _ hT
  obtain ⟨w, z, rfl, hw, hz⟩ := after_bar h e
  simp only [List.cons_append, List.cons.injEq, true_and, List.append_assoc] at hu
  rcases hz with rfl | ⟨d, hd, rfl⟩
  · have hu' : w ++ '\'' :: (')' :: post) = v ++ c :: post' := by simpa using hu
    obtain ⟨-, h2, -⟩ := split_at_close hw hv (by rintro (h | h) <;> exact absurd h (by decide)) (not_inString hc) hu'
    rw [← h2] at hc
    exact absurd hc (by decide)
  · have hu' : w ++ d :: ("')".toList ++ post) = v ++ c :: post' := by simpa using hu
    obtain ⟨-, -, h3⟩ := split_at_close hw hv
      (not_inString ((by decide : ∀ x ∈ "⟩]".toList, x ∈ "⟩]>".toList) d hd)) (not_inString hc) hu'
    exact hp post h3.symm

theorem isTest_takes {r : RE} (h : r.isTest = true) (ht : r.Takes pre u post) : u = [] := by
  have := isTest_run h ht
  simp only [Prod.mk.injEq] at this
  have h2 := this.2
  simpa using h2

theorem takes_notClosed (h : (cat [notClosed]).Takes pre u post) : u = [] ∧ ∀ s, post ≠ "')".toList ++ s := by
  simp only [takes_cat_cons, takes_cat_nil, notClosed, takes_notAhead] at h
  obtain ⟨_, _, rfl, ⟨rfl, hn⟩, rfl⟩ := h
  refine ⟨rfl, ?_⟩
  rintro s rfl
  exact hn "')".toList s rfl (takes_lit.mpr rfl)

theorem takes_openSlot_chars (h : openSlot.Takes pre u post) : ∀ c ∈ u, inString c := by
  simp only [openSlot, takes_cat_cons, takes_cat_nil, takes_plus_dig] at h
  obtain ⟨a, _, rfl, ⟨-, ha⟩, b, _, rfl, hb, rfl⟩ := h
  have hb' := takes_star_all (P := inString) (fun pre u post h => by
    simp only [takes_cat_cons, takes_cat_nil, takes_plus_dig, takes_of] at h
    obtain ⟨_, _, rfl, ⟨c, hc, rfl⟩, d, _, rfl, ⟨-, hd⟩, rfl⟩ := h
    intro x hx
    simp only [List.append_nil, List.mem_append, List.mem_singleton] at hx
    rcases hx with rfl | hx
    · exact .inr ((by decide : ∀ x ∈ "+|-".toList, x ∈ "()+|-".toList) _ hc)
    · exact .inl (hd x hx)) hb
  intro x hx
  simp only [List.append_nil, List.mem_append] at hx
  rcases hx with hx | hx
  · exact .inl (ha x hx)
  · exact hb' x hx

theorem takes_parSlot_chars (h : (cat [lit "(", openSlot, lit ")"]).Takes pre u post) : ∀ c ∈ u, inString c := by
  simp only [takes_cat_cons, takes_cat_nil, takes_lit] at h
  obtain ⟨_, _, rfl, rfl, m, _, rfl, hm, _, _, rfl, rfl, rfl⟩ := h
  intro x hx
  simp only [List.append_nil, List.mem_append] at hx
  rcases hx with hx | hx | hx
  · exact .inr ((by decide : ∀ x ∈ "(".toList, x ∈ "()+|-".toList) x hx)
  · exact takes_openSlot_chars hm x hx
  · exact .inr ((by decide : ∀ x ∈ ")".toList, x ∈ "()+|-".toList) x hx)

theorem takes_wideSlot_chars (h : wideSlot.Takes pre u post) : ∀ c ∈ u, inString c := by
  simp only [wideSlot, takes_cat_cons, takes_cat_nil, takes_lit, digOr, takes_plus_cls] at h
  obtain ⟨_, _, rfl, rfl, m, _, rfl, ⟨-, hm⟩, b, _, rfl, hb, _, _, rfl, rfl, rfl⟩ := h
  have hb' := takes_star_all (P := inString) (fun pre u post h => by
    simp only [takes_cat_cons, takes_cat_nil, takes_plus_dig, takes_of] at h
    obtain ⟨_, _, rfl, ⟨c, hc, rfl⟩, d, _, rfl, ⟨-, hd⟩, rfl⟩ := h
    intro x hx
    simp only [List.append_nil, List.mem_append, List.mem_singleton] at hx
    rcases hx with rfl | hx
    · exact .inr ((by decide : ∀ x ∈ "+|-".toList, x ∈ "()+|-".toList) _ hc)
    · exact .inl (hd x hx)) hb
  intro x hx
  simp only [List.append_nil, List.mem_append] at hx
  rcases hx with hx | hx | hx | hx
  · exact .inr ((by decide : ∀ x ∈ "(".toList, x ∈ "()+|-".toList) x hx)
  · have := hm x hx
    simp only [Bool.or_eq_true, decide_eq_true_eq] at this
    exact this.imp_right ((by decide : ∀ x ∈ "+|-".toList, x ∈ "()+|-".toList) x)
  · exact hb' x hx
  · exact .inr ((by decide : ∀ x ∈ ")".toList, x ∈ "()+|-".toList) x hx)

theorem takes_plus_chars {a : RE} (ha : ∀ pre u post, a.Takes pre u post → ∀ c ∈ u, inString c) (h : (some1 a).Takes pre u post) : ∀ c ∈ u, inString c := by
  obtain ⟨v, w, rfl, hv, hw⟩ := takes_plus.mp h
  intro x hx
  rcases List.mem_append.mp hx with hx | hx
  · exact ha _ _ _ hv x hx
  · exact takes_star_all ha hw x hx

theorem takes_eAd (h : eAd.Takes pre u post) : ∃ v c, u = '|' :: (v ++ [c]) ∧ (∀ x ∈ v, inString x) ∧ c ∈ "⟩]>".toList ∧ ∀ s, post ≠ "')".toList ++ s := by
  unfold eAd at h
  rw [takes_cat_cons] at h
  obtain ⟨v0, _, rfl, h0, h⟩ := h
  obtain rfl := isTest_takes rfl h0
  rw [takes_cat_cons] at h
  obtain ⟨v1, _, rfl, h0, h⟩ := h
  obtain rfl := isTest_takes rfl h0
  rw [takes_cat_cons] at h
  obtain ⟨v1, _, rfl, h0, h⟩ := h
  obtain rfl := isTest_takes rfl h0
  rw [takes_cat_cons] at h
  obtain ⟨v1, _, rfl, h0, h⟩ := h
  obtain rfl := isTest_takes rfl h0
  rw [takes_cat_cons, ] at h
  obtain ⟨_, _, rfl, hl, h⟩ := h
  rw [takes_lit] at hl
  subst hl
  rw [takes_cat_cons] at h
  obtain ⟨ds, _, rfl, hd, h⟩ := h
  rw [takes_plus_dig] at hd
  rw [takes_cat_cons] at h
  obtain ⟨_, _, rfl, hc, h⟩ := h
  obtain ⟨c, hcm, rfl⟩ := takes_of.mp hc
  obtain ⟨rfl, hp⟩ := takes_notClosed h
  exact ⟨ds, c, by simp, fun x hx => .inl (hd.2 x hx), (by decide : ∀ x ∈ "⟩>".toList, x ∈ "⟩]>".toList) c hcm, hp⟩

theorem takes_eSu (h : eSu.Takes pre u post) : ∃ v c, u = '|' :: (v ++ [c]) ∧ (∀ x ∈ v, inString x) ∧ c ∈ "⟩]>".toList ∧ ∀ s, post ≠ "')".toList ++ s := by
  unfold eSu at h
  rw [takes_cat_cons] at h
  obtain ⟨v0, _, rfl, h0, h⟩ := h
  obtain rfl := isTest_takes rfl h0
  rw [takes_cat_cons] at h
  obtain ⟨v1, _, rfl, h0, h⟩ := h
  obtain rfl := isTest_takes rfl h0
  rw [takes_cat_cons] at h
  obtain ⟨v1, _, rfl, h0, h⟩ := h
  obtain rfl := isTest_takes rfl h0
  rw [takes_cat_cons] at h
  obtain ⟨v1, _, rfl, h0, h⟩ := h
  obtain rfl := isTest_takes rfl h0
  rw [takes_cat_cons, ] at h
  obtain ⟨_, _, rfl, hl, h⟩ := h
  rw [takes_lit] at hl
  subst hl
  rw [takes_cat_cons] at h
  obtain ⟨ds, _, rfl, hd, h⟩ := h
  rw [takes_plus_dig] at hd
  rw [takes_cat_cons] at h
  obtain ⟨_, _, rfl, hc, h⟩ := h
  rw [takes_lit] at hc
  subst hc
  obtain ⟨rfl, hp⟩ := takes_notClosed h
  exact ⟨ds, ']', by simp, fun x hx => .inl (hd.2 x hx), by decide, hp⟩

theorem takes_eOpenBegin (h : eOpenBegin.Takes pre u post) :
    ∃ v c, u = '|' :: (v ++ [c]) ∧ (∀ x ∈ v, inString x) ∧ c ∈ "⟩]>".toList ∧ ∀ s, post ≠ "')".toList ++ s := by
  unfold eOpenBegin at h
  rw [takes_cat_cons] at h
  obtain ⟨v0, _, rfl, h0, h⟩ := h
  obtain rfl := isTest_takes rfl h0
  rw [takes_cat_cons] at h
  obtain ⟨v1, _, rfl, h0, h⟩ := h
  obtain rfl := isTest_takes rfl h0
  rw [takes_cat_cons, ] at h
  obtain ⟨_, _, rfl, hl, h⟩ := h
  rw [takes_lit] at hl
  subst hl
  rw [takes_cat_cons] at h
  obtain ⟨m, _, rfl, hm, h⟩ := h
  have hmc := takes_plus_chars (fun pre u post h => by
    rcases takes_alt.mp h with h | h
    · exact takes_parSlot_chars h
    · exact takes_openSlot_chars h) hm
  rw [takes_cat_cons, ] at h
  obtain ⟨_, _, rfl, hl, h⟩ := h
  rw [takes_lit] at hl
  subst hl
  rw [takes_cat_cons] at h
  obtain ⟨ds, _, rfl, hd, h⟩ := h
  rw [takes_plus_dig] at hd
  rw [takes_cat_cons] at h
  obtain ⟨_, _, rfl, hc, h⟩ := h
  obtain ⟨c, hcm, rfl⟩ := takes_of.mp hc
  obtain ⟨rfl, hp⟩ := takes_notClosed h
  refine ⟨m ++ '|' :: ds, c, by simp, ?_, (by decide : ∀ x ∈ "⟩]".toList, x ∈ "⟩]>".toList) c hcm, hp⟩
  intro x hx
  simp only [List.mem_append, List.mem_cons] at hx
  rcases hx with hx | rfl | hx
  · exact hmc x hx
  · exact bar_inString
  · exact .inl (hd.2 x hx)

/-! ### Strings open at both ends -/

/-- What the conditions before a bar exclude. -/
def Blocked (q : List Char) : Prop :=
  (∃ d x s, q = d :: x :: s ∧ d.isDigit = true ∧ x ∈ "([⟨<+|-".toList) ∨
  (∃ d x s, q = ')' :: d :: x :: s ∧ d.isDigit = true ∧ x ∈ "+|-".toList) ∨
  (∃ ds x s, q = ds ++ x :: s ∧ Digits ds ∧ ds.length ≤ 4 ∧ x ∈ "_|".toList)

theorem length_le_four {ds : List Char} (h : ds ≠ []) (hl : ds.length ≤ 4) :
    (∃ a, ds = [a]) ∨ (∃ a b, ds = [a, b]) ∨ (∃ a b c, ds = [a, b, c]) ∨ ∃ a b c d, ds = [a, b, c, d] := by
  rcases ds with _ | ⟨a, _ | ⟨b, _ | ⟨c, _ | ⟨d, _ | ⟨e, ds⟩⟩⟩⟩⟩
  · exact absurd rfl h
  · exact .inl ⟨a, rfl⟩
  · exact .inr (.inl ⟨a, b, rfl⟩)
  · exact .inr (.inr (.inl ⟨a, b, c, rfl⟩))
  · exact .inr (.inr (.inr ⟨a, b, c, d, rfl⟩))
  · simp at hl

theorem not_blocked (h1 : freeStart.Takes pre [] post) (h2 : noCorner.Takes pre [] post) : ¬Blocked pre := by
  simp only [freeStart, noCorner, takes_cat_cons, takes_cat_nil, takes_notBehind] at h1 h2
  obtain ⟨_, _, -, ⟨rfl, a1⟩, _, _, -, ⟨rfl, a2⟩, _, _, -, ⟨rfl, a3⟩, _, _, -, ⟨rfl, a4⟩, _, _, -, ⟨rfl, a5⟩, _, _, -, ⟨rfl, a6⟩, _, _, -, ⟨rfl, a7⟩, -⟩ := h1
  obtain ⟨_, _, -, ⟨rfl, b1⟩, _, _, -, ⟨rfl, b2⟩, _, _, -, ⟨rfl, b3⟩, _, _, -, ⟨rfl, b4⟩, -⟩ := h2
  simp only [List.reverse_nil, List.nil_append] at a2 a3 a4 a5 a6 a7 b1 b2 b3 b4
  rintro (⟨d, x, s, rfl, hd, hx⟩ | ⟨d, x, s, rfl, hd, hx⟩ | ⟨ds, x, s, rfl, hd, hl, hx⟩)
  · have hx' : among "([⟨<" x = true ∨ among "+|-" x = true :=
      (by decide : ∀ x ∈ "([⟨<+|-".toList, among "([⟨<" x = true ∨ among "+|-" x = true) x hx
    rcases hx' with hx | hx
    · simp [endsIn, hd, hx] at a1
    · simp [endsIn, hd, hx] at a3
  · have hx' : among "+|-" x = true := by simpa [among] using hx
    have h3 : among ")" ')' = true := by decide
    simp [endsIn, hd, hx', h3] at a2
  · have hx' : among "_" x = true ∨ among "|" x = true :=
      (by decide : ∀ x ∈ "_|".toList, among "_" x = true ∨ among "|" x = true) x hx
    rcases length_le_four hd.1 hl with ⟨a, rfl⟩ | ⟨a, b, rfl⟩ | ⟨a, b, c, rfl⟩ | ⟨a, b, c, d, rfl⟩
    · have g1 := hd.2 a (by simp)
      rcases hx' with hx | hx
      · simp [endsIn, g1, hx] at a4
      · simp [endsIn, g1, hx] at b1
    · have g1 := hd.2 a (by simp)
      have g2 := hd.2 b (by simp)
      rcases hx' with hx | hx
      · simp [endsIn, g1, g2, hx] at a5
      · simp [endsIn, g1, g2, hx] at b2
    · have g1 := hd.2 a (by simp)
      have g2 := hd.2 b (by simp)
      have g3 := hd.2 c (by simp)
      rcases hx' with hx | hx
      · simp [endsIn, g1, g2, g3, hx] at a6
      · simp [endsIn, g1, g2, g3, hx] at b3
    · have g1 := hd.2 a (by simp)
      have g2 := hd.2 b (by simp)
      have g3 := hd.2 c (by simp)
      have g4 := hd.2 d (by simp)
      rcases hx' with hx | hx
      · simp [endsIn, g1, g2, g3, g4, hx] at a7
      · simp [endsIn, g1, g2, g3, g4, hx] at b4

theorem takes_double {t0 t1 : RE} {rs : List RE} (h0 : t0.isTest = true) (h1 : t1.isTest = true)
    (h : (cat (t0 :: t1 :: freeStart :: noCorner :: lit "|" :: some1 (.alt wideSlot openSlot) :: lit "|" :: rs)).Takes pre u post) :
    ¬Blocked pre ∧ ∃ m v, u = '|' :: (m ++ '|' :: v) ∧ ∀ x ∈ m, inString x := by
  rw [takes_cat_cons] at h
  obtain ⟨v0, _, rfl, h2, h⟩ := h
  obtain rfl := isTest_takes h0 h2
  rw [takes_cat_cons] at h
  obtain ⟨v0, _, rfl, h2, h⟩ := h
  obtain rfl := isTest_takes h1 h2
  rw [takes_cat_cons] at h
  obtain ⟨v0, _, rfl, hf, h⟩ := h
  obtain rfl := isTest_takes rfl hf
  rw [takes_cat_cons] at h
  obtain ⟨v0, _, rfl, hn, h⟩ := h
  obtain rfl := isTest_takes rfl hn
  rw [takes_cat_cons] at h
  obtain ⟨_, _, rfl, hl, h⟩ := h
  rw [takes_lit] at hl
  subst hl
  rw [takes_cat_cons] at h
  obtain ⟨m, _, rfl, hm, h⟩ := h
  have hmc := takes_plus_chars (fun pre u post h => by
    rcases takes_alt.mp h with h | h
    · exact takes_wideSlot_chars h
    · exact takes_openSlot_chars h) hm
  rw [takes_cat_cons] at h
  obtain ⟨_, v, rfl, hl, h⟩ := h
  rw [takes_lit] at hl
  subst hl
  refine ⟨not_blocked (by simpa using hf) (by simpa using hn), m, v, by simp, hmc⟩

theorem slot_end {s : WSlot} (h : s.Ok) {x : Char} (hx : x ∈ "([⟨<+|-".toList) (q : List Char) : Blocked (s.text.reverse ++ x :: q) := by
  obtain ⟨p, d, rest⟩ := s
  obtain ⟨h1, h2, h3⟩ := h
  simp only at h1 h2 h3
  have last : rest ≠ [] → ∃ d' y q', d'.isDigit = true ∧ y ∈ ['+', '-'] ∧ (WSlot.body ⟨p, d, rest⟩).reverse = d' :: y :: q' := by
    intro hne
    obtain ⟨rest', z, rfl⟩ := List.eq_nil_or_concat rest |>.resolve_left hne
    have hz := h2 z (by simp)
    exact ⟨z.2, z.1, _, hz.2, hz.1, by simp [WSlot.body]; rfl⟩
  cases p with
  | false =>
    have e : WSlot.text ⟨false, d, rest⟩ = WSlot.body ⟨false, d, rest⟩ := rfl
    rw [e]
    by_cases hne : rest = []
    · subst hne
      exact .inl ⟨d, x, q, rfl, h1, hx⟩
    · obtain ⟨d', y, q', g1, g2, g3⟩ := last hne
      rw [g3]
      exact .inl ⟨d', y, _, rfl, g1, (by decide : ∀ y ∈ ['+', '-'], y ∈ "([⟨<+|-".toList) y g2⟩
  | true =>
    have e : (WSlot.text ⟨true, d, rest⟩).reverse = ')' :: ((WSlot.body ⟨true, d, rest⟩).reverse ++ ['(']) := by simp [WSlot.text]
    obtain ⟨d', y, q', g1, g2, g3⟩ := last (h3 rfl)
    rw [e, g3]
    exact .inr (.inl ⟨d', y, _, rfl, g1, (by decide : ∀ y ∈ ['+', '-'], y ∈ "+|-".toList) y g2⟩)

theorem bar_notin_text {s : WSlot} (h : s.Ok) : '|' ∉ s.text := by
  intro hx
  rcases WSlot.text_chars h _ hx with h | h
  · exact absurd h (by decide)
  · exact absurd h (by decide)

theorem bars_joined {ss : List WSlot} (hs : ∀ s ∈ ss, s.Ok) {y : List Char} (hy : '|' ∉ y) (q : List Char) (hq : Blocked q) (b1 b2 : List Char)
    (h : joined ss ++ y = b1 ++ '|' :: b2) : Blocked (b1.reverse ++ q) := by
  induction ss generalizing q b1 with
  | nil =>
    have : y = b1 ++ '|' :: b2 := by simpa [joined] using h
    exact absurd (by rw [this]; simp) hy
  | cons s ss ih =>
    have e : joined (s :: ss) ++ y = '|' :: (s.text ++ (joined ss ++ y)) := by simp [joined]
    rw [e] at h
    rcases b1 with _ | ⟨x, b1⟩
    · exact hq
    · simp only [List.cons_append, List.cons.injEq] at h
      obtain ⟨rfl, h⟩ := h
      have hbt := bar_notin_text (hs s (by simp))
      rcases List.append_eq_append_iff.mp h with ⟨c, rfl, h2⟩ | ⟨c, h1, h2⟩
      · have := ih (fun s hs' => hs s (by simp [hs'])) (s.text.reverse ++ '|' :: q) (slot_end (hs s (by simp)) (by decide) q) c h2
        simpa using this
      · rcases c with _ | ⟨x, c⟩
        · have := ih (fun s hs' => hs s (by simp [hs'])) (s.text.reverse ++ '|' :: q) (slot_end (hs s (by simp)) (by decide) q) [] (by simpa using h2.symm)
          have e1 : s.text = b1 := by simpa using h1
          rw [← e1]
          simpa using this
        · simp only [List.cons_append, List.cons.injEq] at h2
          obtain ⟨rfl, h2⟩ := h2
          exact absurd (by rw [h1]; simp) hbt

theorem bars_corners {cs : List (List Char)} (hs : ∀ k ∈ cs, Digits k ∧ k.length ≤ 4) (q : List Char) (hq : Blocked q) (b1 b2 : List Char)
    (h : cs.flatMap (fun k => '|' :: k) = b1 ++ '|' :: b2) : Blocked (b1.reverse ++ q) := by
  induction cs generalizing q b1 with
  | nil => simp at h
  | cons s ss ih =>
    rw [List.flatMap_cons, List.cons_append] at h
    rcases b1 with _ | ⟨x, b1⟩
    · exact hq
    · simp only [List.cons_append, List.cons.injEq] at h
      obtain ⟨rfl, h⟩ := h
      obtain ⟨hd, hl⟩ := hs s (by simp)
      have hbt : '|' ∉ s := fun hx => absurd (hd.2 _ hx) (by decide)
      have hbl : Blocked (s.reverse ++ '|' :: q) :=
        .inr (.inr ⟨s.reverse, '|', q, rfl, ⟨by simpa using hd.1, by simpa using hd.2⟩, by simpa using hl, by decide⟩)
      rcases List.append_eq_append_iff.mp h with ⟨c, rfl, h2⟩ | ⟨c, h1, h2⟩
      · have := ih (fun s hs' => hs s (by simp [hs'])) (s.reverse ++ '|' :: q) hbl c h2
        simpa using this
      · rcases c with _ | ⟨x, c⟩
        · have := ih (fun s hs' => hs s (by simp [hs'])) (s.reverse ++ '|' :: q) hbl [] (by simpa using h2.symm)
          have e1 : s = b1 := by simpa using h1
          rw [← e1]
          simpa using this
        · simp only [List.cons_append, List.cons.injEq] at h2
          obtain ⟨rfl, h2⟩ := h2
          exact absurd (by rw [h1]; simp) hbt

/-- A bar after a beginning without one. -/
theorem split_bar {a b b1 b2 : List Char} (ha : '|' ∉ a) (h : a ++ b = b1 ++ '|' :: b2) : ∃ c, b1 = a ++ c ∧ b = c ++ '|' :: b2 := by
  rcases List.append_eq_append_iff.mp h with ⟨c, h1, h2⟩ | ⟨c, h1, h2⟩
  · exact ⟨c, h1, h2⟩
  · rcases c with _ | ⟨x, c⟩
    · exact ⟨[], by simpa using h1.symm, by simpa using h2.symm⟩
    · simp only [List.cons_append, List.cons.injEq] at h2
      obtain ⟨rfl, h2⟩ := h2
      exact absurd (by rw [h1]; simp) ha

/-- Before every bar of a name, except for two-brackets, stands what the conditions exclude. -/
theorem name_blocked {l : Leaf} (h : l.Ok) (hl : ∀ sq bar a b, l ≠ .two sq bar a b) {b1 b2 : List Char} (e : l.name = b1 ++ '|' :: b2) (q : List Char) :
    Blocked (b1.reverse ++ q) := by
  have wd : ∀ (t : String) {ds : List Char}, '|' ∉ t.toList → Digits ds → l.name = t.toList ++ ds → Blocked (b1.reverse ++ q) := by
    intro t ds ht hd e'
    rw [e'] at e
    obtain ⟨c, -, h2⟩ := split_bar ht e
    exact absurd (hd.2 '|' (by rw [h2]; simp)) (by decide)
  cases l with
  | two sq bar a b => exact absurd rfl (hl sq bar a b)
  | mandel p ds => exact wd "s_" (by decide) h.2 rfl
  | omega ds => exact wd "Ω_" (by decide) h rfl
  | pi ds => exact wd "Π_" (by decide) h rfl
  | tr5l ds => exact wd "tr5_" (by decide) h rfl
  | tr5s s ss =>
    have hs := (h s (by simp)).1
    have e' : ("tr5(".toList ++ s.text) ++ (joined ss ++ [')']) = b1 ++ '|' :: b2 := by rw [← e]; simp [Leaf.name]
    obtain ⟨c, rfl, h2⟩ := split_bar (by
      intro hx
      rcases List.mem_append.mp hx with hx | hx
      · exact absurd hx (by decide)
      · exact bar_notin_text hs hx) e'
    have := bars_joined (fun s hs => (h s (by simp [hs])).1) (by decide) (("tr5(".toList ++ s.text).reverse ++ q) (by
      rw [List.reverse_append, List.append_assoc]
      exact slot_end hs (x := '(') (by decide) _) c b2 h2
    simpa using this
  | trace s ss =>
    have hs := (h s (by simp)).1
    have e' : ("tr(".toList ++ s.text) ++ (joined ss ++ [')']) = b1 ++ '|' :: b2 := by rw [← e]; simp [Leaf.name]
    obtain ⟨c, rfl, h2⟩ := split_bar (by
      intro hx
      rcases List.mem_append.mp hx with hx | hx
      · exact absurd hx (by decide)
      · exact bar_notin_text hs hx) e'
    have := bars_joined (fun s hs => (h s (by simp [hs])).1) (by decide) (("tr(".toList ++ s.text).reverse ++ q) (by
      rw [List.reverse_append, List.append_assoc]
      exact slot_end hs (x := '(') (by decide) _) c b2 h2
    simpa using this
  | delta c cs =>
    obtain ⟨-, h⟩ := h
    obtain ⟨hd, hlen⟩ := h c (by simp)
    have e' : ("Δ_".toList ++ c) ++ cs.flatMap (fun k => '|' :: k) = b1 ++ '|' :: b2 := by rw [← e]; simp [Leaf.name]
    obtain ⟨c', rfl, h2⟩ := split_bar (by
      intro hx
      rcases List.mem_append.mp hx with hx | hx
      · exact absurd hx (by decide)
      · exact absurd (hd.2 _ hx) (by decide)) e'
    have := bars_corners (fun k hk => h k (by simp [hk])) (("Δ_".toList ++ c).reverse ++ q) (by
      rw [List.reverse_append, List.append_assoc]
      exact .inr (.inr ⟨c.reverse, '_', _, rfl, ⟨by simpa using hd.1, by simpa using hd.2⟩, by simpa using hlen, by decide⟩)) c' b2 h2
    simpa using this
  | str o a ss b c =>
    obtain ⟨ho, hc, ha, hb, -, hs⟩ := h
    have e' : [o, a] ++ (joined (ss ++ [⟨false, b, []⟩]) ++ [c]) = b1 ++ '|' :: b2 := by
      rw [← e]; simp [Leaf.name, joined, WSlot.text, WSlot.body]
    obtain ⟨c', rfl, h2⟩ := split_bar (by
      intro hx
      simp only [List.mem_cons, List.not_mem_nil, or_false] at hx
      rcases hx with hx | hx
      · exact absurd (hx ▸ ho) (by decide)
      · exact absurd (hx ▸ ha) (by decide)) e'
    have := bars_joined (ss := ss ++ [⟨false, b, []⟩]) (by
      intro s hs'
      rcases List.mem_append.mp hs' with hs' | hs'
      · exact hs s hs'
      · rw [List.mem_singleton] at hs'
        subst hs'
        exact ⟨hb, by simp, by simp⟩) (by
      intro hx
      rw [List.mem_singleton] at hx
      exact absurd (hx ▸ hc) (by decide)) ([o, a].reverse ++ q)
      (.inl ⟨a, o, q, rfl, ha, (by decide : ∀ x ∈ ['⟨', '['], x ∈ "([⟨<+|-".toList) o ho⟩) c' b2 h2
    simpa using this

theorem quiet_double {t0 t1 : RE} {rs : List RE} (h0 : t0.isTest = true) (h1 : t1.isTest = true)
    (hs : ∀ c ∈ allChars, c ≠ '|' →
      (cat (t0 :: t1 :: freeStart :: noCorner :: lit "|" :: some1 (.alt wideSlot openSlot) :: lit "|" :: rs)).starts c = false) {l : Leaf} (h : l.Ok) :
    (cat (t0 :: t1 :: freeStart :: noCorner :: lit "|" :: some1 (.alt wideSlot openSlot) :: lit "|" :: rs)).Quiet pre (wrap l.name) post := by
  apply quiet_bar hs h
  intro b1 b2 e
  rw [run_eq_nil]
  intro u' post' hu hT
  obtain ⟨hnb, m, v, rfl, hm⟩ := takes_double h0 h1 hT
  by_cases hl : ∀ sq bar a b, l ≠ .two sq bar a b
  · exact hnb (name_blocked h hl e _)
  · push Not at hl
    obtain ⟨sq, bar, a, b, rfl⟩ := hl
    obtain ⟨ha, hb, -⟩ := h
    have e' : ([openBr sq] ++ a) ++ '|' :: (b ++ [closeBr sq]) = b1 ++ '|' :: b2 := by rw [← e]; simp [Leaf.name]
    obtain ⟨c, rfl, h2⟩ := split_bar (by
      intro hx
      rcases List.mem_append.mp hx with hx | hx
      · revert hx; cases sq <;> decide
      · exact absurd (ha.2 _ hx) (by decide)) e'
    have hc : c = [] := by
      rcases c with _ | ⟨x, c⟩
      · rfl
      · simp only [List.cons_append, List.cons.injEq] at h2
        obtain ⟨rfl, h2⟩ := h2
        have : '|' ∈ b ++ [closeBr sq] := by rw [h2]; simp
        rcases List.mem_append.mp this with hx | hx
        · exact absurd (hb.2 _ hx) (by decide)
        · exact absurd hx (by cases sq <;> decide)
    subst hc
    simp only [List.nil_append, List.cons.injEq, true_and] at h2
    subst h2
    have hcl : ¬inString (closeBr sq) := not_inString (by cases sq <;> decide)
    have hu' : b ++ closeBr sq :: ("')".toList ++ post) = m ++ '|' :: (v ++ post') := by simpa using hu
    rcases List.append_eq_append_iff.mp hu' with ⟨c, h3, h4⟩ | ⟨c, h3, h4⟩
    · rcases c with _ | ⟨x, c⟩
      · simp only [List.nil_append, List.cons.injEq] at h4
        revert h4; cases sq <;> intro h4 <;> exact absurd h4.1 (by decide)
      · simp only [List.cons_append, List.cons.injEq] at h4
        exact hcl (hm _ (by rw [h3, h4.1]; simp))
    · rcases c with _ | ⟨x, c⟩
      · simp only [List.nil_append, List.cons.injEq] at h4
        revert h4; cases sq <;> intro h4 <;> exact absurd h4.1 (by decide)
      · simp only [List.cons_append, List.cons.injEq] at h4
        exact absurd (hb.2 '|' (by rw [h3, h4.1]; simp)) (by decide)

/-! ### All of them -/

theorem shown11 (l : Leaf) : l.shown 11 = wrap l.name := by
  cases l with
  | two sq bar a b => cases sq <;> rfl
  | _ => rfl

theorem steps_of_quiet {r : RE} {f : List Char → List Char} (h : ∀ l : Leaf, l.Ok → ∀ pre post, r.Quiet pre (wrap l.name) post) : Steps r f 11 11 :=
  fun l hl pre post _ => .inl ⟨by rw [shown11]; exact h l hl pre post, rfl⟩

/-- Lines 147-154 change nothing. -/
theorem open_pass {ts : List WTok} (h : GoodToks ts) : runPasses passesOpen (shownAll 11 ts) = shownAll 11 ts := by
  apply runPasses_absent
  intro p hp
  simp only [passesOpen, List.mem_cons, List.not_mem_nil, or_false] at hp
  rcases hp with rfl | rfl | rfl | rfl | rfl | rfl | rfl | rfl
  · exact pass_tokens (by decide) (steps_of_quiet fun l hl pre post => quiet_opening (by decide) hl) ts h []
  · exact pass_tokens (by decide) (steps_of_quiet fun l hl pre post => quiet_closing (by decide) (fun _ _ _ => takes_eAd) hl) ts h []
  · exact pass_tokens (by decide) (steps_of_quiet fun l hl pre post => quiet_opening (by decide) hl) ts h []
  · exact pass_tokens (by decide) (steps_of_quiet fun l hl pre post => quiet_closing (by decide) (fun _ _ _ => takes_eSu) hl) ts h []
  · exact pass_tokens (by decide) (steps_of_quiet fun l hl pre post => quiet_closing (by decide) (fun _ _ _ => takes_eOpenBegin) hl) ts h []
  · exact pass_tokens (by decide) (steps_of_quiet fun l hl pre post => quiet_opening (by decide) hl) ts h []
  · exact pass_tokens (by decide) (steps_of_quiet fun l hl pre post => quiet_double rfl rfl (by decide) hl) ts h []
  · exact pass_tokens (by decide) (steps_of_quiet fun l hl pre post => quiet_double rfl rfl (by decide) hl) ts h []

end Lips

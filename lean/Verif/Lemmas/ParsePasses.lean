import Verif.Lemmas.ParseLeaves

/-! What each substitution of `_parse` does to the text of an expression. -/

namespace Lips

open RE

/-- The characters of an expression outside invariants. -/
def rawChars : List Char := "0123456789".toList ++ "+-*/()".toList

def WTok.Ok : WTok → Prop
  | .ch c => c ∈ rawChars
  | .leaf l => l.Ok

def WTok.shown (k : ℕ) : WTok → List Char
  | .ch c => [c]
  | .leaf l => l.shown k

def shownAll (k : ℕ) (ts : List WTok) : List Char := ts.flatMap (WTok.shown k)

/-- Well-formed expressions. -/
def GoodToks (ts : List WTok) : Prop := (∀ t ∈ ts, t.Ok) ∧ ts.IsChain WTok.Apart

/-- What may follow. -/
def NextOk (l : Leaf) (post : List Char) : Prop := l.open = true → ∀ c, post.head? = some c → c.isDigit = false ∧ c ≠ '|'

/-- How the text of an invariant may begin. -/
def headChars : List Char := "⟨[sSΩΠtΔo".toList

theorem name_head {l : Leaf} (h : l.Ok) : ∃ c s, l.name = c :: s ∧ c ∈ headChars := by
  cases l with
  | two sq bar a b => exact ⟨openBr sq, _, rfl, by cases sq <;> decide⟩
  | mandel p ds => exact ⟨'s', _, rfl, by decide⟩
  | omega ds => exact ⟨'Ω', _, rfl, by decide⟩
  | pi ds => exact ⟨'Π', _, rfl, by decide⟩
  | tr5l ds => exact ⟨'t', _, rfl, by decide⟩
  | tr5s s ss => exact ⟨'t', _, rfl, by decide⟩
  | trace s ss => exact ⟨'t', _, rfl, by decide⟩
  | delta c cs => exact ⟨'Δ', _, rfl, by decide⟩
  | str o a ss b c => exact ⟨o, _, rfl, (by decide : ∀ x ∈ ['⟨', '['], x ∈ headChars) o h.1⟩

theorem text_head {l : Leaf} (h : l.Ok) : ∃ c s, l.text = c :: s ∧ c ∈ headChars := by
  cases l with
  | two sq bar a b => exact ⟨openBr sq, _, rfl, by cases sq <;> decide⟩
  | mandel p ds =>
    obtain ⟨hp, -⟩ := h
    simp only [List.mem_cons, List.not_mem_nil, or_false] at hp
    rcases hp with rfl | rfl | rfl | rfl
    · exact ⟨'s', _, rfl, by decide⟩
    · exact ⟨'S', _, rfl, by decide⟩
    · exact ⟨'s', _, rfl, by decide⟩
    · exact ⟨'S', _, rfl, by decide⟩
  | omega ds => exact name_head (l := .omega ds) h
  | pi ds => exact name_head (l := .pi ds) h
  | tr5l ds => exact name_head (l := .tr5l ds) h
  | tr5s s ss => exact name_head (l := .tr5s s ss) h
  | trace s ss => exact name_head (l := .trace s ss) h
  | delta c cs => exact name_head (l := .delta c cs) h
  | str o a ss b c => exact name_head (l := .str o a ss b c) h

theorem shown_head {l : Leaf} (h : l.Ok) (k : ℕ) : ∃ c s, l.shown k = c :: s ∧ c ∈ headChars := by
  unfold Leaf.shown
  split
  · exact ⟨'o', _, rfl, by decide⟩
  · split
    · split
      · exact name_head h
      · exact text_head h
    · exact text_head h

theorem head_next {c : Char} (h : c ∈ headChars) : c.isDigit = false ∧ c ≠ '|' :=
  (by decide : ∀ c ∈ headChars, c.isDigit = false ∧ c ≠ '|') c h

theorem nextOk_of_good {l : Leaf} {ts : List WTok} (h : GoodToks (.leaf l :: ts)) (k : ℕ) : NextOk l (shownAll k ts) := by
  intro ho c hc
  rcases ts with _ | ⟨t, ts⟩
  · simp [shownAll] at hc
  · obtain ⟨h1, h2⟩ := h
    cases t with
    | ch d =>
      have e : d = c := by simpa [shownAll, WTok.shown] using hc
      subst e
      rw [List.isChain_cons_cons] at h2
      have h3 : d.isDigit = false := h2.1 ho
      exact ⟨h3, (by decide : ∀ c ∈ rawChars, c ≠ '|') d (h1 (.ch d) (by simp))⟩
    | leaf m =>
      obtain ⟨x, s, e, hx⟩ := shown_head (h1 (.leaf m) (by simp)) k
      have : x = c := by simpa [shownAll, WTok.shown, e] using hc
      subst this
      exact head_next hx

/-- A substitution takes invariants from how they stand after `k` substitutions to how they stand after `k'`. -/
def Steps (r : RE) (f : List Char → List Char) (k k' : ℕ) : Prop :=
  ∀ l : Leaf, l.Ok → ∀ pre post, NextOk l post →
    (r.Quiet pre (l.shown k) post ∧ l.shown k' = l.shown k) ∨ (r.Hit pre (l.shown k) post ∧ l.shown k' = f (l.shown k))

theorem pass_tokens {r : RE} {f : List Char → List Char} {k k' : ℕ} (hr : ∀ c ∈ rawChars, r.starts c = false) (hs : Steps r f k k')
    (ts : List WTok) (h : GoodToks ts) (pre : List Char) : r.sub f 0 pre (shownAll k ts) = shownAll k' ts := by
  induction ts generalizing pre with
  | nil => rfl
  | cons t ts ih =>
    have hg : GoodToks ts := ⟨fun x hx => h.1 x (by simp [hx]), h.2.tail⟩
    have e : ∀ j, shownAll j (t :: ts) = t.shown j ++ shownAll j ts := fun j => by simp [shownAll]
    rw [e, e]
    cases t with
    | ch c =>
      have hq : r.Quiet pre [c] (shownAll k ts) := quiet_of_starts (by simpa using hr c (h.1 (.ch c) (by simp)))
      have := sub_quiet (f := f) hq
      simp only [WTok.shown]
      rw [this, ih hg]
    | leaf l =>
      simp only [WTok.shown]
      rcases hs l (h.1 (.leaf l) (by simp)) pre _ (nextOk_of_good h k) with ⟨hq, e⟩ | ⟨hq, e⟩
      · rw [sub_quiet hq, ih hg, e]
      · rw [sub_hit hq, ih hg, e]

/-! ### Each substitution on each kind of invariant -/

variable {pre post : List Char}

theorem steps_idle {r : RE} {f : List Char → List Char} {k k' : ℕ} {l : Leaf} (h : l.Ok) (hi : idle r l = true) (he : l.shown k' = l.shown k) :
    (r.Quiet pre (l.shown k) post ∧ l.shown k' = l.shown k) ∨ (r.Hit pre (l.shown k) post ∧ l.shown k' = f (l.shown k)) :=
  .inl ⟨quiet_idle h k hi, he⟩

/-- The characters of a two-bracket after the first. -/
theorem two_starts {r : RE} {sq : Bool} {a b : List Char} (ha : Digits a) (hb : Digits b) (hd : ∀ c ∈ "0123456789".toList, r.starts c = false)
    (h : ∀ c ∈ ['|', closeBr sq, '\'', ')'], r.starts c = false) :
    ∀ c ∈ a ++ '|' :: (b ++ [closeBr sq]), r.starts c = false := by
  intro c hc
  simp only [List.mem_append, List.mem_cons, List.not_mem_nil, or_false] at hc
  rcases hc with hc | rfl | hc | rfl
  · exact hd c (digit_mem (ha.2 c hc))
  · exact h _ (by simp)
  · exact hd c (digit_mem (hb.2 c hc))
  · exact h _ (by simp)

/-- The characters of a string after the first. -/
theorem str_starts {r : RE} {o a b c : Char} {ss : List WSlot} (h : (Leaf.str o a ss b c).Ok)
    (hr : ∀ x ∈ "0123456789()+|-⟩]".toList, r.starts x = false) : ∀ x ∈ a :: (joined ss ++ ['|', b, c]), r.starts x = false := by
  obtain ⟨-, hc, ha, hb, -, h⟩ := h
  have hd : ∀ x, x.isDigit = true → r.starts x = false := fun x hx =>
    hr x ((by decide : ∀ x ∈ "0123456789".toList, x ∈ "0123456789()+|-⟩]".toList) x (digit_mem hx))
  intro x hx
  simp only [List.mem_append, List.mem_cons, List.not_mem_nil, or_false] at hx
  rcases hx with rfl | hx | rfl | rfl | rfl
  · exact hd _ ha
  · rcases joined_chars h x hx with hx | hx
    · exact hd x hx
    · exact hr x ((by decide : ∀ x ∈ ['|', '+', '-', '(', ')'], x ∈ "0123456789()+|-⟩]".toList) x hx)
  · exact hr _ (by decide)
  · exact hd _ hb
  · exact hr _ ((by decide : ∀ x ∈ ['⟩', ']'], x ∈ "0123456789()+|-⟩]".toList) _ hc)

/-- A string begins like no two-bracket. -/
theorem str_form {o a b c : Char} {ss : List WSlot} (h : (Leaf.str o a ss b c).Ok) (post : List Char) :
    ∃ ds x s, o :: a :: (joined ss ++ ['|', b, c]) ++ post = o :: ([a] ++ '|' :: (ds ++ x :: s)) ∧ (∀ y ∈ ds, y.isDigit = true) ∧
      x.isDigit = false ∧ x ∈ "(+-|".toList := by
  obtain ⟨-, -, -, -, hs, h⟩ := h
  rcases ss with _ | ⟨s, ss⟩
  · exact absurd rfl hs
  have ho := h s (by simp)
  obtain ⟨p, d, rest⟩ := s
  obtain ⟨h1, h2, -⟩ := ho
  cases p with
  | true =>
    exact ⟨[], '(', _, by simp [joined, WSlot.text]; rfl, by simp, by decide, by decide⟩
  | false =>
    rcases rest with _ | ⟨y, rest⟩
    · have : ∃ t, joined ss ++ ['|', b, c] = '|' :: t := by
        rcases ss with _ | ⟨s', ss⟩
        · exact ⟨_, rfl⟩
        · exact ⟨_, rfl⟩
      obtain ⟨t, ht⟩ := this
      refine ⟨[d], '|', t ++ post, ?_, by simpa using h1, by decide, by decide⟩
      have e : joined ({ par := false, d := d, rest := [] } :: ss) = '|' :: d :: joined ss := by simp [joined, WSlot.text, WSlot.body]
      rw [e]
      simp only [List.cons_append, List.nil_append]
      rw [ht]
      simp
    · have hy := (h2 y (by simp)).1
      refine ⟨[d], y.1, _, by simp [joined, WSlot.text, WSlot.body]; rfl, by simpa using h1, ?_, ?_⟩
      · exact (by decide : ∀ x ∈ ['+', '-'], x.isDigit = false) _ hy
      · exact (by decide : ∀ x ∈ ['+', '-'], x ∈ "(+-|".toList) _ hy

theorem no_bracket {sq : Bool} : ∀ t ∈ ["sS_", "Ω_", "Π_", "tr5_", "tr5(|+-)", "tr(|+-)", "Δ_|"], openBr sq ∉ baseChars ++ t.toList := by
  cases sq <;> decide

/-- Two-brackets without bar get one. -/
theorem steps_bis {sq : Bool} {k : ℕ} (hk : k + 2 = if sq then 4 else 2) {o c : String} (ho : o.toList = [openBr sq]) (hc : c.toList = [closeBr sq])
    {r : RE} (hr : r = eTwoBis o c) : Steps r addBar k (k + 1) := by
  intro l h pre post hn
  have hk' : k = 2 ∨ k = 0 := by cases sq <;> simp at hk <;> omega
  have hs : ∀ x, (r.starts x = true) ↔ x = openBr sq := by
    intro x
    rw [hr]
    simp [eTwoBis, cat, lit, ho, starts, isTest]
  have hs' : ∀ x, x ≠ openBr sq → r.starts x = false := fun x hx => by
    rw [← Bool.not_eq_true, hs]; exact hx
  have hidle : openBr sq ∉ baseChars ++ l.alphabet → r.Quiet pre (l.shown k) post := fun hx =>
    quiet_of_starts fun x hxl => hs' x fun e => hx (e ▸ shown_chars h k x hxl)
  cases l with
  | two sq' bar a b =>
    by_cases e : sq' = sq
    · subst e
      obtain ⟨ha, hb, hl⟩ := h
      have e1 : (Leaf.two sq' bar a b).shown k = (Leaf.two sq' bar a b).text := by
        cases sq' <;> simp at hk <;> subst hk <;> rfl
      have e2 : (Leaf.two sq' bar a b).shown (k + 1) = (Leaf.two sq' bar a b).name := by
        cases sq' <;> simp at hk <;> subst hk <;> rfl
      rw [e1, e2]
      cases bar with
      | true =>
        refine .inl ⟨?_, rfl⟩
        have e3 : (Leaf.two sq' true a b).text = [] ++ openBr sq' :: (a ++ '|' :: (b ++ [closeBr sq'])) := by simp [Leaf.text]
        rw [e3]
        refine quiet_head (by simp) ?_ (two_starts ha hb ?_ ?_)
        · rw [hr]
          have := run_eTwoBis (pre := pre) (s := b ++ [closeBr sq'] ++ post) ho hc (by cases sq' <;> decide) (by cases sq' <;> decide) ha
          simpa using this
        · exact fun x hx => hs' x ((by cases sq' <;> decide : ∀ c ∈ "0123456789".toList, c ≠ openBr sq') x hx)
        · exact fun x hx => hs' x ((by cases sq' <;> decide : ∀ c ∈ ['|', closeBr sq', '\'', ')'], c ≠ openBr sq') x hx)
      | false =>
        obtain ⟨h1, h2⟩ := hl rfl
        obtain ⟨x, rfl⟩ := List.length_eq_one_iff.mp h1
        obtain ⟨y, rfl⟩ := List.length_eq_one_iff.mp h2
        refine .inr ⟨?_, rfl⟩
        rw [hr]
        exact hit_eTwoBis ho hc (ha.2 x (by simp)) (hb.2 y (by simp))
    · refine .inl ⟨hidle ?_, ?_⟩
      · cases sq <;> cases sq'
        · exact absurd rfl e
        · exact (by decide : openBr false ∉ baseChars ++ "[|]".toList)
        · exact (by decide : openBr true ∉ baseChars ++ "⟨|⟩".toList)
        · exact absurd rfl e
      · cases sq <;> cases sq' <;> simp at hk <;> subst hk <;> first | exact absurd rfl e | rfl
  | str o' a ss b c' =>
    have e1 : (Leaf.str o' a ss b c').shown k = o' :: a :: (joined ss ++ ['|', b, c']) := by rcases hk' with rfl | rfl <;> rfl
    have e2 : (Leaf.str o' a ss b c').shown (k + 1) = o' :: a :: (joined ss ++ ['|', b, c']) := by rcases hk' with rfl | rfl <;> rfl
    refine .inl ⟨?_, by rw [e1, e2]⟩
    have hst := str_starts h fun x hx => hs' x ((by cases sq <;> decide : ∀ c ∈ "0123456789()+|-⟩]".toList, c ≠ openBr sq) x hx)
    by_cases e : o' = openBr sq
    · subst e
      rw [e1, ← List.nil_append (_ :: _)]
      refine quiet_head (by simp) ?_ hst
      obtain ⟨ds, x, s, e3, -, -, -⟩ := str_form h post
      rw [List.cons_append] at e3
      rw [e3, hr]
      exact run_eTwoBis ho hc (by cases sq <;> decide) (by cases sq <;> decide) ⟨by simp, by simpa using h.2.2.1⟩
    · rw [e1]
      apply quiet_of_starts
      intro x hx
      rcases List.mem_cons.mp hx with rfl | hx
      · exact hs' _ e
      · exact hst x hx
  | mandel p ds => exact .inl ⟨hidle (no_bracket "sS_" (by simp)), by rcases hk' with rfl | rfl <;> rfl⟩
  | omega ds => exact .inl ⟨hidle (no_bracket "Ω_" (by simp)), by rcases hk' with rfl | rfl <;> rfl⟩
  | pi ds => exact .inl ⟨hidle (no_bracket "Π_" (by simp)), by rcases hk' with rfl | rfl <;> rfl⟩
  | tr5l ds => exact .inl ⟨hidle (no_bracket "tr5_" (by simp)), by rcases hk' with rfl | rfl <;> rfl⟩
  | tr5s s ss => exact .inl ⟨hidle (no_bracket "tr5(|+-)" (by simp)), by rcases hk' with rfl | rfl <;> rfl⟩
  | trace s ss => exact .inl ⟨hidle (no_bracket "tr(|+-)" (by simp)), by rcases hk' with rfl | rfl <;> rfl⟩
  | delta c cs => exact .inl ⟨hidle (no_bracket "Δ_|" (by simp)), by rcases hk' with rfl | rfl <;> rfl⟩

/-- Two-brackets are found. -/
theorem steps_two {sq : Bool} {k : ℕ} (hk : k + 1 = if sq then 4 else 2) {o c : String} (ho : o.toList = [openBr sq]) (hc : c.toList = [closeBr sq])
    {r : RE} (hr : r = eTwo o c) : Steps r wrap k (k + 1) := by
  intro l h pre post hn
  have hk' : k = 3 ∨ k = 1 := by cases sq <;> simp at hk <;> omega
  have hs : ∀ x, (r.starts x = true) ↔ x = openBr sq := by
    intro x
    rw [hr]
    simp [eTwo, cat, lit, ho, starts, isTest]
  have hs' : ∀ x, x ≠ openBr sq → r.starts x = false := fun x hx => by
    rw [← Bool.not_eq_true, hs]; exact hx
  have hidle : openBr sq ∉ baseChars ++ l.alphabet → r.Quiet pre (l.shown k) post := fun hx =>
    quiet_of_starts fun x hxl => hs' x fun e => hx (e ▸ shown_chars h k x hxl)
  cases l with
  | two sq' bar a b =>
    by_cases e : sq' = sq
    · subst e
      obtain ⟨ha, hb, hl⟩ := h
      have e1 : (Leaf.two sq' bar a b).shown k = (Leaf.two sq' bar a b).name := by
        cases sq' <;> simp at hk <;> subst hk <;> rfl
      have e2 : (Leaf.two sq' bar a b).shown (k + 1) = wrap (Leaf.two sq' bar a b).name := by
        cases sq' <;> simp at hk <;> subst hk <;> rfl
      rw [e1, e2]
      refine .inr ⟨?_, rfl⟩
      rw [hr]
      exact hit_eTwo ho hc (by cases sq' <;> decide) ha hb
    · refine .inl ⟨hidle ?_, ?_⟩
      · cases sq <;> cases sq'
        · exact absurd rfl e
        · exact (by decide : openBr false ∉ baseChars ++ "[|]".toList)
        · exact (by decide : openBr true ∉ baseChars ++ "⟨|⟩".toList)
        · exact absurd rfl e
      · cases sq <;> cases sq' <;> simp at hk <;> subst hk <;> first | exact absurd rfl e | rfl
  | str o' a ss b c' =>
    have e1 : (Leaf.str o' a ss b c').shown k = o' :: a :: (joined ss ++ ['|', b, c']) := by rcases hk' with rfl | rfl <;> rfl
    have e2 : (Leaf.str o' a ss b c').shown (k + 1) = o' :: a :: (joined ss ++ ['|', b, c']) := by rcases hk' with rfl | rfl <;> rfl
    refine .inl ⟨?_, by rw [e1, e2]⟩
    have hst := str_starts h fun x hx => hs' x ((by cases sq <;> decide : ∀ c ∈ "0123456789()+|-⟩]".toList, c ≠ openBr sq) x hx)
    by_cases e : o' = openBr sq
    · subst e
      rw [e1, ← List.nil_append (_ :: _)]
      refine quiet_head (by simp) ?_ hst
      obtain ⟨ds, x, s, e3, h1, h2, h3⟩ := str_form h post
      rw [List.cons_append] at e3
      rw [e3, hr]
      exact run_eTwo ho hc (by cases sq <;> decide) ⟨by simp, by simpa using h.2.2.1⟩ h1 h2
        ((by cases sq <;> decide : ∀ x ∈ "(+-|".toList, x ≠ closeBr sq) x h3)
    · rw [e1]
      apply quiet_of_starts
      intro x hx
      rcases List.mem_cons.mp hx with rfl | hx
      · exact hs' _ e
      · exact hst x hx
  | mandel p ds => exact .inl ⟨hidle (no_bracket "sS_" (by simp)), by rcases hk' with rfl | rfl <;> rfl⟩
  | omega ds => exact .inl ⟨hidle (no_bracket "Ω_" (by simp)), by rcases hk' with rfl | rfl <;> rfl⟩
  | pi ds => exact .inl ⟨hidle (no_bracket "Π_" (by simp)), by rcases hk' with rfl | rfl <;> rfl⟩
  | tr5l ds => exact .inl ⟨hidle (no_bracket "tr5_" (by simp)), by rcases hk' with rfl | rfl <;> rfl⟩
  | tr5s s ss => exact .inl ⟨hidle (no_bracket "tr5(|+-)" (by simp)), by rcases hk' with rfl | rfl <;> rfl⟩
  | trace s ss => exact .inl ⟨hidle (no_bracket "tr(|+-)" (by simp)), by rcases hk' with rfl | rfl <;> rfl⟩
  | delta c cs => exact .inl ⟨hidle (no_bracket "Δ_|" (by simp)), by rcases hk' with rfl | rfl <;> rfl⟩

theorem steps_A2bis : Steps eA2bis addBar 0 1 := steps_bis (sq := false) (o := "⟨") (c := "⟩") rfl rfl rfl rfl
theorem steps_A2 : Steps eA2 wrap 1 2 := steps_two (sq := false) (o := "⟨") (c := "⟩") rfl rfl rfl rfl
theorem steps_S2bis : Steps eS2bis addBar 2 3 := steps_bis (sq := true) (o := "[") (c := "]") rfl rfl rfl rfl
theorem steps_S2 : Steps eS2 wrap 3 4 := steps_two (sq := true) (o := "[") (c := "]") rfl rfl rfl rfl

theorem digitsIn_digits {ds : List Char} (h : ∀ c ∈ ds, c.isDigit = true) : digitsIn ds = ds := List.filter_eq_self.mpr h

/-- Mandelstams are found. -/
theorem steps_Sijk : Steps eSijk (fun m => wrap ("s_".toList ++ digitsIn m)) 4 5 := by
  intro l h pre post hn
  cases l with
  | two sq bar a b =>
    refine .inl ⟨?_, by cases sq <;> rfl⟩
    obtain ⟨ha, hb, -⟩ := h
    have e : (Leaf.two sq bar a b).shown 4 = "oP".toList ++ 's' :: ("('".toList ++ (openBr sq :: (a ++ '|' :: (b ++ [closeBr sq]))) ++ "')".toList) := by
      have : (Leaf.two sq bar a b).shown 4 = wrap (Leaf.two sq bar a b).name := by cases sq <;> rfl
      rw [this]
      simp [wrap, Leaf.name]
    rw [e]
    refine quiet_head (by decide) (run_eSijk (d := '(') (by decide) (by decide)) ?_
    intro c hc
    simp only [List.mem_append, List.mem_cons, List.not_mem_nil, or_false] at hc
    have hd : ∀ x, x.isDigit = true → eSijk.starts x = false := fun x hx =>
      (by decide : ∀ x ∈ "0123456789".toList, eSijk.starts x = false) x (digit_mem hx)
    rcases hc with (hc | rfl | hc | rfl | hc | rfl) | hc
    · exact (by decide : ∀ x ∈ "('".toList, eSijk.starts x = false) c hc
    · cases sq <;> decide
    · exact hd c (ha.2 c hc)
    · decide
    · exact hd c (hb.2 c hc)
    · cases sq <;> decide
    · exact (by decide : ∀ x ∈ "')".toList, eSijk.starts x = false) c hc
  | mandel p ds =>
    obtain ⟨hp, hd⟩ := h
    refine .inr ⟨hit_eSijk hp hd fun c hc => (hn rfl c hc).1, ?_⟩
    have e : digitsIn (p ++ ds) = ds := by
      have : digitsIn p = [] := (by decide : ∀ p ∈ ["s_".toList, "S_".toList, "s".toList, "S".toList], digitsIn p = []) p hp
      rw [digitsIn, List.filter_append]
      change digitsIn p ++ digitsIn ds = ds
      rw [this, digitsIn_digits hd.2]
      rfl
    change wrap ("s_".toList ++ ds) = wrap ("s_".toList ++ digitsIn (p ++ ds))
    rw [e]
  | omega ds => exact .inl ⟨quiet_idleText h rfl, rfl⟩
  | pi ds => exact .inl ⟨quiet_idleText h rfl, rfl⟩
  | tr5l ds => exact .inl ⟨quiet_idleText h rfl, rfl⟩
  | tr5s s ss => exact .inl ⟨quiet_idleText h rfl, rfl⟩
  | trace s ss => exact .inl ⟨quiet_idleText h rfl, rfl⟩
  | delta c cs => exact .inl ⟨quiet_idleText h rfl, rfl⟩
  | str o a ss b c =>
    have ho := h.1
    have hc := h.2.1
    simp only [List.mem_cons, List.not_mem_nil, or_false] at ho hc
    rcases ho with rfl | rfl <;> rcases hc with rfl | rfl <;> exact .inl ⟨quiet_idleText h rfl, rfl⟩

theorem steps_O : Steps eOijk wrap 5 6 := by
  intro l h pre post hn
  cases l with
  | omega ds => exact .inr ⟨hit_word h fun c hc => (hn rfl c hc).1, rfl⟩
  | two sq bar a b => cases sq <;> exact steps_idle h rfl rfl
  | mandel p ds => exact steps_idle h rfl rfl
  | pi ds => exact steps_idle h rfl rfl
  | tr5l ds => exact steps_idle h rfl rfl
  | tr5s s ss => exact steps_idle h rfl rfl
  | trace s ss => exact steps_idle h rfl rfl
  | delta c cs => exact steps_idle h rfl rfl
  | str o a ss b c =>
    have ho := h.1
    have hc := h.2.1
    simp only [List.mem_cons, List.not_mem_nil, or_false] at ho hc
    rcases ho with rfl | rfl <;> rcases hc with rfl | rfl <;> exact steps_idle h rfl rfl

theorem steps_P : Steps ePijk wrap 6 7 := by
  intro l h pre post hn
  cases l with
  | pi ds => exact .inr ⟨hit_word h fun c hc => (hn rfl c hc).1, rfl⟩
  | two sq bar a b => cases sq <;> exact steps_idle h rfl rfl
  | mandel p ds => exact steps_idle h rfl rfl
  | omega ds => exact steps_idle h rfl rfl
  | tr5l ds => exact steps_idle h rfl rfl
  | tr5s s ss => exact steps_idle h rfl rfl
  | trace s ss => exact steps_idle h rfl rfl
  | delta c cs => exact steps_idle h rfl rfl
  | str o a ss b c =>
    have ho := h.1
    have hc := h.2.1
    simp only [List.mem_cons, List.not_mem_nil, or_false] at ho hc
    rcases ho with rfl | rfl <;> rcases hc with rfl | rfl <;> exact steps_idle h rfl rfl

theorem slots_chars {s : WSlot} {ss : List WSlot} (h : ∀ x ∈ s :: ss, x.Ok ∧ x.par = false) :
    ∀ c ∈ s.text ++ joined ss, c.isDigit = true ∨ c ∈ ['|', '+', '-'] := by
  intro c hc
  rcases List.mem_append.mp hc with hc | hc
  · rw [body_of_plain (h s (by simp)).2] at hc
    exact (WSlot.body_chars (h s (by simp)).1 c hc).imp_right ((by decide : ∀ x ∈ ['+', '-'], x ∈ ['|', '+', '-']) c)
  · exact joined_plain_chars (fun s hs => h s (by simp [hs])) c hc

theorem slots_ne_nil {s : WSlot} {ss : List WSlot} : s.text ++ joined ss ≠ [] := by simp [text_ne_nil]

theorem slots_starts {r : RE} (hr : ∀ x ∈ "0123456789|+-".toList, r.starts x = false) {s : WSlot} {ss : List WSlot}
    (h : ∀ x ∈ s :: ss, x.Ok ∧ x.par = false) : ∀ c ∈ s.text ++ joined ss, r.starts c = false := by
  intro c hc
  rcases slots_chars h c hc with hd | hd
  · exact hr c ((by decide : ∀ x ∈ "0123456789".toList, x ∈ "0123456789|+-".toList) c (digit_mem hd))
  · exact hr c ((by decide : ∀ x ∈ ['|', '+', '-'], x ∈ "0123456789|+-".toList) c hd)

theorem steps_tr5 : Steps etr5 wrap 7 8 := by
  intro l h pre post hn
  cases l with
  | tr5l ds => exact .inr ⟨hit_etr5l h fun c hc => (hn rfl c hc).1, rfl⟩
  | tr5s s ss =>
    refine .inr ⟨?_, rfl⟩
    have := hit_etr5s (pre := pre) (post := post) slots_ne_nil (slots_chars h)
    have e : (Leaf.tr5s s ss).shown 7 = "tr5(".toList ++ (s.text ++ joined ss) ++ [')'] := by
      change "tr5(".toList ++ s.text ++ joined ss ++ [')'] = _
      simp only [List.append_assoc]
    rw [e]
    exact this
  | trace s ss =>
    refine .inl ⟨?_, rfl⟩
    have e : (Leaf.trace s ss).shown 7 = [] ++ 't' :: ("r(".toList ++ (s.text ++ joined ss) ++ [')']) := by
      change "tr(".toList ++ s.text ++ joined ss ++ [')'] = _
      simp
    rw [e]
    refine quiet_head (by simp) run_etr5 ?_
    intro c hc
    rcases List.mem_append.mp hc with hc | hc
    · rcases List.mem_append.mp hc with hc | hc
      · exact (by decide : ∀ x ∈ "r(".toList, etr5.starts x = false) c hc
      · exact slots_starts (by decide) h c hc
    · exact (by decide : ∀ x ∈ [')'], etr5.starts x = false) c hc
  | two sq bar a b => cases sq <;> exact steps_idle h rfl rfl
  | mandel p ds => exact steps_idle h rfl rfl
  | omega ds => exact steps_idle h rfl rfl
  | pi ds => exact steps_idle h rfl rfl
  | delta c cs => exact steps_idle h rfl rfl
  | str o a ss b c =>
    have ho := h.1
    have hc := h.2.1
    simp only [List.mem_cons, List.not_mem_nil, or_false] at ho hc
    rcases ho with rfl | rfl <;> rcases hc with rfl | rfl <;> exact steps_idle h rfl rfl

theorem steps_tr : Steps etr wrap 8 9 := by
  intro l h pre post hn
  cases l with
  | trace s ss =>
    refine .inr ⟨?_, rfl⟩
    have := hit_etr (pre := pre) (post := post) slots_ne_nil (slots_chars h)
    have e : (Leaf.trace s ss).shown 8 = "tr(".toList ++ (s.text ++ joined ss) ++ [')'] := by
      change "tr(".toList ++ s.text ++ joined ss ++ [')'] = _
      simp only [List.append_assoc]
    rw [e]
    exact this
  | tr5l ds =>
    refine .inl ⟨?_, rfl⟩
    have e : (Leaf.tr5l ds).shown 8 = "oPs('".toList ++ 't' :: ("r5_".toList ++ (ds ++ "')".toList)) := by
      change wrap ("tr5_".toList ++ ds) = _
      simp [wrap]
    rw [e]
    refine quiet_head (by decide) run_etr ?_
    intro c hc
    rcases List.mem_append.mp hc with hc | hc
    · exact (by decide : ∀ x ∈ "r5_".toList, etr.starts x = false) c hc
    · rcases List.mem_append.mp hc with hc | hc
      · exact digits_starts (by decide) h.2 c hc
      · exact (by decide : ∀ x ∈ "')".toList, etr.starts x = false) c hc
  | tr5s s ss =>
    refine .inl ⟨?_, rfl⟩
    have e : (Leaf.tr5s s ss).shown 8 = "oPs('".toList ++ 't' :: ("r5(".toList ++ ((s.text ++ joined ss) ++ ")')".toList)) := by
      change wrap ("tr5(".toList ++ s.text ++ joined ss ++ [')']) = _
      simp [wrap]
    rw [e]
    refine quiet_head (by decide) run_etr ?_
    intro c hc
    rcases List.mem_append.mp hc with hc | hc
    · exact (by decide : ∀ x ∈ "r5(".toList, etr.starts x = false) c hc
    · rcases List.mem_append.mp hc with hc | hc
      · exact slots_starts (by decide) h c hc
      · exact (by decide : ∀ x ∈ ")')".toList, etr.starts x = false) c hc
  | two sq bar a b => cases sq <;> exact steps_idle h rfl rfl
  | mandel p ds => exact steps_idle h rfl rfl
  | omega ds => exact steps_idle h rfl rfl
  | pi ds => exact steps_idle h rfl rfl
  | delta c cs => exact steps_idle h rfl rfl
  | str o a ss b c =>
    have ho := h.1
    have hc := h.2.1
    simp only [List.mem_cons, List.not_mem_nil, or_false] at ho hc
    rcases ho with rfl | rfl <;> rcases hc with rfl | rfl <;> exact steps_idle h rfl rfl

theorem corners_starts {r : RE} (hr : ∀ x ∈ "0123456789|".toList, r.starts x = false) {c : List Char} {cs : List (List Char)}
    (h : ∀ k ∈ c :: cs, Digits k) : ∀ x ∈ c ++ cs.flatMap (fun k => '|' :: k), r.starts x = false := by
  intro x hx
  have hd : ∀ x, x.isDigit = true → r.starts x = false := fun x hx =>
    hr x ((by decide : ∀ x ∈ "0123456789".toList, x ∈ "0123456789|".toList) x (digit_mem hx))
  simp only [List.mem_append, List.mem_flatMap, List.mem_cons] at hx
  rcases hx with hx | ⟨k, hk, rfl | hx⟩
  · exact hd x ((h c (by simp)).2 x hx)
  · exact hr _ (by decide)
  · exact hd x ((h k (by simp [hk])).2 x hx)

theorem steps_Dadj : Steps eDadj wrap 9 9 := by
  intro l h pre post hn
  cases l with
  | delta c cs =>
    obtain ⟨hne, h⟩ := h
    refine .inl ⟨?_, rfl⟩
    have e : (Leaf.delta c cs).shown 9 = [] ++ 'Δ' :: (['_'] ++ (c ++ cs.flatMap fun k => '|' :: k)) := by
      change "Δ_".toList ++ c ++ cs.flatMap (fun k => '|' :: k) = _
      simp
    rw [e]
    refine quiet_head (by simp) ?_ ?_
    · rcases cs with _ | ⟨k, cs⟩
      · exact absurd rfl hne
      · have := run_eDadj (pre := pre) (c := c) (s := k ++ (cs.flatMap fun k => '|' :: k) ++ post) (h c (by simp)).1
        simpa using this
    · intro x hx
      rcases List.mem_append.mp hx with hx | hx
      · exact (by decide : ∀ x ∈ ['_'], eDadj.starts x = false) x hx
      · exact corners_starts (by decide) (fun k hk => (h k hk).1) x hx
  | two sq bar a b => cases sq <;> exact steps_idle h rfl rfl
  | mandel p ds => exact steps_idle h rfl rfl
  | omega ds => exact steps_idle h rfl rfl
  | pi ds => exact steps_idle h rfl rfl
  | tr5l ds => exact steps_idle h rfl rfl
  | tr5s s ss => exact steps_idle h rfl rfl
  | trace s ss => exact steps_idle h rfl rfl
  | str o a ss b c =>
    have ho := h.1
    have hc := h.2.1
    simp only [List.mem_cons, List.not_mem_nil, or_false] at ho hc
    rcases ho with rfl | rfl <;> rcases hc with rfl | rfl <;> exact steps_idle h rfl rfl

theorem steps_Dnon : Steps eDnon wrap 9 10 := by
  intro l h pre post hn
  cases l with
  | delta c cs => exact .inr ⟨hit_eDnon (fun k hk => (h.2 k hk).1) (hn rfl), rfl⟩
  | two sq bar a b => cases sq <;> exact steps_idle h rfl rfl
  | mandel p ds => exact steps_idle h rfl rfl
  | omega ds => exact steps_idle h rfl rfl
  | pi ds => exact steps_idle h rfl rfl
  | tr5l ds => exact steps_idle h rfl rfl
  | tr5s s ss => exact steps_idle h rfl rfl
  | trace s ss => exact steps_idle h rfl rfl
  | str o a ss b c =>
    have ho := h.1
    have hc := h.2.1
    simp only [List.mem_cons, List.not_mem_nil, or_false] at ho hc
    rcases ho with rfl | rfl <;> rcases hc with rfl | rfl <;> exact steps_idle h rfl rfl

theorem steps_NB : Steps eNB wrap 10 11 := by
  intro l h pre post hn
  cases l with
  | str o a ss b c => exact .inr ⟨hit_eNB h, rfl⟩
  | two sq bar a b =>
    refine .inl ⟨?_, by cases sq <;> rfl⟩
    obtain ⟨ha, hb, -⟩ := h
    have e : (Leaf.two sq bar a b).shown 10 = "oPs('".toList ++ openBr sq :: ((a ++ '|' :: (b ++ [closeBr sq])) ++ "')".toList) := by
      have : (Leaf.two sq bar a b).shown 10 = wrap (Leaf.two sq bar a b).name := by cases sq <;> rfl
      rw [this]
      simp [wrap, Leaf.name]
    rw [e]
    refine quiet_head (by decide) ?_ ?_
    · have hc : closeBr sq ∈ "⟩]>".toList := by cases sq <;> decide
      have := run_eNB (o := openBr sq) (pre := "oPs('".toList.reverse ++ pre) (s := "')".toList ++ post) hc ha hb
      simpa using this
    · intro x hx
      rcases List.mem_append.mp hx with hx | hx
      · exact two_starts ha hb (by decide) (by cases sq <;> decide) x hx
      · exact (by decide : ∀ x ∈ "')".toList, eNB.starts x = false) x hx
  | mandel p ds => exact steps_idle h rfl rfl
  | omega ds => exact steps_idle h rfl rfl
  | pi ds => exact steps_idle h rfl rfl
  | tr5l ds => exact steps_idle h rfl rfl
  | tr5s s ss => exact steps_idle h rfl rfl
  | trace s ss => exact steps_idle h rfl rfl
  | delta c cs => exact steps_idle h rfl rfl

/-! ### Substitutions that find nothing -/

/-- All characters of the texts on the way. -/
def allChars : List Char := rawChars ++ "oPs'⟨⟩[]|S_ΩΠtrΔ".toList

theorem words_all : ∀ t ∈ ["⟨|⟩", "[|]", "sS_", "Ω_", "Π_", "tr5_", "tr5(|+-)", "tr(|+-)", "Δ_|", "|()+-", "⟨[", "⟩]"], ∀ x ∈ t.toList, x ∈ allChars := by
  decide

theorem alphabet_all {l : Leaf} (h : l.Ok) : ∀ c ∈ l.alphabet, c ∈ allChars := by
  cases l with
  | two sq bar a b =>
    cases sq
    · exact words_all "⟨|⟩" (by simp)
    · exact words_all "[|]" (by simp)
  | str o a ss b c =>
    obtain ⟨ho, hc, -⟩ := h
    intro x hx
    rcases List.mem_cons.mp hx with rfl | hx
    · exact words_all "⟨[" (by simp) _ ho
    · rcases List.mem_cons.mp hx with rfl | hx
      · exact words_all "⟩]" (by simp) _ hc
      · exact words_all "|()+-" (by simp) _ hx
  | mandel p ds => exact words_all "sS_" (by simp)
  | omega ds => exact words_all "Ω_" (by simp)
  | pi ds => exact words_all "Π_" (by simp)
  | tr5l ds => exact words_all "tr5_" (by simp)
  | tr5s s ss => exact words_all "tr5(|+-)" (by simp)
  | trace s ss => exact words_all "tr(|+-)" (by simp)
  | delta c cs => exact words_all "Δ_|" (by simp)

theorem shownAll_chars {ts : List WTok} (h : ∀ t ∈ ts, t.Ok) (k : ℕ) : ∀ c ∈ shownAll k ts, c ∈ allChars := by
  intro c hc
  simp only [shownAll, List.mem_flatMap] at hc
  obtain ⟨t, ht, hc⟩ := hc
  cases t with
  | ch d =>
    simp only [WTok.shown, List.mem_singleton] at hc
    subst hc
    exact List.mem_append_left _ (h _ ht)
  | leaf l =>
    rcases List.mem_append.mp (shown_chars (h _ ht) k c hc) with hc | hc
    · exact (by decide : ∀ x ∈ baseChars, x ∈ allChars) c hc
    · exact alphabet_all (h _ ht) c hc

theorem sub_absent {r : RE} {f : List Char → List Char} (hr : ∀ c ∈ allChars, r.starts c = false) {t : List Char} (h : ∀ c ∈ t, c ∈ allChars) :
    r.sub f 0 [] t = t := sub_none (quiet_of_starts fun c hc => hr c (h c hc))

end Lips

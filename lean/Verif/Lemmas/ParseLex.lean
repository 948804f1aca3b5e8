import Verif.Lemmas.ParseFrac
import Verif.Props.EvalText

/-! `_parse` as a whole, and the tokens of the result. -/

namespace Lips

open RE

variable {pre u post : List Char}

/-! ### Lines 110-119 -/

/-- The signs of powers. -/
def powOne : WTok → List WTok
  | .ch c => if c = '^' then [.ch '*', .ch '*'] else [.ch c]
  | .leaf l => [.leaf l]

def powTok (ts : List WTok) : List WTok := ts.flatMap powOne

theorem powTok_cons (t : WTok) (ts : List WTok) : powTok (t :: ts) = powOne t ++ powTok ts := by simp [powTok]

/-- The expression without blanks and with the signs of powers Python has. -/
def tidyToks (ts : List WTok) : List WTok := powTok (ts.filter fun t => !t.blank)

theorem exprText_cons (t : WTok) (ts : List WTok) : exprText (t :: ts) = t.text ++ exprText ts := by simp [exprText]

theorem exprText_shown (ts : List WTok) : exprText ts = shownAll 0 ts := by
  have : ∀ l : Leaf, l.shown 0 = l.text := by
    intro l
    cases l with
    | two sq bar a b => cases sq <;> rfl
    | _ => rfl
  unfold exprText shownAll
  congr 1
  funext t
  cases t with
  | ch c => rfl
  | leaf l => exact (this l).symm

/-- The characters of expressions. -/
theorem exprText_chars {ts : List WTok} (h : ∀ t ∈ ts, t.Fit) : ∀ c ∈ exprText ts, c ∈ allChars ++ ['^', ' '] := by
  intro c hc
  obtain ⟨t, ht, hc⟩ := List.mem_flatMap.mp hc
  have hf := h t ht
  cases t with
  | ch x =>
    rw [WTok.text, List.mem_singleton] at hc
    subst hc
    exact (by decide : ∀ x ∈ "0123456789+-*/()^ ".toList, x ∈ allChars ++ ['^', ' ']) c hf
  | leaf l =>
    apply List.mem_append_left
    rcases text_name_only hf c (List.mem_append_left _ hc) with h' | h'
    · exact List.mem_append_left _ (List.mem_append_left _ (digit_mem h'))
    · exact alphabet_all hf c h'

theorem sub_idle {r : RE} {f : List Char → List Char} {A : List Char} (hr : ∀ c ∈ A, r.starts c = false) {t : List Char} (h : ∀ c ∈ t, c ∈ A) :
    r.sub f 0 [] t = t := sub_none (quiet_of_starts fun c hc => hr c (h c hc))

theorem blanks_pass {ts : List WTok} (h : ∀ t ∈ ts, t.Fit) :
    (exprText ts).flatMap (fun x => if x = ' ' then [] else [x]) = exprText (ts.filter fun t => !t.blank) := by
  induction ts with
  | nil => rfl
  | cons t ts ih =>
    rw [exprText_cons, List.flatMap_append, ih fun x hx => h x (by simp [hx])]
    have ht := h t (by simp)
    cases t with
    | ch c =>
      by_cases hc : c = ' '
      · rw [List.filter_cons_of_neg (by simp [WTok.blank, hc])]
        simp [WTok.text, hc]
      · rw [List.filter_cons_of_pos (by simp [WTok.blank, hc]), exprText_cons]
        simp [WTok.text, hc]
    | leaf l =>
      rw [List.filter_cons_of_pos (by simp [WTok.blank]), exprText_cons]
      congr 1
      have hno := (name_no (l := l) ht (c := ' ') (by decide)).1
      change l.text.flatMap _ = l.text
      rw [List.flatMap_congr (g := fun x => [x]) (fun x hx => if_neg (by rintro rfl; exact hno hx))]
      simp

theorem powers_pass {ts : List WTok} (h : ∀ t ∈ ts, t.Fit) :
    (exprText ts).flatMap (fun x => if x = '^' then "**".toList else [x]) = exprText (powTok ts) := by
  induction ts with
  | nil => rfl
  | cons t ts ih =>
    have ht := h t (by simp)
    rw [exprText_cons, List.flatMap_append, ih fun x hx => h x (by simp [hx]), powTok_cons]
    cases t with
    | ch c =>
      by_cases hc : c = '^'
      · subst hc; rfl
      · simp [WTok.text, hc, exprText, powOne]
    | leaf l =>
      have hno := (name_no (l := l) ht (c := '^') (by decide)).1
      change l.text.flatMap _ ++ _ = exprText (.leaf l :: powTok ts)
      rw [exprText_cons, List.flatMap_congr (g := fun x => [x]) (fun x hx => if_neg (by rintro rfl; exact hno hx))]
      simp [WTok.text]

/-- Nothing after a sign of powers keeps it from being one. -/
theorem powers_next {ts : List WTok} (h : ∀ t ∈ ts, t.Fit) (p : List Char) (x : Char) (q : List Char)
    (e : exprText ts = p ++ '^' :: x :: q) : x ∉ "]⟩>|".toList := by
  induction ts generalizing p with
  | nil => simp [exprText] at e
  | cons t ts ih =>
    have ht := h t (by simp)
    have ih := fun p => ih (fun x hx => h x (by simp [hx])) p
    rw [exprText_cons] at e
    cases t with
    | ch c =>
      rcases p with _ | ⟨y, p⟩
      · simp only [WTok.text, List.cons_append, List.nil_append, List.cons.injEq] at e
        rcases ts with _ | ⟨t, ts⟩
        · simp [exprText] at e
        · rw [exprText_cons] at e
          have ht := h t (by simp)
          cases t with
          | ch c =>
            simp only [WTok.text, List.cons_append, List.nil_append, List.cons.injEq] at e
            rw [← e.2.1]
            exact (by decide : ∀ x ∈ "0123456789+-*/()^ ".toList, x ∉ "]⟩>|".toList) c ht
          | leaf l =>
            obtain ⟨c, s, h1, h2⟩ := text_head (l := l) ht
            simp only [WTok.text, h1, List.cons_append, List.cons.injEq] at e
            rw [← e.2.1]
            exact (by decide : ∀ x ∈ headChars, x ∉ "]⟩>|".toList) c h2
      · simp only [WTok.text, List.cons_append, List.nil_append, List.cons.injEq] at e
        exact ih p e.2
    | leaf l =>
      have hno := (name_no (l := l) ht (c := '^') (by decide)).1
      rcases List.append_eq_append_iff.mp e with ⟨c, rfl, h2⟩ | ⟨c, h1, h2⟩
      · exact ih c h2
      · rcases c with _ | ⟨y, c⟩
        · exact ih [] (by simpa using h2.symm)
        · simp only [List.cons_append, List.cons.injEq] at h2
          obtain ⟨rfl, h2⟩ := h2
          exact absurd (by rw [show l.text = _ from h1]; simp) hno

theorem fit_filter {ts : List WTok} (h : ∀ t ∈ ts, t.Fit) : ∀ t ∈ ts.filter fun t => !t.blank, t.Fit :=
  fun t ht => h t (List.mem_of_mem_filter ht)

theorem tidy_ok {ts : List WTok} (h : ∀ t ∈ ts, t.Fit) : ∀ t ∈ tidyToks ts, t.Ok := by
  intro t ht
  obtain ⟨x, hx, ht⟩ := List.mem_flatMap.mp ht
  have h1 := fit_filter h x hx
  have h2 := List.of_mem_filter hx
  cases x with
  | ch c =>
    simp only [powOne] at ht
    split at ht
    · rw [List.mem_cons, List.mem_singleton, or_self] at ht
      subst ht
      exact (by decide : '*' ∈ rawChars)
    · rename_i hc
      rw [List.mem_singleton] at ht
      subst ht
      simp only [WTok.blank, Bool.not_eq_true', decide_eq_false_iff_not] at h2
      exact (by decide : ∀ c ∈ "0123456789+-*/()^ ".toList, c ≠ '^' → c ≠ ' ' → c ∈ rawChars) c h1 hc h2
  | leaf l =>
    rw [powOne, List.mem_singleton] at ht
    subst ht
    exact h1

theorem powTok_chain {ts : List WTok} (h : ts.IsChain WTok.Apart) : (powTok ts).IsChain WTok.Apart ∧
    ∀ t, (∀ u, ts.head? = some u → WTok.Apart t u) → ∀ u, (powTok ts).head? = some u → WTok.Apart t u := by
  have star : ∀ t, WTok.Apart t (.ch '*') := by
    intro t
    cases t with
    | ch c => trivial
    | leaf l => exact fun _ => by decide
  induction ts with
  | nil => exact ⟨by simp [powTok], fun t _ u hu => by simp [powTok] at hu⟩
  | cons x ts ih =>
    have hts : ts.IsChain WTok.Apart := h.tail
    obtain ⟨h1, h2⟩ := ih hts
    have hx : ∀ u, ts.head? = some u → WTok.Apart x u := fun u hu => List.isChain_cons.mp h |>.1 u hu
    rw [powTok_cons]
    cases x with
    | ch c =>
      by_cases hc : c = '^'
      · simp only [powOne, hc, if_true, List.cons_append, List.nil_append]
        refine ⟨?_, ?_⟩
        · rw [List.isChain_cons_cons, List.isChain_cons]
          exact ⟨trivial, fun _ _ => trivial, h1⟩
        · intro t _ u hu
          simp only [List.head?_cons, Option.some.injEq] at hu
          subst hu
          exact star t
      · simp only [powOne, hc, if_false, List.cons_append, List.nil_append]
        refine ⟨?_, ?_⟩
        · rw [List.isChain_cons]
          exact ⟨fun _ _ => trivial, h1⟩
        · intro t ht u hu
          exact ht u hu
    | leaf l =>
      simp only [powOne, List.cons_append, List.nil_append]
      refine ⟨?_, ?_⟩
      · rw [List.isChain_cons]
        exact ⟨fun u hu => h2 (.leaf l) hx u hu, h1⟩
      · intro t ht u hu
        exact ht u hu

theorem good_tidy {ts : List WTok} (h : Expression ts) : GoodToks (tidyToks ts) := ⟨tidy_ok h.1, (powTok_chain h.2).1⟩

/-- Lines 110-119. -/
theorem tidy_pass {ts : List WTok} (h : ∀ t ∈ ts, t.Fit) : runPasses passesTidy (exprText ts) = shownAll 0 (tidyToks ts) := by
  have hc := exprText_chars h
  have hf := fit_filter h
  have hc2 := exprText_chars hf
  simp only [runPasses, passesTidy, List.foldl_cons, List.foldl_nil]
  have a1 : ∀ p ∈ ([replace "−" "-", replace "\\scriptscriptstyle" "", replace "<" "⟨", replace ">" "⟩", replace "\\frac{" "(", replace "}{" ")/(",
      replace "}+\\" ")+", replace "\n" ""] : List Pass), ∀ c ∈ allChars ++ ['^', ' '], p.1.starts c = false := by decide
  rw [sub_idle (a1 _ (by simp)) hc, sub_idle (a1 _ (by simp)) hc, sub_idle (a1 _ (by simp)) hc, sub_idle (a1 _ (by simp)) hc,
    sub_idle (a1 _ (by simp)) hc, sub_idle (a1 _ (by simp)) hc, sub_idle (a1 _ (by simp)) hc, sub_idle (a1 _ (by simp)) hc]
  have b1 : (replace " " "").1.sub (replace " " "").2 0 [] (exprText ts) = exprText (ts.filter fun t => !t.blank) := by
    rw [← blanks_pass h]
    exact sub_char (c := ' ') rfl [] _
  rw [b1, sub_idle (by decide) hc2]
  have b2 := sub_pow (f := fun _ => "**".toList) [] _ (powers_next hf)
  rw [powers_pass hf] at b2
  change (cat [lit "{", some1 (digOr "|"), lit "}"]).sub (fun m => m.tail.dropLast) 0 [] (ePow.sub (fun _ => "**".toList) 0 [] _) = _
  rw [b2, exprText_shown]
  exact sub_idle (by decide) (shownAll_chars (tidy_ok h) 0)

/-! ### The end -/

theorem sub_chars {Q : Char → Prop} {r : RE} {f : List Char → List Char} (hf : ∀ m, (∀ c ∈ m, Q c) → ∀ c ∈ f m, Q c) (t : List Char)
    (h : ∀ c ∈ t, Q c) (k : ℕ) (pre : List Char) : ∀ c ∈ r.sub f k pre t, Q c := by
  induction t generalizing k pre with
  | nil => cases k <;> simp [sub]
  | cons x t ih =>
    have ih := ih fun c hc => h c (by simp [hc])
    have hx := h x (by simp)
    cases k with
    | succ k => rw [sub]; exact ih k _
    | zero =>
      rw [sub]
      split
      · intro c hc
        rcases List.mem_cons.mp hc with rfl | hc
        · exact hx
        · exact ih _ _ c hc
      · split
        · intro c hc
          rcases List.mem_cons.mp hc with rfl | hc
          · exact hx
          · exact ih _ _ c hc
        · intro c hc
          rcases List.mem_append.mp hc with hc | hc
          · exact hf _ (fun c hc => h c (List.mem_of_mem_take hc)) c hc
          · exact ih _ _ c hc

theorem frac_noB {t : List Char} (h : ∀ c ∈ t, c ∈ allChars) (pre : List Char) : 'b' ∉ eFrac.sub asFraction 0 pre t := by
  have := sub_chars (Q := fun c => c ≠ 'b') (r := eFrac) (f := asFraction) (by
    intro m hm c hc
    delta asFraction at hc
    rw [fraction_word] at hc
    simp only [List.mem_append, List.mem_cons, List.not_mem_nil, or_false] at hc
    rcases hc with ((hc | hc) | hc | hc) | hc
    · rcases hc with rfl | rfl | rfl | rfl | rfl | rfl | rfl | rfl | rfl <;> decide
    · exact hm c ((List.takeWhile_prefix _).subset hc)
    · subst hc; decide
    · exact hm c ((List.dropWhile_suffix _).subset (List.mem_of_mem_tail hc))
    · subst hc; decide) t (fun c hc e => absurd (h c hc) (by rw [e]; decide)) 0 pre
  exact fun hb => this _ hb rfl

theorem sym_ok {ts : List WTok} (h : ∀ t ∈ ts, t.Ok) : ∀ x ∈ ts.map WTok.sym, SymOk x := by
  intro x hx
  obtain ⟨t, ht, rfl⟩ := List.mem_map.mp hx
  cases t with
  | ch c => trivial
  | leaf l => exact (name_no (l := l) (h _ ht) (c := '/') (by decide)).2

theorem runPasses_append (ps qs : List Pass) (t : List Char) : runPasses (ps ++ qs) t = runPasses qs (runPasses ps t) := by
  simp [runPasses]

/-- Lines 156-163. -/
theorem end_pass {ts : List WTok} (h : ∀ t ∈ ts, t.Ok) : runPasses passesEnd (shownAll 11 ts) =
    drawn (fractions (implicitProducts (ts.map WTok.sym)).length none none (implicitProducts (ts.map WTok.sym))) := by
  have ok : ∀ t ∈ insTok LeftOut ts, t.Ok := by
    intro t ht
    rcases mem_insTok ht with h' | rfl
    · exact h t h'
    · exact (by decide : '*' ∈ rawChars)
  have e : passesEnd = [replace "sqrt" "oPs.field.sqrt"] ++ ([(cat [dig, lit "s"], starLast), (cat [dig, lit "o"], starLast),
    (cat [notAfter "tr", dig, lit "("], starLast), (cat [lit ")", dig], starLast), replace ")(" ")*(", replace ")o" ")*o"] ++
    [(eFrac, asFraction), (cat [notAfter "numpy.", lit "block"], fun _ => "numpy.block".toList)]) := rfl
  rw [e, runPasses_append, runPasses_append]
  have h1 : runPasses [replace "sqrt" "oPs.field.sqrt"] (shownAll 11 ts) = shownAll 11 ts := by
    apply runPasses_absent
    intro p hp
    rw [List.mem_singleton] at hp
    subst hp
    refine sub_missing (c := 'q') (fun pre u post ht => ?_) fun hq => absurd (shownAll_chars h 11 _ hq) (by decide)
    rw [show u = "sqrt".toList from takes_lit.mp ht]
    decide
  rw [h1, stars_pass h]
  have hB : Before [] none none := ⟨by simp, by simp⟩
  have h2 := frac_pass _ _ (sym_ok ok) [] none none hB le_rfl
  rw [← shownAll_drawn, implicit_sym] at h2
  simp only [runPasses, List.foldl_cons, List.foldl_nil]
  rw [sub_missing (c := 'b') (fun pre u post ht => ?_) (frac_noB (shownAll_chars ok 11) []), h2]
  simp only [takes_cat_cons, takes_cat_nil, takes_lit] at ht
  obtain ⟨_, _, rfl, -, _, _, rfl, rfl, rfl⟩ := ht
  simp

theorem tidy_sym (ts : List WTok) : (tidyToks ts).map WTok.sym = powerSigns (noBlanks (ts.map WTok.sym)) := by
  unfold tidyToks
  induction ts with
  | nil => rfl
  | cons t ts ih =>
    cases t with
    | ch c =>
      by_cases hc : c = ' '
      · rw [List.filter_cons_of_neg (by simp [WTok.blank, hc]), ih]
        simp [noBlanks, WTok.sym, hc]
      · rw [List.filter_cons_of_pos (by simp [WTok.blank, hc]), powTok_cons, List.map_append, ih]
        by_cases hp : c = '^'
        · simp [noBlanks, powerSigns, WTok.sym, powOne, hp]
        · simp [noBlanks, powerSigns, WTok.sym, powOne, hp, hc]
    | leaf l =>
      rw [List.filter_cons_of_pos (by simp [WTok.blank]), powTok_cons, List.map_append, ih]
      simp [noBlanks, powerSigns, WTok.sym, powOne]

/-- `_parse`. -/
theorem parseText_expr {ts : List WTok} (h : Expression ts) : parseText (exprText ts) = drawn (prepare (ts.map WTok.sym)) := by
  have hg := good_tidy h
  have hg2 := good_insTok (P := fun x y => x.endsAl && y.beginsO) hg
  rw [parseText, runPasses_append, runPasses_append, runPasses_append, runPasses_append, tidy_pass h.1, massive_none hg.1, names_pass hg, open_pass hg2,
    end_pass hg2.1]
  have e1 : implicitProducts ((insTok (fun x y => x.endsAl && y.beginsO) (tidyToks ts)).map WTok.sym) =
      implicitProducts ((tidyToks ts).map WTok.sym) := by
    rw [← implicit_sym, ← implicit_sym, insTok_insTok (fun x => by cases x <;> simp [LeftOut, WTok.digit, WTok.isLeaf, WTok.isOpen, WTok.closes, show '*'.isDigit = false from rfl])
      (fun y => by simp [LeftOut, WTok.digit, WTok.closes, show '*'.isDigit = false from rfl])]
    congr 1
    apply insTok_congr
    intro x hx y hy
    have hxo := hg.1 x hx
    cases y with
    | ch c => simp [WTok.beginsO]
    | leaf l =>
      cases x with
      | ch c =>
        have : isAlnum c = c.isDigit := (by decide : ∀ c ∈ rawChars, isAlnum c = c.isDigit) c hxo
        simp only [LeftOut, WTok.endsAl, this, WTok.digit, WTok.isLeaf]
        cases c.isDigit <;> simp
      | leaf l' => simp [LeftOut, WTok.closes, WTok.isLeaf]
  rw [e1, tidy_sym]
  rfl

/-! ### Tokens -/

/-- Symbols after `_parse`. -/
def LexOk : Sym → Prop
  | .ch c => c ∈ rawChars
  | .leaf n => '\'' ∉ n
  | .frac a b => Digits a ∧ Digits b

theorem frac_mem (f : ℕ) (p q : Option Sym) (s : List Sym) (h : ∀ x ∈ s, LexOk x) : ∀ x ∈ fractions f p q s, LexOk x := by
  induction f generalizing p q s with
  | zero => exact h
  | succ f ih =>
    rcases s with _ | ⟨x, s⟩
    · simp [fractions]
    · rw [fractions]
      obtain ⟨-, g2, -⟩ := digits_drawn (x :: s)
      obtain ⟨-, k2, -⟩ := digits_drawn ((x :: s).dropWhile Sym.isDigit).tail
      split
      · rename_i hc
        obtain ⟨c1, -, -, c4⟩ := hc
        intro y hy
        rcases List.mem_cons.mp hy with rfl | hy
        · refine ⟨⟨?_, g2⟩, ⟨?_, k2⟩⟩
          · rw [List.takeWhile_cons_of_pos c1]
            simp
          · simpa using c4
        · refine ih _ _ _ ?_ y hy
          intro z hz
          exact h z ((List.dropWhile_suffix _).subset (List.mem_of_mem_tail ((List.dropWhile_suffix _).subset hz)))
      · intro y hy
        rcases List.mem_cons.mp hy with rfl | hy
        · exact h _ (by simp)
        · exact ih _ _ _ (fun z hz => h z (by simp [hz])) y hy

theorem implicit_mem (s : List Sym) (h : ∀ x ∈ s, LexOk x) : ∀ x ∈ implicitProducts s, LexOk x := by
  induction s with
  | nil => simp [implicitProducts]
  | cons x s ih =>
    rcases s with _ | ⟨y, s⟩
    · exact h
    · have ih := ih fun z hz => h z (by simp only [List.mem_cons] at hz ⊢; exact .inr hz)
      rw [implicitProducts]
      split
      · intro z hz
        rcases List.mem_cons.mp hz with rfl | hz
        · exact h _ (by simp)
        · rcases List.mem_cons.mp hz with rfl | hz
          · exact (by decide : '*' ∈ rawChars)
          · exact ih z hz
      · intro z hz
        rcases List.mem_cons.mp hz with rfl | hz
        · exact h _ (by simp)
        · exact ih z hz

theorem prepare_mem {ts : List WTok} (h : ∀ t ∈ ts, t.Fit) : ∀ x ∈ prepare (ts.map WTok.sym), LexOk x := by
  unfold prepare
  apply frac_mem
  apply implicit_mem
  rw [← tidy_sym]
  intro x hx
  obtain ⟨t, ht, rfl⟩ := List.mem_map.mp hx
  have := tidy_ok h t ht
  cases t with
  | ch c => exact this
  | leaf l => exact (name_no (l := l) this (c := '\'') (by decide)).2

theorem pyLiteral_err {ds : List Char} {e : Err} (h : pyLiteral ds = .error e) : e = .syntaxError := by
  unfold pyLiteral at h
  split at h
  · exact (Except.error.inj h).symm
  · exact absurd h (by simp)

theorem flushNum_err {ds : List Char} {r : Except Err (List (Tok EAtom))} (hr : ∀ e, r = .error e → e = .syntaxError) {e : Err}
    (h : flushNum ds r = .error e) : e = .syntaxError := by
  unfold flushNum at h
  split at h
  · rename_i e'
    exact hr e (by rw [Except.error.inj h])
  · split at h
    · exact absurd h (by simp)
    · split at h
      · exact absurd h (by simp)
      · rename_i e' he
        exact (Except.error.inj h) ▸ pyLiteral_err he

theorem cons_err {t : Tok EAtom} {r : Except Err (List (Tok EAtom))} (hr : ∀ e, r = .error e → e = .syntaxError) :
    ∀ e, (match r with | .ok ts => .ok (t :: ts) | .error e => .error e : Except Err (List (Tok EAtom))) = .error e → e = .syntaxError := by
  intro e h
  cases r with
  | ok ts => exact absurd h (by simp)
  | error e' => exact hr e (by rw [Except.error.inj h])

theorem lexer_err (n : ℕ) (ds : List Char) (s : List Sym) (hn : s.length ≤ n) : ∀ e, lexer ds s = .error e → e = .syntaxError := by
  induction n generalizing ds s with
  | zero =>
    obtain rfl := List.length_eq_zero_iff.mp (by omega : s.length = 0)
    intro e h
    rw [lexer] at h
    exact flushNum_err (by simp) h
  | succ n ih =>
    intro e h
    rw [lexer.eq_def] at h
    split at h
    · exact flushNum_err (by simp) h
    · rename_i i s
      simp only [List.length_cons] at hn
      exact flushNum_err (cons_err (ih [] s (by omega))) h
    · rename_i a b s
      refine flushNum_err ?_ h
      intro e h
      split at h
      · exact absurd h (by simp)
      · exact (Except.error.inj h).symm
    · rename_i s
      simp only [List.length_cons] at hn
      exact flushNum_err (cons_err (ih [] s (by omega))) h
    · rename_i c s _
      simp only [List.length_cons] at hn
      split at h
      · exact ih _ s (by omega) e h
      · split at h
        · exact (Except.error.inj h).symm
        · exact flushNum_err (cons_err (ih [] s (by omega))) h

/-! ### The tokens of the characters are those of the symbols -/

/-- Symbols begin with characters of their own. -/
theorem lex_head {x : Sym} (h : LexOk x) : ∃ c t, x.drawn = c :: t ∧ (c = '*' → x = .ch '*') ∧ (c.isDigit = true → x.isDigit = true) := by
  cases x with
  | ch c => exact ⟨c, [], rfl, fun e => by rw [e], fun e => e⟩
  | leaf n => exact ⟨'o', _, rfl, fun e => absurd e (by decide), fun e => absurd e (by decide)⟩
  | frac a b => exact ⟨'F', _, rfl, fun e => absurd e (by decide), fun e => absurd e (by decide)⟩

/-- A literal before further tokens. -/
def joinNum (p : Except Err ℕ) (r : Except Err (List (Tok EAtom))) : Except Err (List (Tok EAtom)) :=
  match p, r with
  | .ok k, .ok ts => .ok (.atom (.num k) :: ts)
  | .error e, _ => .error e
  | _, .error e => .error e

theorem lex_number {D : List Char} (hD : D ≠ []) {r : Except Err (List (Tok EAtom))} (hr : ∀ e, r = .error e → e = .syntaxError) :
    joinNum (pyLiteral D) r = flushNum D r := by
  cases r with
  | ok ts =>
    rcases h : pyLiteral D with e | k
    · simp [joinNum, flushNum, hD, h]
    · simp [joinNum, flushNum, hD, h]
  | error e =>
    obtain rfl := hr e rfl
    rcases h : pyLiteral D with e | k
    · obtain rfl := pyLiteral_err h
      simp [joinNum, flushNum]
    · simp [joinNum, flushNum]

/-- An operator. -/
def opTok (c : Char) : Option (Tok EAtom) :=
  if c = '+' then some .plus else if c = '-' then some .minus else if c = '*' then some .star else if c = '/' then some .slash
  else if c = '(' then some .lpar else if c = ')' then some .rpar else none

theorem lexer_op {c : Char} {s : List Sym} {t : Tok EAtom} (hd : c.isDigit = false) (ht : opTok c = some t) (hs : c = '*' → s.head? ≠ some (.ch '*')) :
    lexer [] (.ch c :: s) = match lexer [] s with | .ok ts => .ok (t :: ts) | .error e => .error e := by
  rw [lexer.eq_def]
  split
  · rename_i h; simp at h
  · rename_i h; simp at h
  · rename_i h; simp at h
  · rename_i h
    simp only [List.cons.injEq, Sym.ch.injEq] at h
    exact absurd (by rw [h.2]; rfl) (hs h.1)
  · rename_i heq
    simp only [List.cons.injEq, Sym.ch.injEq] at heq
    obtain ⟨rfl, rfl⟩ := heq
    rw [if_neg (by simp [hd])]
    unfold opTok at ht
    rw [ht]
    simp only
    rw [flushNum_nil]
    rfl

theorem lexChars_digits (f : ℕ) {c : Char} {w : List Char} (hc : c.isDigit = true) : lexChars (f + 1) (c :: w) =
    match lexChars f ((c :: w).dropWhile Char.isDigit) with
      | none => none
      | some r => some (joinNum (pyLiteral ((c :: w).takeWhile Char.isDigit)) r) := by
  rw [lexChars, if_pos hc]
  rfl

theorem lexChars_op (f : ℕ) {c : Char} {w : List Char} {t : Tok EAtom} (hd : c.isDigit = false) (ht : opTok c = some t)
    (hw : c = '*' → w.head? ≠ some '*') : lexChars (f + 1) (c :: w) = (lexChars f w).map fun r => match r with
      | .ok ts => .ok (t :: ts)
      | .error e => .error e := by
  rw [lexChars, if_neg (by simp [hd]), if_neg (by rintro ⟨h1, h2⟩; exact hw h1 h2)]
  have e : (if c = '+' then some (Tok.plus, w) else if c = '-' then some (.minus, w) else if c = '*' then some (.star, w)
      else if c = '/' then some (.slash, w) else if c = '(' then some (.lpar, w) else if c = ')' then some (.rpar, w) else none) =
      (opTok c).map fun t => (t, w) := by
    unfold opTok
    split
    · rfl
    split
    · rfl
    split
    · rfl
    split
    · rfl
    split
    · rfl
    split
    · rfl
    · rfl
  rw [e, ht]
  rfl

theorem lexChars_pow (f : ℕ) (w : List Char) : lexChars (f + 1) ('*' :: '*' :: w) = (lexChars f w).map fun r => match r with
      | .ok ts => .ok (.dstar :: ts)
      | .error e => .error e := by
  rw [lexChars, if_neg (by decide), if_pos ⟨rfl, rfl⟩]
  rfl

theorem takeWhile_quote {n : List Char} (hn : '\'' ∉ n) (w : List Char) :
    (n ++ '\'' :: w).takeWhile (fun x => decide (x ≠ '\'')) = n ∧ (n ++ '\'' :: w).dropWhile (fun x => decide (x ≠ '\'')) = '\'' :: w := by
  have h : ∀ x ∈ n, decide (x ≠ '\'') = true := fun x hx => by
    have : x ≠ '\'' := by rintro rfl; exact hn hx
    simp [this]
  rw [List.takeWhile_append_of_pos h, List.dropWhile_append_of_pos h]
  constructor
  · simp
  · simp

theorem takeWhile_digitChars {a : List Char} (ha : ∀ c ∈ a, c.isDigit = true) {x : Char} (hx : x.isDigit = false) (w : List Char) :
    (a ++ x :: w).takeWhile Char.isDigit = a ∧ (a ++ x :: w).dropWhile Char.isDigit = x :: w := by
  rw [List.takeWhile_append_of_pos ha, List.dropWhile_append_of_pos ha]
  constructor
  · simp [hx]
  · simp [hx]

theorem lexChars_leaf (f : ℕ) {n : List Char} (hn : '\'' ∉ n) (w : List Char) : lexChars (f + 1) ((Sym.leaf n).drawn ++ w) =
    (lexChars f w).map fun r => match r with
      | .ok ts => .ok (.atom (.leaf n) :: ts)
      | .error e => .error e := by
  have e : (Sym.leaf n).drawn ++ w = 'o' :: ('P' :: 's' :: '(' :: ('\'' :: (n ++ '\'' :: (')' :: w)))) := by simp [drawn_leaf]
  obtain ⟨h1, h2⟩ := takeWhile_quote hn (')' :: w)
  have hp : "oPs('".toList <+: 'o' :: ('P' :: 's' :: '(' :: ('\'' :: (n ++ '\'' :: (')' :: w)))) := ⟨n ++ '\'' :: (')' :: w), rfl⟩
  rw [e, lexChars, if_neg (by decide), if_neg (fun h => absurd h.1 (by decide)), if_neg (by decide), if_neg (by decide), if_neg (by decide),
    if_neg (by decide), if_neg (by decide), if_neg (by decide)]
  simp only
  rw [if_pos hp]
  have hdrop : ('P' :: 's' :: '(' :: ('\'' :: (n ++ '\'' :: (')' :: w)))).drop 4 = n ++ '\'' :: (')' :: w) := rfl
  have htake : List.take 2 ('\'' :: ')' :: w) = "')".toList := rfl
  rw [hdrop, h1, h2, if_pos htake]
  rfl

theorem lexChars_frac (f : ℕ) {a b : List Char} (ha : Digits a) (hb : Digits b) (w : List Char) : lexChars (f + 1) ((Sym.frac a b).drawn ++ w) =
    match lexChars f w with
      | none => none
      | some r => some (match pyLiteral a, pyLiteral b, r with
        | .ok a, .ok b, .ok ts => .ok (.atom (.rat a b) :: ts)
        | _, _, _ => .error .syntaxError) := by
  have e : (Sym.frac a b).drawn ++ w = 'F' :: ('r' :: 'a' :: 'c' :: 't' :: 'i' :: 'o' :: 'n' :: '(' :: (a ++ ',' :: (b ++ ')' :: w))) := by
    simp [drawn_frac, fracText]
  obtain ⟨h1, h2⟩ := takeWhile_digitChars ha.2 (x := ',') (by decide) (b ++ ')' :: w)
  obtain ⟨h3, h4⟩ := takeWhile_digitChars hb.2 (x := ')') (by decide) w
  have hp : ¬"oPs('".toList <+: 'F' :: ('r' :: 'a' :: 'c' :: 't' :: 'i' :: 'o' :: 'n' :: '(' :: (a ++ ',' :: (b ++ ')' :: w))) := by
    rintro ⟨t, ht⟩
    exact absurd (List.cons.inj (show 'o' :: _ = 'F' :: _ from ht)).1 (by decide)
  have hp2 : "Fraction(".toList <+: 'F' :: ('r' :: 'a' :: 'c' :: 't' :: 'i' :: 'o' :: 'n' :: '(' :: (a ++ ',' :: (b ++ ')' :: w))) := by
    rw [fraction_word]
    exact ⟨_, rfl⟩
  rw [e, lexChars, if_neg (by decide), if_neg (fun h => absurd h.1 (by decide)), if_neg (by decide), if_neg (by decide), if_neg (by decide),
    if_neg (by decide), if_neg (by decide), if_neg (by decide)]
  simp only
  rw [if_neg hp, if_pos hp2]
  have hdrop : ('r' :: 'a' :: 'c' :: 't' :: 'i' :: 'o' :: 'n' :: '(' :: (a ++ ',' :: (b ++ ')' :: w))).drop 8 = a ++ ',' :: (b ++ ')' :: w) := rfl
  rw [hdrop, h1, h2, List.tail_cons, h3, h4, if_pos ⟨rfl, rfl, ha.1, hb.1⟩, List.tail_cons]
  rfl

/-- Python's tokens. -/
theorem lexChars_drawn (f : ℕ) (s : List Sym) (h : ∀ x ∈ s, LexOk x) (hf : (drawn s).length < f) : lexChars f (drawn s) = some (lexer [] s) := by
  induction f generalizing s with
  | zero => omega
  | succ f ih =>
    rcases s with _ | ⟨x, s⟩
    · rfl
    · have hs : ∀ y ∈ s, LexOk y := fun y hy => h y (by simp [hy])
      have hx := h x (by simp)
      have herr : ∀ s : List Sym, ∀ e, lexer [] s = .error e → e = .syntaxError := fun s => lexer_err s.length [] s le_rfl
      by_cases hd : x.isDigit = true
      · obtain ⟨g1, g2, g3⟩ := digits_drawn (x :: s)
        set D := ((x :: s).takeWhile Sym.isDigit).map Sym.char with hDdef
        set rest := (x :: s).dropWhile Sym.isDigit with hrest
        have e1 : drawn (x :: s) = D ++ drawn rest := by
          have := takeWhile_dropWhile Sym.isDigit (x :: s)
          conv_lhs => rw [← this, drawn_append, g1]
        have hD : D ≠ [] := by
          rw [hDdef, List.takeWhile_cons_of_pos hd]
          simp
        have hres : ∀ y ∈ rest, LexOk y := fun y hy => h y ((List.dropWhile_suffix _).subset hy)
        have e2 : lexer [] (x :: s) = flushNum D (lexer [] rest) := by
          have h1 : x :: s = chs D ++ rest := by
            have h2 := takeWhile_dropWhile Sym.isDigit (x :: s)
            have h3 : chs D = (x :: s).takeWhile Sym.isDigit := by
              rw [hDdef, chs, List.map_map]
              conv_rhs => rw [← List.map_id ((x :: s).takeWhile Sym.isDigit)]
              apply List.map_congr_left
              intro y hy
              have := List.all_eq_true.mp List.all_takeWhile _ hy
              cases y with
              | ch c => rfl
              | leaf n => exact absurd this (by simp [Sym.isDigit])
              | frac a b => exact absurd this (by simp [Sym.isDigit])
            rw [h3]
            exact h2.symm
          conv_lhs => rw [h1]
          rw [lexer_digits D g2, List.nil_append]
          apply lexer_flush
          intro y hy
          rw [hrest] at hy
          have := List.head?_dropWhile_not Sym.isDigit (x :: s)
          rw [hy] at this
          simpa using this
        obtain ⟨c, w, hcw⟩ : ∃ c w, D = c :: w := List.exists_cons_of_ne_nil hD
        have hc : c.isDigit = true := g2 c (by rw [hcw]; simp)
        have e3 : (drawn (x :: s)).takeWhile Char.isDigit = D ∧ (drawn (x :: s)).dropWhile Char.isDigit = drawn rest := by
          rw [e1, List.takeWhile_append_of_pos g2, List.dropWhile_append_of_pos g2]
          rcases hr : drawn rest with _ | ⟨z, w'⟩
          · simp
          · have := g3 z (by rw [hr]; rfl)
            simp [this]
        have e4 : drawn (x :: s) = c :: (w ++ drawn rest) := by rw [e1, hcw]; rfl
        have hlen : (drawn rest).length < f := by
          rw [e4] at hf
          simp only [List.length_cons, List.length_append] at hf
          omega
        rw [e4, lexChars_digits f hc, ← e4, e3.1, e3.2, ih rest hres hlen]
        simp only
        rw [lex_number hD (herr rest), e2]
      · have hd' : x.isDigit = false := by simpa using hd
        have hlen : (drawn s).length < f := by
          obtain ⟨c, t, h1, -⟩ := lex_head hx
          rw [drawn_cons, h1] at hf
          simp only [List.length_cons, List.length_append] at hf
          omega
        rw [drawn_cons]
        cases x with
        | leaf n =>
          rw [lexChars_leaf f hx, ih s hs hlen, lexer, flushNum_nil]
          rfl
        | frac a b =>
          rw [lexChars_frac f hx.1 hx.2, ih s hs hlen, lexer, flushNum_nil]
          rfl
        | ch c =>
          have ht : ∃ t, opTok c = some t := by
            have := (by decide : ∀ c ∈ rawChars, c.isDigit = true ∨ (opTok c).isSome = true) c hx
            rcases this with h1 | h1
            · exact absurd h1 (by simpa [Sym.isDigit] using hd)
            · exact Option.isSome_iff_exists.mp h1
          obtain ⟨t, ht⟩ := ht
          by_cases hp : c = '*' ∧ s.head? = some (.ch '*')
          · obtain ⟨rfl, hp⟩ := hp
            rcases s with _ | ⟨y, s⟩
            · simp at hp
            · rw [List.head?_cons, Option.some.injEq] at hp
              subst hp
              have hlen2 : (drawn s).length < f := by
                rw [drawn_cons] at hlen
                simp only [List.length_append] at hlen
                omega
              rw [drawn_cons, drawn_ch, List.singleton_append, List.singleton_append, lexChars_pow, ih s (fun z hz => hs z (by simp [hz])) hlen2, lexer,
                flushNum_nil]
              rfl
          · have hw : c = '*' → (drawn s).head? ≠ some '*' := by
              rintro rfl hh
              apply hp
              refine ⟨rfl, ?_⟩
              rcases s with _ | ⟨y, s⟩
              · simp [drawn] at hh
              · obtain ⟨z, t, h1, h2, -⟩ := lex_head (hs y (by simp))
                rw [drawn_cons, h1, List.cons_append, List.head?_cons, Option.some.injEq] at hh
                rw [h2 hh]
                rfl
            rw [drawn_ch, List.singleton_append, lexChars_op f hd' ht hw, ih s hs hlen, lexer_op hd' ht fun e h => hp ⟨e, h⟩]
            rfl

end Lips

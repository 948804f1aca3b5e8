import Verif.Lemmas.ParseOpen

/-! Products left out: the substitutions of `_parse` that put a sign between two characters. -/

namespace Lips

open RE

variable {pre u post : List Char}

/-- A sign between neighbouring characters of a kind; `pre` stands before them, last first. -/
def insW (P : List Char → Char → Char → Bool) : List Char → List Char → List Char
  | _, [] => []
  | _, [a] => [a]
  | pre, a :: b :: s => if P pre a b then a :: '*' :: insW P (a :: pre) (b :: s) else a :: insW P (a :: pre) (b :: s)

/-- The pattern finds two characters of the kind, and the sign is put between them. -/
structure IsPair (r : RE) (f : List Char → List Char) (P : List Char → Char → Char → Bool) : Prop where
  one : ∀ pre a, r.run (pre, [a]) = []
  two : ∀ pre a b s, r.run (pre, a :: b :: s) = if P pre a b then [(b :: a :: pre, s)] else []
  put : ∀ pre a b, P pre a b = true → f [a, b] = [a, '*', b]
  alone : ∀ pre a b, P pre a b = true → ∀ pre' c, P pre' b c = false

theorem sub_pair {r : RE} {f : List Char → List Char} {P : List Char → Char → Char → Bool} (h : IsPair r f P) (n : ℕ) (t pre : List Char)
    (hn : t.length ≤ n) : r.sub f 0 pre t = insW P pre t := by
  induction n generalizing t pre with
  | zero =>
    obtain rfl := List.length_eq_zero_iff.mp (by omega : t.length = 0)
    rfl
  | succ n ih =>
    rcases t with _ | ⟨a, _ | ⟨b, s⟩⟩
    · rfl
    · rw [sub, h.one]
      rfl
    · simp only [List.length_cons] at hn
      rw [insW]
      cases hP : P pre a b with
      | false =>
        have hq : r.Quiet pre [a] (b :: s) := quiet_cons (by rw [List.nil_append, h.two, hP]; rfl) quiet_nil
        have := sub_quiet (f := f) hq
        rw [List.singleton_append] at this
        rw [this, ih _ _ (by simpa using hn)]
        rfl
      | true =>
        have hh : r.Hit pre [a, b] s := ⟨by simp, by rw [List.cons_append, List.cons_append, List.nil_append, h.two, hP]; rfl⟩
        have := sub_hit (f := f) hh
        rw [List.cons_append, List.cons_append, List.nil_append] at this
        rw [this, h.put _ _ _ hP, ih _ _ (by omega), if_pos rfl]
        rcases s with _ | ⟨c, s⟩
        · rfl
        · rw [show insW P (a :: pre) (b :: c :: s) = b :: insW P (b :: a :: pre) (c :: s) by
            rw [insW, h.alone _ _ _ hP]; rfl]
          rfl

/-- No sign inside a part. -/
theorem insW_part {P : List Char → Char → Char → Bool} (w : List Char) (z : Char) (pre post : List Char)
    (h : ∀ b1 a b b2, w ++ [z] = b1 ++ a :: b :: b2 → P (b1.reverse ++ pre) a b = false) :
    insW P pre ((w ++ [z]) ++ post) = (w ++ [z]) ++ ((match post with
      | [] => []
      | b :: _ => if P (w.reverse ++ pre) z b then ['*'] else []) ++ insW P (z :: (w.reverse ++ pre)) post) := by
  induction w generalizing pre with
  | nil =>
    rcases post with _ | ⟨b, post⟩
    · rfl
    · change insW P pre (z :: b :: post) = _
      rw [insW]
      simp only [List.nil_append, List.reverse_nil]
      split <;> rename_i hP <;> simp [hP]
  | cons x w ih =>
    obtain ⟨y, w', hw⟩ : ∃ y w', w ++ [z] = y :: w' := by
      rcases w with _ | ⟨y, w⟩
      · exact ⟨z, [], rfl⟩
      · exact ⟨y, w ++ [z], rfl⟩
    have h1 : P pre x y = false := by
      have := h [] x y w' (by rw [List.cons_append, hw]; rfl)
      simpa using this
    have h2 := ih (x :: pre) fun b1 a b b2 e => by
      have := h (x :: b1) a b b2 (by rw [List.cons_append, e]; rfl)
      simpa using this
    have e : insW P pre (x :: (w ++ [z]) ++ post) = x :: insW P (x :: pre) ((w ++ [z]) ++ post) := by
      rw [hw]
      change insW P pre (x :: y :: (w' ++ post)) = _
      rw [insW, h1]
      rfl
    rw [List.cons_append, e, h2]
    simp [List.reverse_cons]

/-! ### On the parts of an expression -/

def WTok.firstC : WTok → Char
  | .ch c => c
  | .leaf _ => 'o'

def WTok.lastC : WTok → Char
  | .ch c => c
  | .leaf _ => ')'

/-- No part of an expression ends like a trace begins. -/
def Fine (pre : List Char) : Prop := pre.head? ≠ some 'r'

theorem shownAll_cons (k : ℕ) (t : WTok) (ts : List WTok) : shownAll k (t :: ts) = t.shown k ++ shownAll k ts := by simp [shownAll]

theorem pairs_tokens {P : List Char → Char → Char → Bool} {P' : WTok → WTok → Bool}
    (hin : ∀ l : Leaf, l.Ok → ∀ pre, Fine pre → ∀ b1 a b b2, wrap l.name = b1 ++ a :: b :: b2 → P (b1.reverse ++ pre) a b = false)
    (hb : ∀ x y : WTok, x.Ok → y.Ok → ∀ pre, Fine pre → P pre x.lastC y.firstC = P' x y) (ts : List WTok) (h : ∀ t ∈ ts, t.Ok) (pre : List Char)
    (hp : Fine pre) : insW P pre (shownAll 11 ts) = shownAll 11 (insTok P' ts) := by
  have first : ∀ t : WTok, t.Ok → ∃ s, t.shown 11 = t.firstC :: s := by
    intro t ht
    cases t with
    | ch c => exact ⟨[], rfl⟩
    | leaf l => exact ⟨_, by change l.shown 11 = _; rw [shown11, wrap_cons]; rfl⟩
  have last : ∀ t : WTok, ∃ w, t.shown 11 = w ++ [t.lastC] ∧ ∀ pre, Fine pre → Fine (w.reverse ++ pre) := by
    intro t
    cases t with
    | ch c => exact ⟨[], rfl, fun pre h => h⟩
    | leaf l =>
      refine ⟨"oPs('".toList ++ l.name ++ ['\''], ?_, ?_⟩
      · change l.shown 11 = _
        rw [shown11]
        simp [wrap, WTok.lastC]
      · intro pre _
        simp [Fine]
  have inner : ∀ t : WTok, t.Ok → ∀ pre, Fine pre → ∀ b1 a b b2, t.shown 11 = b1 ++ a :: b :: b2 → P (b1.reverse ++ pre) a b = false := by
    intro t ht pre hp b1 a b b2 e
    cases t with
    | ch c =>
      have := congrArg List.length e
      simp [WTok.shown] at this
      omega
    | leaf l =>
      change l.shown 11 = _ at e
      rw [shown11] at e
      exact hin l ht pre hp b1 a b b2 e
  induction ts generalizing pre with
  | nil => rfl
  | cons x ts ih =>
    obtain ⟨w, hw, hf⟩ := last x
    have hx := h x (by simp)
    have hf' : Fine (x.lastC :: (w.reverse ++ pre)) := by
      simp only [Fine, List.head?_cons, ne_eq, Option.some.injEq]
      cases x with
      | ch c => rintro rfl; exact absurd hx (by decide : 'r' ∉ rawChars)
      | leaf l => exact (by decide : ¬')' = 'r')
    rw [shownAll_cons, hw, insW_part w x.lastC pre _ (by rw [← hw]; exact inner x hx pre hp), ← hw,
      ih (fun t ht => h t (by simp [ht])) _ hf']
    rcases ts with _ | ⟨y, ts⟩
    · simp [shownAll, insTok]
    · have hy := h y (by simp)
      obtain ⟨s, hs⟩ := first y hy
      rw [insTok_cons, shownAll_cons 11 y, hs]
      simp only [List.cons_append]
      rw [hb x y hx hy _ (hf pre hp), shownAll_cons]
      cases P' x y
      · simp
      · simp [shownAll, WTok.shown]

/-! ### Neighbours in a name -/

/-- A closing parenthesis only has a bar after it, an opening one no digit before it. -/
def Par (a b : Char) : Prop := (a = ')' → b = '|') ∧ (b = '(' → a.isDigit = false)

theorem chain_none {w : List Char} (h : ∀ x ∈ w, x ≠ '(' ∧ x ≠ ')') : w.IsChain Par := by
  apply List.Pairwise.isChain
  rw [List.pairwise_iff_forall_sublist]
  intro a b hab
  have ha := h a (hab.subset (by simp))
  have hb := h b (hab.subset (by simp))
  exact ⟨fun e => absurd e ha.2, fun e => absurd e hb.1⟩

theorem digit_par {c : Char} (h : c.isDigit = true) : c ≠ '(' ∧ c ≠ ')' := by
  constructor <;> rintro rfl <;> exact absurd h (by decide)

theorem body_par {s : WSlot} (h : s.Ok) : ∀ x ∈ s.body, x ≠ '(' ∧ x ≠ ')' := by
  intro x hx
  simp only [WSlot.body, List.mem_cons, List.mem_flatMap, List.not_mem_nil, or_false] at hx
  rcases hx with rfl | ⟨y, hy, rfl | rfl⟩
  · exact digit_par h.1
  · exact (by decide : ∀ x ∈ ['+', '-'], x ≠ '(' ∧ x ≠ ')') _ (h.2.1 y hy).1
  · exact digit_par (h.2.1 y hy).2

theorem par_cons {c : Char} {w : List Char} (hc : ∀ x, w.head? = some x → Par c x) (hw : w.IsChain Par) : (c :: w).IsChain Par := by
  rcases w with _ | ⟨x, w⟩
  · simp
  · rw [List.isChain_cons_cons]
    exact ⟨hc x rfl, hw⟩

theorem chain_app {v w : List Char} (hv : v.IsChain Par) (hw : w.IsChain Par) (h : ∀ x ∈ v.getLast?, ∀ y ∈ w.head?, Par x y) : (v ++ w).IsChain Par :=
  List.isChain_append.mpr ⟨hv, hw, h⟩

/-- Next to a bar. -/
theorem par_bar (x : Char) : Par x '|' := ⟨fun _ => rfl, fun e => absurd e (by decide)⟩
theorem bar_par (x : Char) : Par '|' x := ⟨fun e => absurd e (by decide), fun _ => rfl⟩

theorem text_chain {s : WSlot} (h : s.Ok) : s.text.IsChain Par := by
  have hb := body_par h
  unfold WSlot.text
  split
  · rw [List.cons_append]
    refine par_cons ?_ (chain_app (chain_none hb) (by simp) ?_)
    · intro x hx
      rcases hc : s.body with _ | ⟨y, w⟩
      · simp [WSlot.body] at hc
      · rw [hc, List.cons_append, List.head?_cons, Option.some.injEq] at hx
        subst hx
        exact ⟨fun e => absurd e (by decide), fun e => absurd e (hb y (by rw [hc]; simp)).1⟩
    · intro x hx y hy
      simp only [List.head?_cons, Option.mem_def, Option.some.injEq] at hy
      subst hy
      exact ⟨fun e => absurd e (hb x (List.mem_of_mem_getLast? hx)).2, fun e => absurd e (by decide)⟩
  · exact chain_none hb

theorem joined_chain {ss : List WSlot} (hs : ∀ s ∈ ss, s.Ok) {y : List Char} (hy : ('|' :: y).IsChain Par) : (joined ss ++ '|' :: y).IsChain Par ∧
    (joined ss ++ '|' :: y).head? = some '|' := by
  induction ss with
  | nil => exact ⟨by simpa [joined] using hy, rfl⟩
  | cons s ss ih =>
    obtain ⟨h1, h2⟩ := ih fun s h => hs s (by simp [h])
    have e : joined (s :: ss) ++ '|' :: y = '|' :: (s.text ++ (joined ss ++ '|' :: y)) := by simp [joined]
    rw [e]
    refine ⟨par_cons (fun x _ => bar_par x) (chain_app (text_chain (hs s (by simp))) h1 ?_), rfl⟩
    intro x _ z hz
    rw [h2] at hz
    simp only [Option.mem_def, Option.some.injEq] at hz
    subst hz
    exact par_bar x

theorem slots_par {s : WSlot} {ss : List WSlot} (h : ∀ x ∈ s :: ss, x.Ok ∧ x.par = false) : ∀ x ∈ s.text ++ joined ss, x ≠ '(' ∧ x ≠ ')' := by
  intro x hx
  rcases slots_chars h x hx with h | h
  · exact digit_par h
  · exact (by decide : ∀ x ∈ ['|', '+', '-'], x ≠ '(' ∧ x ≠ ')') x h

theorem chain_slots {s : WSlot} {ss : List WSlot} (h : ∀ x ∈ s :: ss, x.Ok ∧ x.par = false) : ('(' :: (s.text ++ joined ss ++ [')'])).IsChain Par := by
  have hb := slots_par h
  refine par_cons ?_ (chain_app (chain_none hb) (by simp) ?_)
  · intro x hx
    rcases hc : s.text ++ joined ss with _ | ⟨y, w⟩
    · exact absurd hc slots_ne_nil
    · rw [hc, List.cons_append, List.head?_cons, Option.some.injEq] at hx
      subst hx
      exact ⟨fun e => absurd e (by decide), fun e => absurd e (hb y (by rw [hc]; simp)).1⟩
  · intro x hx y hy
    simp only [List.head?_cons, Option.mem_def, Option.some.injEq] at hy
    subst hy
    exact ⟨fun e => absurd e (hb x (List.mem_of_mem_getLast? hx)).2, fun e => absurd e (by decide)⟩

/-- Except in the beginning of `tr5(`. -/
theorem name_chain {l : Leaf} (h : l.Ok) : l.name.IsChain Par ∨ ∃ w, l.name = "tr5".toList ++ '(' :: w ∧ ('(' :: w).IsChain Par := by
  have dg : ∀ {ds : List Char}, Digits ds → ∀ x ∈ ds, x ≠ '(' ∧ x ≠ ')' := fun h x hx => digit_par (h.2 x hx)
  have wd : ∀ (t : String) {ds : List Char}, (∀ x ∈ t.toList, x ≠ '(' ∧ x ≠ ')') → Digits ds → (t.toList ++ ds).IsChain Par := fun t ds ht hd =>
    chain_none fun x hx => (List.mem_append.mp hx).elim (ht x) (dg hd x)
  cases l with
  | two sq bar a b =>
    left
    obtain ⟨ha, hb, -⟩ := h
    apply chain_none
    intro x hx
    simp only [Leaf.name, List.mem_append, List.mem_singleton] at hx
    rcases hx with (((rfl | hx) | rfl) | hx) | rfl
    · cases sq <;> decide
    · exact dg ha x hx
    · decide
    · exact dg hb x hx
    · cases sq <;> decide
  | mandel p ds => exact .inl (wd "s_" (by decide) h.2)
  | omega ds => exact .inl (wd "Ω_" (by decide) h)
  | pi ds => exact .inl (wd "Π_" (by decide) h)
  | tr5l ds => exact .inl (wd "tr5_" (by decide) h)
  | tr5s s ss => exact .inr ⟨s.text ++ joined ss ++ [')'], by simp [Leaf.name], chain_slots h⟩
  | trace s ss =>
    left
    have e : (Leaf.trace s ss).name = ['t', 'r'] ++ '(' :: (s.text ++ joined ss ++ [')']) := by simp [Leaf.name]
    rw [e]
    refine chain_app (chain_none (by decide)) (chain_slots h) ?_
    intro x hx y hy
    simp only [List.getLast?_cons_cons, List.getLast?_singleton, List.head?_cons, Option.mem_def, Option.some.injEq] at hx hy
    subst hx hy
    exact ⟨fun e => absurd e (by decide), fun _ => by decide⟩
  | delta c cs =>
    left
    apply chain_none
    intro x hx
    simp only [Leaf.name, List.mem_append, List.mem_flatMap, List.mem_cons] at hx
    rcases hx with (hx | hx) | ⟨k, hk, rfl | hx⟩
    · exact (by decide : ∀ x ∈ "Δ_".toList, x ≠ '(' ∧ x ≠ ')') x hx
    · exact dg (h.2 c (by simp)).1 x hx
    · decide
    · exact dg (h.2 k (by simp [hk])).1 x hx
  | str o a ss b c =>
    left
    obtain ⟨ho, hc, ha, hb, -, hs⟩ := h
    have hc' := (by decide : ∀ x ∈ ['⟩', ']'], x ≠ '(' ∧ x ≠ ')') c hc
    have ho' := (by decide : ∀ x ∈ ['⟨', '['], x ≠ '(' ∧ x ≠ ')') o ho
    obtain ⟨h1, h2⟩ := joined_chain hs (y := [b, c]) (chain_none (by
      intro x hx
      simp only [List.mem_cons, List.not_mem_nil, or_false] at hx
      rcases hx with rfl | rfl | rfl
      · decide
      · exact digit_par hb
      · exact hc'))
    change (o :: a :: (joined ss ++ ['|', b, c])).IsChain Par
    refine par_cons ?_ (par_cons ?_ h1)
    · intro x hx
      simp only [List.head?_cons, Option.some.injEq] at hx
      subst hx
      exact ⟨fun e => absurd e ho'.2, fun e => absurd e (digit_par ha).1⟩
    · intro x hx
      rw [h2] at hx
      simp only [Option.some.injEq] at hx
      subst hx
      exact par_bar a

theorem chain_at {w b1 b2 : List Char} {a b : Char} (h : w.IsChain Par) (e : w = b1 ++ a :: b :: b2) : Par a b := by
  rw [e, List.isChain_append] at h
  exact (List.isChain_cons_cons.mp h.2.1).1

/-- Neighbours in `oPs('..')`. -/
theorem wrap_pair {n b1 b2 : List Char} {a b : Char} (e : wrap n = b1 ++ a :: b :: b2) :
    (a, b) ∈ [('o', 'P'), ('P', 's'), ('s', '('), ('(', '\''), ('\'', ')')] ∨ (a = '\'' ∧ n.head? = some b) ∨ (b = '\'') ∨
      ∃ c1 c2, n = c1 ++ a :: b :: c2 ∧ b1 = "oPs('".toList ++ c1 := by
  rw [wrap_cons] at e
  rcases b1 with _ | ⟨x1, _ | ⟨x2, _ | ⟨x3, _ | ⟨x4, _ | ⟨x5, b1⟩⟩⟩⟩⟩
  · simp only [List.nil_append, List.cons.injEq] at e
    left; simp [← e.1, ← e.2.1]
  · simp only [List.cons_append, List.nil_append, List.cons.injEq] at e
    left; simp [← e.2.1, ← e.2.2.1]
  · simp only [List.cons_append, List.nil_append, List.cons.injEq] at e
    left; simp [← e.2.2.1, ← e.2.2.2.1]
  · simp only [List.cons_append, List.nil_append, List.cons.injEq] at e
    left; simp [← e.2.2.2.1, ← e.2.2.2.2.1]
  · simp only [List.cons_append, List.nil_append, List.cons.injEq] at e
    obtain ⟨-, -, -, -, h1, h2⟩ := e
    rcases n with _ | ⟨y, n⟩
    · simp only [List.nil_append, List.cons.injEq] at h2
      exact .inr (.inr (.inl h2.1.symm))
    · simp only [List.cons_append, List.cons.injEq] at h2
      exact .inr (.inl ⟨h1.symm, by rw [h2.1]; rfl⟩)
  · simp only [List.cons_append, List.cons.injEq] at e
    obtain ⟨rfl, rfl, rfl, rfl, rfl, h2⟩ := e
    rcases List.append_eq_append_iff.mp h2 with ⟨c, rfl, h3⟩ | ⟨c, h3, h4⟩
    · rcases c with _ | ⟨y, _ | ⟨y', c⟩⟩
      · simp only [List.nil_append, List.cons.injEq] at h3
        left; simp [← h3.1, ← h3.2.1]
      · simp at h3
      · have := congrArg List.length h3
        simp at this
    · rcases c with _ | ⟨y, _ | ⟨y', c⟩⟩
      · simp only [List.nil_append, List.cons.injEq] at h4
        left; simp [h4.1, h4.2.1]
      · simp only [List.cons_append, List.nil_append, List.cons.injEq] at h4
        exact .inr (.inr (.inl h4.2.1))
      · simp only [List.cons_append, List.cons.injEq] at h4
        refine .inr (.inr (.inr ⟨b1, c, ?_, rfl⟩))
        rw [h3, h4.1, h4.2.1]

/-- The letter of Mandelstams only stands at the beginning. -/
theorem name_letter {l : Leaf} (h : l.Ok) : ∃ c s, l.name = c :: s ∧ 's' ∉ s := by
  obtain ⟨c, s, e, -⟩ := name_head h
  have key : ∀ t ∈ ["⟨|⟩", "[|]", "Ω_", "Π_", "tr5_", "tr5(|+-)", "tr(|+-)", "Δ_|", "|()+-", "⟨[", "⟩]"], 's' ∉ t.toList := by decide
  have none : 's' ∉ l.alphabet → ∃ c s, l.name = c :: s ∧ 's' ∉ s := by
    intro hal
    refine ⟨c, s, e, fun hx => ?_⟩
    rcases text_name_only h 's' (List.mem_append_right _ (by rw [e]; simp [hx])) with h | h
    · exact absurd h (by decide)
    · exact hal h
  cases l with
  | mandel p ds =>
    refine ⟨'s', '_' :: ds, rfl, ?_⟩
    intro hx
    rcases List.mem_cons.mp hx with hx | hx
    · exact absurd hx (by decide)
    · exact absurd (h.2.2 _ hx) (by decide)
  | two sq bar a b =>
    cases sq
    · exact none (key "⟨|⟩" (by simp))
    · exact none (key "[|]" (by simp))
  | str o a ss b c =>
    obtain ⟨ho, hc, -⟩ := h
    apply none
    intro hx
    rcases List.mem_cons.mp hx with hx | hx
    · exact absurd (hx ▸ ho) (by decide)
    · rcases List.mem_cons.mp hx with hx | hx
      · exact absurd (hx ▸ hc) (by decide)
      · exact key "|()+-" (by simp) hx
  | omega ds => exact none (key "Ω_" (by simp))
  | pi ds => exact none (key "Π_" (by simp))
  | tr5l ds => exact none (key "tr5_" (by simp))
  | tr5s s ss => exact none (key "tr5(|+-)" (by simp))
  | trace s ss => exact none (key "tr(|+-)" (by simp))
  | delta c cs => exact none (key "Δ_|" (by simp))

/-- Neighbours that a pattern may not find. -/
theorem inner_pairs {l : Leaf} (h : l.Ok) {b1 b2 : List Char} {a b : Char} (e : wrap l.name = b1 ++ a :: b :: b2) :
    b ≠ 'o' ∧ (a.isDigit = true → b ≠ 's') ∧ (a = ')' → b = '|' ∨ b = '\'') ∧ (a.isDigit = true → b = '(' → ∃ p, b1 = p ++ ['t', 'r']) := by
  have hno := (name_no h (c := 'o') (by decide)).2
  rcases wrap_pair e with h1 | ⟨rfl, h1⟩ | rfl | ⟨c1, c2, h1, rfl⟩
  · have := (by decide : ∀ x ∈ [('o', 'P'), ('P', 's'), ('s', '('), ('(', '\''), ('\'', ')')], x.2 ≠ 'o' ∧ x.1 ≠ ')' ∧ x.1.isDigit = false) _ h1
    simp only at this
    obtain ⟨g1, g2, g3⟩ := this
    exact ⟨g1, fun g => by rw [g3] at g; exact absurd g (by decide), fun g => absurd g g2, fun g => by rw [g3] at g; exact absurd g (by decide)⟩
  · refine ⟨?_, fun g => absurd g (by decide), fun g => absurd g (by decide), fun g => absurd g (by decide)⟩
    rintro rfl
    exact hno (List.mem_of_mem_head? h1)
  · exact ⟨by decide, fun _ => by decide, fun _ => .inr rfl, fun _ g => absurd g (by decide)⟩
  · refine ⟨?_, ?_, ?_, ?_⟩
    · rintro rfl
      exact hno (by rw [h1]; simp)
    · rintro - rfl
      obtain ⟨c, s, g1, g2⟩ := name_letter h
      rw [g1] at h1
      rcases c1 with _ | ⟨x, c1⟩
      · simp only [List.nil_append, List.cons.injEq] at h1
        exact g2 (by rw [h1.2]; simp)
      · simp only [List.cons_append, List.cons.injEq] at h1
        exact g2 (by rw [h1.2]; simp)
    · intro ha
      left
      rcases name_chain h with g | ⟨w, g1, g2⟩
      · exact (chain_at g h1).1 ha
      · rw [g1] at h1
        rcases c1 with _ | ⟨x1, _ | ⟨x2, _ | ⟨x3, c1⟩⟩⟩
        · have h1 : 't' = a ∧ _ := List.cons.inj h1
          exact absurd (h1.1.trans ha) (by decide)
        · have h1 := List.cons.inj (List.cons.inj h1).2
          exact absurd (h1.1.trans ha) (by decide)
        · have h1 := List.cons.inj (List.cons.inj (List.cons.inj h1).2).2
          exact absurd (h1.1.trans ha) (by decide)
        · have h1 := (List.cons.inj (List.cons.inj (List.cons.inj h1).2).2).2
          exact (chain_at g2 (b1 := c1) h1).1 ha
    · intro ha hb
      rcases name_chain h with g | ⟨w, g1, g2⟩
      · have := (chain_at g h1).2 hb
        rw [this] at ha
        exact absurd ha (by decide)
      · rw [g1] at h1
        rcases c1 with _ | ⟨x1, _ | ⟨x2, _ | ⟨x3, c1⟩⟩⟩
        · have h1 : 't' = a ∧ _ := List.cons.inj h1
          exact absurd (h1.1 ▸ ha) (by decide)
        · have h1 := List.cons.inj (List.cons.inj h1).2
          exact absurd (h1.1 ▸ ha) (by decide)
        · have h2 : 't' = x1 := (List.cons.inj h1).1
          have h3 : 'r' = x2 := (List.cons.inj (List.cons.inj h1).2).1
          subst h2 h3
          exact ⟨"oPs('".toList, by simp⟩
        · have h1 := (List.cons.inj (List.cons.inj (List.cons.inj h1).2).2).2
          have := (chain_at g2 (b1 := c1) h1).2 hb
          rw [this] at ha
          exact absurd ha (by decide)

/-! ### The six patterns -/

theorem starLast_two (a b : Char) : starLast [a, b] = [a, '*', b] := rfl

theorem one_char (s : String) {c : Char} (h : s.toList = [c]) (pre t : List Char) :
    (lit s).run (pre, t) = match t with | x :: t => if x = c then [(x :: pre, t)] else [] | [] => [] := by
  rw [lit, h]
  rcases t with _ | ⟨x, t⟩
  · rfl
  · by_cases hx : x = c <;> simp [run, hx]

theorem pair_digit {s : String} {c : Char} (h : s.toList = [c]) (hc : c.isDigit = false) :
    IsPair (cat [dig, lit s]) starLast fun _ a b => a.isDigit && decide (b = c) where
  one pre a := by
    simp only [cat, List.foldr_cons, List.foldr_nil, run, dig]
    by_cases ha : a.isDigit = true <;> simp [ha, one_char s h]
  two pre a b t := by
    simp only [cat, List.foldr_cons, List.foldr_nil, run, dig]
    by_cases ha : a.isDigit = true <;> by_cases hb : b = c <;> simp [ha, hb, one_char s h]
  put _ _ _ _ := rfl
  alone pre a b hP pre' d := by
    simp only [Bool.and_eq_true, decide_eq_true_eq] at hP
    rw [hP.2, hc]
    rfl

theorem pair_par : IsPair (cat [notAfter "tr", dig, lit "("]) starLast
    fun pre a b => !(endsIn [fun x => decide (x = 'r'), fun x => decide (x = 't')] pre) && (a.isDigit && decide (b = '(')) where
  one pre a := by
    have e : (notAfter "tr").run (pre, [a]) = if endsIn [fun x => decide (x = 'r'), fun x => decide (x = 't')] pre then [] else [(pre, [a])] := rfl
    simp only [cat, List.foldr_cons, List.foldr_nil]
    rw [run, e]
    split
    · rfl
    · by_cases ha : a.isDigit = true <;> simp [run, dig, ha, one_char "(" (c := '(') rfl]
  two pre a b t := by
    have e : (notAfter "tr").run (pre, a :: b :: t) =
        if endsIn [fun x => decide (x = 'r'), fun x => decide (x = 't')] pre then [] else [(pre, a :: b :: t)] := rfl
    simp only [cat, List.foldr_cons, List.foldr_nil]
    rw [run, e]
    split
    · rename_i hp
      simp [hp]
    · rename_i hp
      by_cases ha : a.isDigit = true <;> by_cases hb : b = '(' <;> simp [run, dig, ha, hb, one_char "(" (c := '(') rfl, hp]
  put _ _ _ _ := rfl
  alone pre a b hP pre' d := by
    simp only [Bool.and_eq_true, decide_eq_true_eq] at hP
    rw [hP.2.2]
    simp

theorem pair_parDigit : IsPair (cat [lit ")", dig]) starLast fun _ a b => decide (a = ')') && b.isDigit where
  one pre a := by
    simp only [cat, List.foldr_cons, List.foldr_nil]
    rw [run, one_char ")" (c := ')') rfl]
    by_cases ha : a = ')' <;> simp [ha, run, dig]
  two pre a b t := by
    simp only [cat, List.foldr_cons, List.foldr_nil]
    rw [run, one_char ")" (c := ')') rfl]
    by_cases ha : a = ')' <;> by_cases hb : b.isDigit = true <;> simp [ha, hb, run, dig]
  put _ _ _ _ := rfl
  alone pre a b hP pre' d := by
    simp only [Bool.and_eq_true, decide_eq_true_eq] at hP
    have : b ≠ ')' := by rintro rfl; exact absurd hP.2 (by decide)
    simp [this]

theorem pair_replace {s s' : String} {x y : Char} (h : s.toList = [x, y]) (h' : s'.toList = [x, '*', y]) (hxy : y ≠ x) :
    IsPair (replace s s').1 (replace s s').2 fun _ a b => decide (a = x) && decide (b = y) where
  one pre a := by
    simp only [replace, lit, h, List.foldr_cons, List.foldr_nil]
    by_cases ha : a = x <;> simp [ha, run]
  two pre a b t := by
    simp only [replace, lit, h, List.foldr_cons, List.foldr_nil]
    by_cases ha : a = x <;> by_cases hb : b = y <;> simp [ha, hb, run]
  put pre a b hP := by
    simp only [Bool.and_eq_true, decide_eq_true_eq] at hP
    rw [hP.1, hP.2]
    exact h'
  alone pre a b hP pre' d := by
    simp only [Bool.and_eq_true, decide_eq_true_eq] at hP
    rw [hP.2]
    simp [hxy]

/-! ### All of them -/

/-- What stands on the two sides of a product left out. -/
def WTok.digit : WTok → Bool
  | .ch c => c.isDigit
  | .leaf _ => false

def WTok.isLeaf : WTok → Bool
  | .ch _ => false
  | .leaf _ => true

def WTok.isOpen : WTok → Bool
  | .ch c => decide (c = '(')
  | .leaf _ => false

def WTok.closes : WTok → Bool
  | .ch c => decide (c = ')')
  | .leaf _ => true

theorem lastC_digit (x : WTok) : x.lastC.isDigit = x.digit := by cases x <;> rfl
theorem firstC_digit (x : WTok) : x.firstC.isDigit = x.digit := by cases x <;> rfl
theorem lastC_close (x : WTok) : decide (x.lastC = ')') = x.closes := by cases x <;> rfl
theorem firstC_open (x : WTok) : decide (x.firstC = '(') = x.isOpen := by cases x <;> rfl
theorem firstC_o {x : WTok} (h : x.Ok) : decide (x.firstC = 'o') = x.isLeaf := by
  cases x with
  | ch c =>
    have : c ≠ 'o' := by rintro rfl; exact absurd h (by decide : 'o' ∉ rawChars)
    simp [WTok.firstC, WTok.isLeaf, this]
  | leaf l => rfl
theorem firstC_s {x : WTok} (h : x.Ok) : decide (x.firstC = 's') = false := by
  cases x with
  | ch c =>
    have : c ≠ 's' := by rintro rfl; exact absurd h (by decide : 's' ∉ rawChars)
    simp [WTok.firstC, this]
  | leaf l => rfl

theorem fine_nil : Fine [] := by simp [Fine]

theorem fine_tr {pre : List Char} (h : Fine pre) : endsIn [fun x => decide (x = 'r'), fun x => decide (x = 't')] pre = false := by
  rcases pre with _ | ⟨c, pre⟩
  · rfl
  · simp only [Fine, List.head?_cons, ne_eq, Option.some.injEq] at h
    simp [endsIn, h]

/-- The product of two parts of an expression may go without a sign. -/
def LeftOut (x y : WTok) : Bool := (x.digit && (y.isLeaf || y.isOpen)) || (x.closes && (y.digit || y.isLeaf || y.isOpen))

theorem insTok_never (ts : List WTok) : insTok (fun _ _ => false) ts = ts := by
  induction ts with
  | nil => rfl
  | cons x ts ih =>
    rcases ts with _ | ⟨y, ts⟩
    · rfl
    · rw [insTok_cons, ih]
      rfl

theorem wtok_cases (x : WTok) : (x.digit = true → x.isLeaf = false ∧ x.isOpen = false ∧ x.closes = false) := by
  cases x with
  | ch c =>
    intro h
    have h1 : c ≠ '(' := by rintro rfl; exact absurd h (by decide)
    have h2 : c ≠ ')' := by rintro rfl; exact absurd h (by decide)
    exact ⟨rfl, by simp [WTok.isOpen, h1], by simp [WTok.closes, h2]⟩
  | leaf l => intro h; exact absurd h (by simp [WTok.digit])

set_option linter.unusedSimpArgs false in
/-- Lines 157-160: the products left out. -/
theorem stars_pass {ts : List WTok} (h : ∀ t ∈ ts, t.Ok) : runPasses [(cat [dig, lit "s"], starLast), (cat [dig, lit "o"], starLast),
    (cat [notAfter "tr", dig, lit "("], starLast), (cat [lit ")", dig], starLast), replace ")(" ")*(", replace ")o" ")*o"] (shownAll 11 ts) =
    shownAll 11 (insTok LeftOut ts) := by
  have ok : ∀ {P : WTok → WTok → Bool} {ts : List WTok}, (∀ t ∈ ts, t.Ok) → ∀ t ∈ insTok P ts, t.Ok := by
    intro P ts h t ht
    rcases mem_insTok ht with h' | rfl
    · exact h t h'
    · exact (by decide : '*' ∈ rawChars)
  have s1 : ∀ ts : List WTok, (∀ t ∈ ts, t.Ok) → (cat [dig, lit "s"]).sub starLast 0 [] (shownAll 11 ts) = shownAll 11 ts := by
    intro ts h
    rw [sub_pair (pair_digit (c := 's') rfl rfl) _ _ _ le_rfl, pairs_tokens (P' := fun _ _ => false) ?_ ?_ ts h [] fine_nil, insTok_never]
    · intro l hl pre _ b1 a b b2 e
      have := (inner_pairs hl e).2.1
      by_cases ha : a.isDigit = true
      · simp [this ha]
      · simp [ha]
    · intro x y hx hy pre _
      rw [firstC_s hy, Bool.and_false]
  have s2 : ∀ ts : List WTok, (∀ t ∈ ts, t.Ok) → (cat [dig, lit "o"]).sub starLast 0 [] (shownAll 11 ts) =
      shownAll 11 (insTok (fun x y => x.digit && y.isLeaf) ts) := by
    intro ts h
    rw [sub_pair (pair_digit (c := 'o') rfl rfl) _ _ _ le_rfl, pairs_tokens (P' := fun x y => x.digit && y.isLeaf) ?_ ?_ ts h [] fine_nil]
    · intro l hl pre _ b1 a b b2 e
      simp [(inner_pairs hl e).1]
    · intro x y hx hy pre _
      rw [firstC_o hy, lastC_digit]
  have s3 : ∀ ts : List WTok, (∀ t ∈ ts, t.Ok) → (cat [notAfter "tr", dig, lit "("]).sub starLast 0 [] (shownAll 11 ts) =
      shownAll 11 (insTok (fun x y => x.digit && y.isOpen) ts) := by
    intro ts h
    rw [sub_pair pair_par _ _ _ le_rfl, pairs_tokens (P' := fun x y => x.digit && y.isOpen) ?_ ?_ ts h [] fine_nil]
    · intro l hl pre _ b1 a b b2 e
      by_cases ha : a.isDigit = true
      · by_cases hb : b = '('
        · obtain ⟨p, rfl⟩ := (inner_pairs hl e).2.2.2 ha hb
          simp [endsIn]
        · simp [hb]
      · simp [ha]
    · intro x y hx hy pre hp
      rw [firstC_open, lastC_digit, fine_tr hp]
      rfl
  have s4 : ∀ ts : List WTok, (∀ t ∈ ts, t.Ok) → (cat [lit ")", dig]).sub starLast 0 [] (shownAll 11 ts) =
      shownAll 11 (insTok (fun x y => x.closes && y.digit) ts) := by
    intro ts h
    rw [sub_pair pair_parDigit _ _ _ le_rfl, pairs_tokens (P' := fun x y => x.closes && y.digit) ?_ ?_ ts h [] fine_nil]
    · intro l hl pre _ b1 a b b2 e
      by_cases ha : a = ')'
      · rcases (inner_pairs hl e).2.2.1 ha with rfl | rfl
        · simp [ha]
        · simp [ha]
      · simp [ha]
    · intro x y hx hy pre hp
      rw [lastC_close, firstC_digit]
  have s5 : ∀ ts : List WTok, (∀ t ∈ ts, t.Ok) → (replace ")(" ")*(").1.sub (replace ")(" ")*(").2 0 [] (shownAll 11 ts) =
      shownAll 11 (insTok (fun x y => x.closes && y.isOpen) ts) := by
    intro ts h
    rw [sub_pair (pair_replace (x := ')') (y := '(') rfl rfl (by decide)) _ _ _ le_rfl,
      pairs_tokens (P' := fun x y => x.closes && y.isOpen) ?_ ?_ ts h [] fine_nil]
    · intro l hl pre _ b1 a b b2 e
      by_cases ha : a = ')'
      · rcases (inner_pairs hl e).2.2.1 ha with rfl | rfl
        · simp [ha]
        · simp [ha]
      · simp [ha]
    · intro x y hx hy pre hp
      rw [lastC_close, firstC_open]
  have s6 : ∀ ts : List WTok, (∀ t ∈ ts, t.Ok) → (replace ")o" ")*o").1.sub (replace ")o" ")*o").2 0 [] (shownAll 11 ts) =
      shownAll 11 (insTok (fun x y => x.closes && y.isLeaf) ts) := by
    intro ts h
    rw [sub_pair (pair_replace (x := ')') (y := 'o') rfl rfl (by decide)) _ _ _ le_rfl,
      pairs_tokens (P' := fun x y => x.closes && y.isLeaf) ?_ ?_ ts h [] fine_nil]
    · intro l hl pre _ b1 a b b2 e
      simp [(inner_pairs hl e).1]
    · intro x y hx hy pre hp
      rw [lastC_close, firstC_o hy]
  have st1 : ∀ y : WTok, y = .ch '*' → y.digit = false ∧ y.isLeaf = false ∧ y.isOpen = false ∧ y.closes = false := by
    rintro y rfl
    decide
  obtain ⟨z1, z2, z3, z4⟩ := st1 _ rfl
  simp only [runPasses, List.foldl_cons, List.foldl_nil]
  rw [s1 ts h, s2 ts h, s3 _ (ok h), s4 _ (ok (ok h)), s5 _ (ok (ok (ok h))), s6 _ (ok (ok (ok (ok h)))),
    insTok_insTok (fun x => by simp [z1, z2, z3]) (fun y => by simp [z1, z4]),
    insTok_insTok (fun x => by simp [z1, z2, z3]) (fun y => by simp [z1, z4]),
    insTok_insTok (fun x => by simp [z1, z2, z3]) (fun y => by simp [z1, z4]),
    insTok_insTok (fun x => by simp [z1, z2, z3]) (fun y => by simp [z1, z4])]
  congr 1
  apply insTok_congr
  intro x _ y _
  unfold LeftOut
  cases x.digit <;> cases x.closes <;> cases y.digit <;> cases y.isLeaf <;> cases y.isOpen <;> rfl

end Lips

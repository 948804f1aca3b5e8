import Verif.Lemmas.ParseEnd

/-! The last substitutions of `_parse`, the first ones, and the tokens of the result. -/

namespace Lips

open RE

variable {pre u post : List Char}

/-! ### Symbols as characters -/

def fracText (a b : List Char) : List Char := ['F', 'r', 'a', 'c', 't', 'i', 'o', 'n', '('] ++ a ++ ',' :: b ++ [')']

def Sym.drawn : Sym → List Char
  | .ch c => [c]
  | .leaf n => wrap n
  | .frac a b => fracText a b

def drawn (s : List Sym) : List Char := s.flatMap Sym.drawn

theorem drawn_ch (c : Char) : (Sym.ch c).drawn = [c] := rfl
theorem drawn_frac (a b : List Char) : (Sym.frac a b).drawn = fracText a b := rfl
theorem drawn_leaf (n : List Char) : (Sym.leaf n).drawn = 'o' :: 'P' :: 's' :: '(' :: ('\'' :: (n ++ ['\'', ')'])) := rfl

theorem drawn_cons (x : Sym) (s : List Sym) : drawn (x :: s) = x.drawn ++ drawn s := by simp [drawn]

theorem drawn_append (s t : List Sym) : drawn (s ++ t) = drawn s ++ drawn t := by simp [drawn]

/-- The part of an expression as a symbol. -/
def WTok.sym : WTok → Sym
  | .ch c => .ch c
  | .leaf l => .leaf l.name

theorem shownAll_drawn (ts : List WTok) : shownAll 11 ts = drawn (ts.map WTok.sym) := by
  induction ts with
  | nil => rfl
  | cons t ts ih =>
    rw [shownAll_cons, ih, List.map_cons, drawn_cons]
    congr 1
    cases t with
    | ch c => rfl
    | leaf l => exact shown11 l

theorem sym_isDigit (x : WTok) : x.sym.isDigit = x.digit := by cases x <;> rfl
theorem sym_startsO (x : WTok) : startsO x.sym = x.isLeaf := by cases x <;> rfl
theorem sym_endsParen (x : WTok) : endsParen x.sym = x.closes := by cases x <;> rfl
theorem sym_open (x : WTok) : decide (x.sym = .ch '(') = x.isOpen := by
  cases x with
  | ch c => simp [WTok.sym, WTok.isOpen]
  | leaf l => simp [WTok.sym, WTok.isOpen]

theorem implicit_sym (ts : List WTok) : (insTok LeftOut ts).map WTok.sym = implicitProducts (ts.map WTok.sym) := by
  induction ts with
  | nil => rfl
  | cons x ts ih =>
    rcases ts with _ | ⟨y, ts⟩
    · rfl
    · rw [insTok, List.map_cons, List.map_cons, implicitProducts, ← List.map_cons, ← ih]
      have e : ((endsDigit x.sym && (startsO y.sym || decide (y.sym = .ch '('))) ||
          (endsParen x.sym && (y.sym.isDigit || startsO y.sym || decide (y.sym = .ch '(')))) = LeftOut x y := by
        rw [endsDigit, sym_isDigit, sym_startsO, sym_endsParen, sym_open, sym_isDigit]
        rfl
      rw [e]
      split <;> simp [WTok.sym]

/-! ### Fractions -/

def eFrac : RE := cat [notAfter "**", some1 dig, lit "/", some1 dig]

theorem takes_eFrac : eFrac.Takes pre u post ↔ endsIn [fun x => decide (x = '*'), fun x => decide (x = '*')] pre = false ∧
    ∃ a b, u = a ++ '/' :: b ∧ Digits a ∧ Digits b := by
  simp only [eFrac, takes_cat_cons, takes_cat_nil, takes_plus_dig, takes_lit, notAfter, takes_notBehind]
  constructor
  · rintro ⟨_, _, rfl, ⟨rfl, h⟩, a, _, rfl, ha, _, _, rfl, rfl, b, _, rfl, hb, rfl⟩
    exact ⟨h, a, b, by simp, ha, hb⟩
  · rintro ⟨h, a, b, rfl, ha, hb⟩
    exact ⟨[], _, rfl, ⟨rfl, h⟩, a, '/' :: b, rfl, ha, ['/'], b, rfl, rfl, b, [], by simp, hb, rfl⟩

theorem hit_eFrac (h : endsIn [fun x => decide (x = '*'), fun x => decide (x = '*')] pre = false) {a b : List Char} (ha : Digits a) (hb : Digits b)
    (hp : ∀ c, post.head? = some c → c.isDigit = false) : eFrac.Hit pre (a ++ '/' :: b) post := by
  refine ⟨by simp, ?_⟩
  have e0 : ((notAfter "**").run (pre, a ++ '/' :: b ++ post)).head? = some (pre, a ++ '/' :: b ++ post) := by
    have : (notAfter "**").run (pre, a ++ '/' :: b ++ post) =
      if endsIn [fun x => decide (x = '*'), fun x => decide (x = '*')] pre then [] else [(pre, a ++ '/' :: b ++ post)] := rfl
    rw [this, h]
    rfl
  have e1 : ((some1 dig).run (pre, a ++ '/' :: b ++ post)).head? = some (a.reverse ++ pre, '/' :: (b ++ post)) := by
    have := head_plus_dig (pre := pre) (post := '/' :: (b ++ post)) ha.1 ha.2 (by
      intro c hc
      simp only [List.head?_cons, Option.some.injEq] at hc
      subst hc
      decide)
    simpa using this
  have e2 : ((lit "/").run (a.reverse ++ pre, '/' :: (b ++ post))).head? = some ('/' :: (a.reverse ++ pre), b ++ post) :=
    by rw [one_char "/" (c := '/') rfl]; rfl
  have e3 := head_plus_dig (pre := '/' :: (a.reverse ++ pre)) (post := post) hb.1 hb.2 hp
  have := head_cat_cons (rs := [some1 dig, lit "/", some1 dig]) e0 (head_cat_cons (rs := [lit "/", some1 dig]) e1
    (head_cat_cons (rs := [some1 dig]) e2 (head_cat_cons (rs := []) e3 head_cat_nil)))
  rw [show b.reverse ++ '/' :: (a.reverse ++ pre) = (a ++ '/' :: b).reverse ++ pre by simp] at this
  exact this

theorem fraction_word : "Fraction(".toList = ['F', 'r', 'a', 'c', 't', 'i', 'o', 'n', '('] := by decide

theorem asFraction_eq {a b : List Char} (ha : Digits a) : asFraction (a ++ '/' :: b) = (Sym.frac a b).drawn := by
  have h1 : (a ++ '/' :: b).takeWhile Char.isDigit = a := by
    rw [List.takeWhile_append_of_pos ha.2]
    simp [show '/'.isDigit = false from rfl]
  have h2 : (a ++ '/' :: b).dropWhile Char.isDigit = '/' :: b := by
    rw [List.dropWhile_append_of_pos ha.2]
    simp [show '/'.isDigit = false from rfl]
  delta asFraction
  rw [fraction_word, h1, h2, List.tail_cons, drawn_frac, fracText]

/-- No fraction begins inside `oPs('..')`. -/
theorem quiet_eFrac {n : List Char} (hn : '/' ∉ n) : eFrac.Quiet pre (wrap n) post := by
  intro b1 c b2 e
  rw [run_eq_nil]
  intro u post' hu ht
  obtain ⟨-, a, b, rfl, ha, hb⟩ := takes_eFrac.mp ht
  have hw : '/' ∉ wrap n := by simp [wrap_cons, hn]
  obtain ⟨w, hw2⟩ : ∃ w, c :: b2 = w ++ [')'] := by
    have h1 : (b1 ++ c :: b2).getLast? = some ')' := by rw [← e]; exact wrap_last n
    rw [List.getLast?_append] at h1
    have h2 : (c :: b2).getLast? = some ')' := by
      rcases h3 : (c :: b2).getLast? with _ | z
      · simp at h3
      · rw [h3] at h1; simpa using h1
    obtain ⟨w, hw⟩ := List.getLast?_eq_some_iff.mp h2
    exact ⟨w, hw⟩
  have hu2 : w ++ ')' :: post = a ++ '/' :: (b ++ post') := by
    have : (c :: b2) ++ post = a ++ '/' :: (b ++ post') := by simpa using hu
    rw [hw2] at this
    simpa using this
  have hws : '/' ∉ w := fun hx => hw (by rw [e, hw2]; simp [hx])
  rcases List.append_eq_append_iff.mp hu2 with ⟨d, h1, h2⟩ | ⟨d, h1, h2⟩
  · rcases d with _ | ⟨x, d⟩
    · exact absurd (List.cons.inj h2).1 (by decide)
    · have := (List.cons.inj h2).1
      exact absurd (ha.2 ')' (by rw [h1, this]; simp)) (by decide)
  · rcases d with _ | ⟨x, d⟩
    · exact absurd (List.cons.inj h2).1 (by decide)
    · have := (List.cons.inj h2).1
      exact hws (by rw [h1, this]; simp)

/-- What the two symbols before have to do with the characters before. -/
def Before (pre : List Char) (p q : Option Sym) : Prop :=
  (pre.head? = some '*' ↔ q = some (.ch '*')) ∧ (q = some (.ch '*') → (pre.tail.head? = some '*' ↔ p = some (.ch '*')))

theorem before_ends {p q : Option Sym} (h : Before pre p q) :
    endsIn [fun x => decide (x = '*'), fun x => decide (x = '*')] pre = true ↔ p = some (.ch '*') ∧ q = some (.ch '*') := by
  obtain ⟨h1, h2⟩ := h
  rcases pre with _ | ⟨a, _ | ⟨b, pre⟩⟩
  · simp only [endsIn, Bool.false_eq_true, false_iff, not_and]
    intro _ hq
    have := h1.mpr hq
    simp at this
  · simp only [endsIn, Bool.and_false, Bool.false_eq_true, false_iff, not_and]
    intro hp hq
    have := (h2 hq).mpr hp
    simp at this
  · simp only [endsIn, Bool.and_true, Bool.and_eq_true, decide_eq_true_eq]
    constructor
    · rintro ⟨rfl, rfl⟩
      have hq := h1.mp rfl
      exact ⟨(h2 hq).mp rfl, hq⟩
    · rintro ⟨hp, hq⟩
      have g1 := h1.mpr hq
      have g2 := (h2 hq).mpr hp
      simp at g1 g2
      exact ⟨g1, g2⟩

/-- A symbol before the fractions are written. -/
def SymOk : Sym → Prop
  | .ch _ => True
  | .leaf n => '/' ∉ n
  | .frac _ _ => False

/-- A run of digits is a run of symbols. -/
theorem digits_drawn (s : List Sym) : drawn (s.takeWhile Sym.isDigit) = (s.takeWhile Sym.isDigit).map Sym.char ∧
    (∀ c ∈ (s.takeWhile Sym.isDigit).map Sym.char, c.isDigit = true) ∧
    ∀ c, (drawn (s.dropWhile Sym.isDigit)).head? = some c → c.isDigit = false := by
  induction s with
  | nil => simp [drawn]
  | cons x s ih =>
    obtain ⟨h1, h2, h3⟩ := ih
    cases hx : x.isDigit with
    | true =>
      rw [List.takeWhile_cons_of_pos hx, List.dropWhile_cons_of_pos hx]
      cases x with
      | ch c =>
        refine ⟨by rw [drawn_cons, h1]; rfl, ?_, h3⟩
        intro c' hc
        rw [List.map_cons, List.mem_cons] at hc
        rcases hc with rfl | hc
        · exact hx
        · exact h2 c' hc
      | leaf n => exact absurd hx (by simp [Sym.isDigit])
      | frac a b => exact absurd hx (by simp [Sym.isDigit])
    | false =>
      have hx' : ¬x.isDigit = true := by simp [hx]
      rw [List.takeWhile_cons_of_neg hx', List.dropWhile_cons_of_neg hx']
      refine ⟨rfl, by simp, ?_⟩
      intro c hc
      rw [drawn_cons] at hc
      cases x with
      | ch c' =>
        simp only [drawn_ch, List.cons_append, List.head?_cons, Option.some.injEq] at hc
        subst hc
        exact hx
      | leaf n =>
        simp only [drawn_leaf, List.cons_append, List.head?_cons, Option.some.injEq] at hc
        subst hc
        decide
      | frac a b =>
        simp only [drawn_frac, fracText, List.cons_append, List.head?_cons, Option.some.injEq] at hc
        subst hc
        decide

/-- A symbol that is drawn with this character first is that character. -/
theorem drawn_head {s : List Sym} (hs : ∀ x ∈ s, SymOk x) {c : Char} (hc : c ≠ 'o') {t : List Char} (h : drawn s = c :: t) :
    ∃ s', s = .ch c :: s' ∧ drawn s' = t := by
  rcases s with _ | ⟨x, s⟩
  · simp [drawn] at h
  · rw [drawn_cons] at h
    cases x with
    | ch c' =>
      simp only [drawn_ch, List.cons_append, List.nil_append, List.cons.injEq] at h
      exact ⟨s, by rw [h.1], h.2⟩
    | leaf n =>
      simp only [drawn_leaf, List.cons_append, List.cons.injEq] at h
      exact absurd h.1.symm hc
    | frac a b => exact (hs (.frac a b) (by simp)).elim

theorem split_digits {a b x y : List Char} (ha : ∀ c ∈ a, c.isDigit = true) (hb : ∀ c ∈ b, c.isDigit = true) (hx : ∀ c, x.head? = some c → c.isDigit = false)
    (hy : ∀ c, y.head? = some c → c.isDigit = false) (h : a ++ x = b ++ y) : a = b ∧ x = y := by
  rcases List.append_eq_append_iff.mp h with ⟨c, h1, h2⟩ | ⟨c, h1, h2⟩
  · rcases c with _ | ⟨z, c⟩
    · exact ⟨by simpa using h1.symm, by simpa using h2⟩
    · have g1 := hx z (by rw [h2]; rfl)
      have g2 := hb z (by rw [h1]; simp)
      rw [g1] at g2
      exact absurd g2 (by decide)
  · rcases c with _ | ⟨z, c⟩
    · exact ⟨by simpa using h1, by simpa using h2.symm⟩
    · have g1 := hy z (by rw [h2]; rfl)
      have g2 := ha z (by rw [h1]; simp)
      rw [g1] at g2
      exact absurd g2 (by decide)

theorem takeWhile_dropWhile {α : Type*} (p : α → Bool) (s : List α) : s.takeWhile p ++ s.dropWhile p = s := List.takeWhile_append_dropWhile

theorem frac_pass (f : ℕ) (s : List Sym) (hs : ∀ x ∈ s, SymOk x) (pre : List Char) (p q : Option Sym) (hb : Before pre p q) (hf : s.length ≤ f) :
    eFrac.sub asFraction 0 pre (drawn s) = drawn (fractions f p q s) := by
  induction f generalizing s pre p q with
  | zero =>
    obtain rfl := List.length_eq_zero_iff.mp (by omega : s.length = 0)
    rfl
  | succ f ih =>
    rcases s with _ | ⟨x, s⟩
    · rfl
    · simp only [List.length_cons] at hf
      rw [fractions]
      obtain ⟨g1, g2, g3⟩ := digits_drawn (x :: s)
      have hsd : ∀ y ∈ (x :: s).dropWhile Sym.isDigit, SymOk y := fun y hy => hs y ((List.dropWhile_suffix _).subset hy)
      have hst : ∀ y ∈ ((x :: s).dropWhile Sym.isDigit).tail, SymOk y := fun y hy => hsd y (List.mem_of_mem_tail hy)
      obtain ⟨k1, k2, k3⟩ := digits_drawn ((x :: s).dropWhile Sym.isDigit).tail
      split
      · rename_i hc
        obtain ⟨c1, c2, c3, c4⟩ := hc
        set ds := ((x :: s).takeWhile Sym.isDigit).map Sym.char with hds
        set es := ((((x :: s).dropWhile Sym.isDigit).tail).takeWhile Sym.isDigit).map Sym.char with hes
        set rest := (((x :: s).dropWhile Sym.isDigit).tail).dropWhile Sym.isDigit with hrest
        have e1 : drawn (x :: s) = (ds ++ '/' :: es) ++ drawn rest := by
          have e2 : (x :: s).dropWhile Sym.isDigit = .ch '/' :: ((x :: s).dropWhile Sym.isDigit).tail := by
            rcases h : (x :: s).dropWhile Sym.isDigit with _ | ⟨y, t⟩
            · rw [h] at c3; simp at c3
            · rw [h, List.head?_cons, Option.some.injEq] at c3
              rw [c3]
              rfl
          have e3 := takeWhile_dropWhile Sym.isDigit (x :: s)
          have e4 := takeWhile_dropWhile Sym.isDigit ((x :: s).dropWhile Sym.isDigit).tail
          have e5 : drawn ((x :: s).dropWhile Sym.isDigit).tail = es ++ drawn rest := by
            conv_lhs => rw [← e4, drawn_append, k1]
          conv_lhs => rw [← e3, drawn_append, g1, e2, drawn_cons, e5]
          simp [drawn_ch]
        have hD : Digits ds := by
          refine ⟨?_, g2⟩
          rw [hds, List.takeWhile_cons_of_pos c1]
          simp
        have hE : Digits es := ⟨by rw [hes]; simpa using c4, k2⟩
        have hend : endsIn [fun x => decide (x = '*'), fun x => decide (x = '*')] pre = false := by
          rw [← Bool.not_eq_true, before_ends hb]
          exact c2
        have hh := sub_hit (f := asFraction) (hit_eFrac (post := drawn rest) hend hD hE k3)
        have hlast : ∀ y, (((x :: s).dropWhile Sym.isDigit).tail.takeWhile Sym.isDigit).getLast? = some y → y ≠ .ch '*' := by
          rintro y hy rfl
          have := List.all_eq_true.mp List.all_takeWhile _ (List.mem_of_mem_getLast? hy)
          exact absurd this (by decide)
        rw [e1, hh, asFraction_eq hD, drawn_cons]
        congr 1
        apply ih
        · exact fun y hy => hst y ((List.dropWhile_suffix _).subset hy)
        · have h1 : ((ds ++ '/' :: es).reverse ++ pre).head? ≠ some '*' := by
            intro hc
            obtain ⟨z, hz⟩ : ∃ z, es.getLast? = some z := ⟨es.getLast hE.1, List.getLast?_eq_some_getLast hE.1⟩
            obtain ⟨w, hw⟩ : ∃ w, es = w ++ [z] := ⟨_, (List.dropLast_append_getLast? z hz).symm⟩
            rw [hw] at hc
            simp only [List.reverse_append, List.reverse_cons, List.reverse_nil, List.nil_append, List.cons_append, List.head?_cons, List.append_assoc, Option.some.injEq] at hc
            exact absurd (hE.2 z (by rw [hw]; simp)) (by rw [hc]; decide)
          have h2 : (((x :: s).dropWhile Sym.isDigit).tail.takeWhile Sym.isDigit).getLast? ≠ some (.ch '*') := fun h => hlast _ h rfl
          exact ⟨⟨fun h => absurd h h1, fun h => absurd h h2⟩, fun h => absurd h h2⟩
        · have l1 := (List.dropWhile_suffix Sym.isDigit (l := ((x :: s).dropWhile Sym.isDigit).tail)).length_le
          have l2 := (List.dropWhile_suffix Sym.isDigit (l := x :: s)).length_le
          rw [List.length_tail] at l1
          simp only [List.length_cons] at l2
          change (((x :: s).dropWhile Sym.isDigit).tail.dropWhile Sym.isDigit).length ≤ f
          omega
      · rename_i hc
        rw [drawn_cons, drawn_cons]
        have hq : eFrac.Quiet pre x.drawn (drawn s) ∧ Before (x.drawn.reverse ++ pre) q (some x) := by
          cases x with
          | ch c =>
            refine ⟨?_, ?_, ?_⟩
            · refine quiet_cons ?_ quiet_nil
              rw [run_eq_nil]
              intro u post hu ht
              obtain ⟨t1, a, b, rfl, ha, hb'⟩ := takes_eFrac.mp ht
              have hu' : drawn (.ch c :: s) = a ++ '/' :: (b ++ post) := by
                have : drawn (.ch c :: s) = c :: ([] ++ drawn s) := by simp [drawn_cons, drawn_ch]
                rw [this, hu]
                simp
              have hu2 := hu'
              rw [← takeWhile_dropWhile Sym.isDigit (.ch c :: s), drawn_append, g1] at hu2
              obtain ⟨d1, d2⟩ := split_digits g2 ha.2 g3 (by
                intro c hc
                simp only [List.head?_cons, Option.some.injEq] at hc
                subst hc
                decide) hu2
              obtain ⟨s', d3, d4⟩ := drawn_head hsd (by decide) d2
              apply hc
              refine ⟨?_, ?_, by rw [d3]; rfl, ?_⟩
              · by_contra hn
                rw [List.takeWhile_cons_of_neg hn] at d1
                exact ha.1 d1.symm
              · rw [← before_ends hb, t1]
                decide
              · rcases b with _ | ⟨z, b⟩
                · exact absurd rfl hb'.1
                · have hz := hb'.2 z (by simp)
                  have hz' : z ≠ 'o' := by rintro rfl; exact absurd hz (by decide)
                  obtain ⟨s'', d5, -⟩ := drawn_head (s := s') (fun y hy => hsd y (by rw [d3]; simp [hy])) hz' d4
                  rw [d3, List.tail_cons, d5, List.takeWhile_cons_of_pos (show (Sym.ch z).isDigit = true from hz)]
                  simp
            · simp [drawn_ch]
            · intro _
              exact hb.1
          | leaf n =>
            refine ⟨quiet_eFrac (hs (.leaf n) (by simp)), ?_, ?_⟩
            · simp [drawn_leaf]
            · intro h
              simp at h
          | frac a b => exact (hs (.frac a b) (by simp)).elim
        rw [sub_quiet hq.1]
        congr 1
        exact ih s (fun y hy => hs y (by simp [hy])) _ _ _ hq.2 (by omega)

end Lips

import Verif.Props.EvalParse
import Verif.Props.Indexing
import Verif.Props.Image
import Mathlib.Data.List.Chain

/-!
The end of `_parse` and the tokens of Python on texts of ordinary arithmetic.
-/

namespace Lips

/-! ### Neighbours in a phrase -/

variable {α : Type*}

/-- The token ends an operand. -/
def Tok.Ends : Tok α → Prop
  | .atom _ => True
  | .rpar => True
  | _ => False

/-- The token begins an operand. -/
def Tok.Starts : Tok α → Prop
  | .atom _ => True
  | .lpar => True
  | _ => False

/-- The token is a product, quotient or power sign. -/
def Tok.Infix : Tok α → Prop
  | .star => True
  | .slash => True
  | .dstar => True
  | _ => False

/-- Neighbours in a phrase: two operands are never side by side, and a product, quotient or power sign comes after an
operand. -/
def NextTo (s t : Tok α) : Prop := ¬ (s.Ends ∧ t.Starts) ∧ (t.Infix → s.Ends)

/-- The shape of a phrase. -/
structure Shape (ts : List (Tok α)) : Prop where
  chain : ts.IsChain NextTo
  head : ∀ t, ts.head? = some t → ¬ t.Infix
  last : ∀ t, ts.getLast? = some t → t.Ends
  ne : ts ≠ []

theorem Shape.op {ts us : List (Tok α)} {o : Tok α} (ho : ¬ o.Ends ∧ ¬ o.Starts) (h : Shape ts) (h' : Shape us) :
    Shape (ts ++ o :: us) where
  chain := by
    rw [List.isChain_append]
    refine ⟨h.chain, ?_, fun x hx y hy => ?_⟩
    · rw [List.isChain_cons]
      refine ⟨fun y hy => ⟨fun hxy => ho.1 hxy.1, fun hi => absurd hi (h'.head y hy)⟩, h'.chain⟩
    · simp at hy
      subst hy
      exact ⟨fun hxy => ho.2 hxy.2, fun _ => h.last x hx⟩
  head := by
    intro t ht
    rw [List.head?_append] at ht
    obtain ⟨x, xs, rfl⟩ := List.exists_cons_of_ne_nil h.ne
    exact h.head t (by simpa using ht)
  last := by
    intro t ht
    rw [List.getLast?_append] at ht
    obtain ⟨x, xs, rfl⟩ := List.exists_cons_of_ne_nil h'.ne
    refine h'.last t ?_
    rw [List.getLast?_cons_cons] at ht
    cases hl : (x :: xs).getLast? with
    | none => simp at hl
    | some z => rw [hl] at ht; simpa using ht
  ne := by simp

theorem Shape.sign {us : List (Tok α)} {o : Tok α} (ho : ¬ o.Ends ∧ ¬ o.Infix) (h' : Shape us) : Shape (o :: us) where
  chain := by
    rw [List.isChain_cons]
    exact ⟨fun y hy => ⟨fun hxy => ho.1 hxy.1, fun hi => absurd hi (h'.head y hy)⟩, h'.chain⟩
  head := by intro t ht; simp at ht; subst ht; exact ho.2
  last := by
    intro t ht
    obtain ⟨x, xs, rfl⟩ := List.exists_cons_of_ne_nil h'.ne
    exact h'.last t (by rwa [List.getLast?_cons_cons] at ht)
  ne := by simp

theorem Reads.shape {L : Level} {ts : List (Tok α)} {e : Ast α} (h : Reads L ts e) : Shape ts := by
  induction h with
  | atom x => exact ⟨List.isChain_singleton _, by simp [Tok.Infix], by simp [Tok.Ends], by simp⟩
  | @paren ts e h ih =>
    constructor
    · rw [List.isChain_cons, List.isChain_append]
      refine ⟨fun y hy => ⟨fun hxy => hxy.1, fun hi => ?_⟩, ih.chain, List.isChain_singleton _, ?_⟩
      · obtain ⟨x, xs, rfl⟩ := List.exists_cons_of_ne_nil ih.ne
        exact absurd hi (ih.head y (by simpa using hy))
      · intro x hx y hy
        simp at hy
        subst hy
        exact ⟨fun hxy => hxy.2, fun hi => hi.elim⟩
    · simp [Tok.Infix]
    · intro t ht; rw [← List.cons_append, List.getLast?_concat] at ht; cases ht; trivial
    · simp
  | ofAtom _ ih => exact ih
  | pow _ _ ih₁ ih₂ => exact ih₁.op ⟨id, id⟩ ih₂
  | ofPower _ ih => exact ih
  | neg _ ih => exact ih.sign ⟨id, id⟩
  | pos _ ih => exact ih.sign ⟨id, id⟩
  | ofFactor _ ih => exact ih
  | mul _ _ ih₁ ih₂ => exact ih₁.op ⟨id, id⟩ ih₂
  | div _ _ ih₁ ih₂ => exact ih₁.op ⟨id, id⟩ ih₂
  | ofTerm _ ih => exact ih
  | add _ _ ih₁ ih₂ => exact ih₁.op ⟨id, id⟩ ih₂
  | sub _ _ ih₁ ih₂ => exact ih₁.op ⟨id, id⟩ ih₂

/-! ### How a text is written -/

/-- Symbols for characters. -/
def chs (s : List Char) : List Sym := s.map .ch

/-- The symbols of a token. -/
def tokSyms : Tok EAtom → List Sym
  | .atom (.num k) => chs (pyStr k)
  | .atom (.rat a b) => chs (pyStr a ++ '/' :: pyStr b)
  | .atom (.leaf i) => [.leaf i]
  | .plus => [.ch '+']
  | .minus => [.ch '-']
  | .star => [.ch '*']
  | .slash => [.ch '/']
  | .dstar => [.ch '*', .ch '*']
  | .lpar => [.ch '(']
  | .rpar => [.ch ')']

/-- The symbols of a token after the fractions are recognised. -/
def tokEmit : Tok EAtom → List Sym
  | .atom (.rat a b) => [.frac (pyStr a) (pyStr b)]
  | t => tokSyms t

theorem syms_of_atom (x : EAtom) : ∃ y s, tokSyms (.atom x) = y :: s ∧ (y.isDigit = true ∨ startsO y = true) := by
  rcases x with k | ⟨a, b⟩ | i
  · have := pyStr_digits k
    cases h : pyStr k with
    | nil => exact absurd h (by have := isDigits_pyStr k; intro h'; rw [h'] at this; simp [isDigits] at this)
    | cons c s => rw [h] at this; exact ⟨.ch c, chs s, by simp [tokSyms, h, chs], Or.inl (this c List.mem_cons_self)⟩
  · have := pyStr_digits a
    cases h : pyStr a with
    | nil => exact absurd h (by have := isDigits_pyStr a; intro h'; rw [h'] at this; simp [isDigits] at this)
    | cons c s => rw [h] at this; exact ⟨.ch c, _, by simp [tokSyms, h, chs]; rfl, Or.inl (this c List.mem_cons_self)⟩
  · exact ⟨_, [], rfl, Or.inr rfl⟩

/-! ### Products that are not written -/

/-- `*` is written between these two symbols. -/
def needsStar (x y : Sym) : Bool :=
  (endsDigit x && (startsO y || y = .ch '(')) || (endsParen x && (y.isDigit || startsO y || y = .ch '('))

theorem implicit_append (s : List Sym) (x y : Sym) (t : List Sym) : implicitProducts (s ++ x :: y :: t) =
    implicitProducts (s ++ [x]) ++ ((if needsStar x y then [.ch '*'] else []) ++ implicitProducts (y :: t)) := by
  induction s with
  | nil =>
    simp only [List.nil_append, implicitProducts]
    change (if needsStar x y = true then _ else _) = _
    split_ifs <;> rfl
  | cons z s ih =>
    cases s with
    | nil =>
      simp only [List.nil_append, List.cons_append] at ih ⊢
      rw [implicitProducts, ih]
      simp only [implicitProducts]
      split_ifs <;> rfl
    | cons w s =>
      simp only [List.cons_append] at ih ⊢
      rw [implicitProducts, ih, implicitProducts]
      split_ifs <;> simp

/-- A symbol that neither ends nor begins anything that is multiplied. -/
def Inert (x : Sym) : Prop := endsParen x = false ∧ startsO x = false ∧ x ≠ .ch '('

theorem implicit_inert (s : List Sym) (h : ∀ x ∈ s, Inert x) : implicitProducts s = s := by
  induction s with
  | nil => rfl
  | cons x s ih =>
    cases s with
    | nil => rfl
    | cons y s =>
      have hx := h x List.mem_cons_self
      have hy := h y (by simp)
      rw [implicitProducts, ih fun z hz => h z (List.mem_cons_of_mem _ hz)]
      simp [hx.1, hy.2.1, hy.2.2]

theorem inert_digit (c : Char) (h : c.isDigit = true) : Inert (.ch c) := by
  refine ⟨?_, rfl, ?_⟩
  · simp only [endsParen, decide_eq_false_iff_not]; rintro rfl; exact absurd h (by decide)
  · intro h'; cases h'; exact absurd h (by decide)

theorem implicit_tok (t : Tok EAtom) : implicitProducts (tokSyms t) = tokSyms t := by
  rcases t with (k | ⟨a, b⟩ | i) | _ | _ | _ | _ | _ | _ | _
  · refine implicit_inert _ fun x hx => ?_
    obtain ⟨c, hc, rfl⟩ := List.mem_map.mp hx
    exact inert_digit c (pyStr_digits k c hc)
  · refine implicit_inert _ fun x hx => ?_
    obtain ⟨c, hc, rfl⟩ := List.mem_map.mp hx
    rcases List.mem_append.mp hc with hc | hc
    · exact inert_digit c (pyStr_digits a c hc)
    · rcases List.mem_cons.mp hc with rfl | hc
      · exact ⟨by decide, rfl, by decide⟩
      · exact inert_digit c (pyStr_digits b c hc)
  all_goals rfl

/-- The product of these two neighbours may be left out. -/
def Joins : Tok EAtom → Tok EAtom → Prop
  | .atom (.leaf _), .atom _ => True
  | .atom (.leaf _), .lpar => True
  | .atom _, .lpar => True
  | .atom _, .atom (.leaf _) => True
  | .rpar, .atom _ => True
  | .rpar, .lpar => True
  | _, _ => False

theorem pyStr_last (k : ℕ) : ∃ s c, pyStr k = s ++ [c] ∧ c.isDigit = true := by
  have h : pyStr k ≠ [] := by have := isDigits_pyStr k; intro h'; rw [h'] at this; simp [isDigits] at this
  exact ⟨_, _, (List.dropLast_append_getLast h).symm, pyStr_digits k _ (List.getLast_mem h)⟩

theorem pyStr_first (k : ℕ) : ∃ s c, pyStr k = c :: s ∧ c.isDigit = true := by
  have h : pyStr k ≠ [] := by have := isDigits_pyStr k; intro h'; rw [h'] at this; simp [isDigits] at this
  obtain ⟨c, s, h'⟩ := List.exists_cons_of_ne_nil h
  exact ⟨s, c, h', pyStr_digits k c (by rw [h']; simp)⟩

/-- How the last symbol of a token looks. -/
theorem tok_last (t : Tok EAtom) : ∃ s x, tokSyms t = s ++ [x] ∧
    (endsDigit x = true ↔ (∃ k, t = .atom (.num k)) ∨ ∃ a b, t = .atom (.rat a b)) ∧
    (endsParen x = true ↔ (∃ i, t = .atom (.leaf i)) ∨ t = .rpar) := by
  rcases t with (k | ⟨a, b⟩ | i) | _ | _ | _ | _ | _ | _ | _
  · obtain ⟨s, c, h, hc⟩ := pyStr_last k
    refine ⟨chs s, .ch c, by simp [tokSyms, h, chs], ?_, ?_⟩
    · simp [endsDigit, Sym.isDigit, hc]
    · simp [(inert_digit c hc).1]
  · obtain ⟨s, c, h, hc⟩ := pyStr_last b
    refine ⟨chs (pyStr a ++ '/' :: s), .ch c, by simp [tokSyms, h, chs], ?_, ?_⟩
    · simp [endsDigit, Sym.isDigit, hc]
    · simp [(inert_digit c hc).1]
  · exact ⟨[], _, rfl, by simp [endsDigit, Sym.isDigit], by simp [endsParen]⟩
  case dstar => exact ⟨[.ch '*'], .ch '*', rfl, by simp [endsDigit, Sym.isDigit], by simp [endsParen]⟩
  all_goals exact ⟨[], _, rfl, by simp [endsDigit, Sym.isDigit], by simp [endsParen]⟩

/-- How the first symbol of a token looks. -/
theorem tok_first (t : Tok EAtom) : ∃ s x, tokSyms t = x :: s ∧
    (x.isDigit = true ↔ (∃ k, t = .atom (.num k)) ∨ ∃ a b, t = .atom (.rat a b)) ∧
    (startsO x = true ↔ ∃ i, t = .atom (.leaf i)) ∧ (x = .ch '(' ↔ t = .lpar) ∧ (x = .ch '/' ↔ t = .slash) ∧
    (x = .ch '*' ↔ t = .star ∨ t = .dstar) := by
  have hd : ∀ c : Char, c.isDigit = true → c ≠ '(' ∧ c ≠ '/' ∧ c ≠ '*' := by
    intro c hc
    refine ⟨?_, ?_, ?_⟩ <;> (rintro rfl; exact absurd hc (by decide))
  rcases t with (k | ⟨a, b⟩ | i) | _ | _ | _ | _ | _ | _ | _
  · obtain ⟨s, c, h, hc⟩ := pyStr_first k
    refine ⟨chs s, .ch c, by simp [tokSyms, h, chs], ?_, ?_, ?_, ?_, ?_⟩ <;> simp [Sym.isDigit, hc, startsO, hd c hc]
  · obtain ⟨s, c, h, hc⟩ := pyStr_first a
    refine ⟨chs (s ++ '/' :: pyStr b), .ch c, by simp [tokSyms, h, chs], ?_, ?_, ?_, ?_, ?_⟩ <;>
      simp [Sym.isDigit, hc, startsO, hd c hc]
  · exact ⟨[], _, rfl, by simp [Sym.isDigit], by simp [startsO], by simp, by simp, by simp⟩
  case dstar => exact ⟨[.ch '*'], .ch '*', rfl, by simp [Sym.isDigit], by simp [startsO], by decide, by decide, by simp⟩
  all_goals exact ⟨[], _, rfl, by simp [Sym.isDigit], by simp [startsO], by decide, by decide, by simp⟩

/-- Joining two tokens. -/
theorem implicit_toks (t u : Tok EAtom) (rest : List Sym) : implicitProducts (tokSyms t ++ (tokSyms u ++ rest)) =
    tokSyms t ++ ((open Classical in if Joins t u then [.ch '*'] else []) ++ implicitProducts (tokSyms u ++ rest)) := by
  obtain ⟨s, x, h1, h2, h3⟩ := tok_last t
  obtain ⟨s', y, h4, h5, h6, h7, -⟩ := tok_first u
  have e : needsStar x y = true ↔ Joins t u := by
    simp only [needsStar, Bool.or_eq_true, Bool.and_eq_true, h2, h3, h5, h6, h7, decide_eq_true_eq]
    rcases t with (k | ⟨a, b⟩ | i) | _ | _ | _ | _ | _ | _ | _ <;>
      rcases u with (k' | ⟨a', b'⟩ | i') | _ | _ | _ | _ | _ | _ | _ <;> simp [Joins]
  rw [h4, h1, List.cons_append, List.append_assoc, List.singleton_append, implicit_append, ← h1, implicit_tok]
  congr 2
  by_cases h : Joins t u
  · rw [if_pos h, if_pos (e.mpr h)]
  · rw [if_neg h, if_neg fun h' => h (e.mp h')]

/-- The tokens of a text, each with a flag: a product may be left out. -/
def HiddenOk : List (Tok EAtom × Bool) → Prop
  | [] => True
  | [x] => x.2 = false
  | [x, y] => x.2 = false ∧ y.2 = false
  | x :: y :: z :: rest => x.2 = false ∧ (y.2 = true → y.1 = .star ∧ Joins x.1 z.1) ∧
      (y.2 = false → HiddenOk (y :: z :: rest)) ∧ (y.2 = true → HiddenOk (z :: rest))

/-- The text with some products left out. -/
def hiddenText (its : List (Tok EAtom × Bool)) : List Sym := its.flatMap fun i => if i.2 then [] else tokSyms i.1

theorem implicit_text (its : List (Tok EAtom × Bool)) (h : HiddenOk its) (hc : (its.map Prod.fst).IsChain NextTo) :
    implicitProducts (hiddenText its) = (its.map Prod.fst).flatMap tokSyms := by
  have notJoin : ∀ t u : Tok EAtom, NextTo t u → ¬ Joins t u := by
    rintro t u ⟨h, -⟩ hj
    apply h
    rcases t with (k | ⟨a, b⟩ | i) | _ | _ | _ | _ | _ | _ | _ <;>
      rcases u with (k' | ⟨a', b'⟩ | i') | _ | _ | _ | _ | _ | _ | _ <;> simp_all [Joins, Tok.Ends, Tok.Starts]
  induction hl : its.length using Nat.strong_induction_on generalizing its with
  | _ m ih =>
    match its, h with
    | [], _ => rfl
    | [x], h => simp only [HiddenOk] at h; simp [hiddenText, h, implicit_tok]
    | [x, y], h =>
      simp only [HiddenOk] at h
      have := implicit_toks x.1 y.1 []
      have hn := notJoin x.1 y.1 (by simpa using hc)
      simp only [List.append_nil, implicit_tok, if_neg hn] at this
      simpa [hiddenText, h] using this
    | x :: y :: z :: rest, h =>
      simp only [HiddenOk] at h
      obtain ⟨h1, h2, h3, h4⟩ := h
      simp only [List.map_cons, List.isChain_cons_cons] at hc
      cases hy : y.2 with
      | false =>
        have := ih (rest.length + 2) (by simp at hl; omega) (y :: z :: rest) (h3 hy) (by simpa using hc.2) (by simp)
        have e1 : hiddenText (x :: y :: z :: rest) = tokSyms x.1 ++ (tokSyms y.1 ++ hiddenText (z :: rest)) := by
          simp [hiddenText, h1, hy]
        have e2 : hiddenText (y :: z :: rest) = tokSyms y.1 ++ hiddenText (z :: rest) := by simp [hiddenText, hy]
        rw [e1, implicit_toks, if_neg (notJoin _ _ hc.1), ← e2, this]
        simp
      | true =>
        obtain ⟨h5, h6⟩ := h2 hy
        have hz : z.2 = false := by
          have := h4 hy
          match rest, this with
          | [], h => exact h
          | [w], h => exact h.1
          | _ :: _ :: _, h => exact h.1
        have := ih (rest.length + 1) (by simp at hl; omega) (z :: rest) (h4 hy) (by simpa using hc.2.2) (by simp)
        have e1 : hiddenText (x :: y :: z :: rest) = tokSyms x.1 ++ (tokSyms z.1 ++ hiddenText rest) := by
          simp [hiddenText, h1, hy, hz]
        have e2 : hiddenText (z :: rest) = tokSyms z.1 ++ hiddenText rest := by simp [hiddenText, hz]
        rw [e1, implicit_toks, if_pos h6, ← e2, this]
        simp [h5, tokSyms]

/-! ### Fractions -/

/-- A token that begins with a digit. -/
def Tok.Digits : Tok EAtom → Prop
  | .atom (.num _) => True
  | .atom (.rat _ _) => True
  | _ => False

/-- How numbers may stand in a text, `d` tells whether a power sign comes before: a fraction is not an exponent, and an
integer before a quotient sign and another number, which together would be taken for a fraction, is an exponent of
one digit. -/
def NumbersOk : Bool → List (Tok EAtom) → Prop
  | _, [] => True
  | d, t :: ts => (∀ k, t = .atom (.num k) → (∃ u us, ts = .slash :: u :: us ∧ u.Digits) → d = true ∧ k < 10) ∧
      (∀ a b, t = .atom (.rat a b) → d = false) ∧ NumbersOk (t = .dstar) ts

theorem takeWhile_digits (s : List Char) (hs : ∀ c ∈ s, c.isDigit = true) (rest : List Sym)
    (hr : ∀ x, rest.head? = some x → x.isDigit = false) : (chs s ++ rest).takeWhile Sym.isDigit = chs s ∧
      (chs s ++ rest).dropWhile Sym.isDigit = rest := by
  have h0 : rest.takeWhile Sym.isDigit = [] ∧ rest.dropWhile Sym.isDigit = rest := by
    cases rest with
    | nil => simp
    | cons x rest => simp [hr x rfl]
  induction s with
  | nil => simpa [chs] using h0
  | cons c s ih =>
    have := ih fun d hd => hs d (List.mem_cons_of_mem _ hd)
    have hc : Sym.isDigit (.ch c) = true := hs c List.mem_cons_self
    simp only [chs, List.map_cons, List.cons_append] at *
    simp [hc, this]

/-- Digits of a literal that is no part of a fraction are passed over. -/
theorem fractions_digits (s : List Char) (hs : ∀ c ∈ s, c.isDigit = true) (rest : List Sym)
    (hr : ∀ x, rest.head? = some x → x.isDigit = false)
    (hno : ¬ (rest.head? = some (.ch '/') ∧ rest.tail.takeWhile Sym.isDigit ≠ [])) (f : ℕ) (p q : Option Sym) (hq : q ≠ some (.ch '*') ∨ s ≠ []) :
    ∃ p' q', fractions (f + s.length) p q (chs s ++ rest) = chs s ++ fractions f p' q' rest ∧ (q' ≠ some (.ch '*')) := by
  induction s generalizing p q with
  | nil => exact ⟨p, q, rfl, by simpa using hq⟩
  | cons c s ih =>
    have hcs : ∀ c ∈ s, c.isDigit = true := fun d hd => hs d (List.mem_cons_of_mem _ hd)
    have hc : c ≠ '*' := by rintro rfl; exact absurd (hs '*' List.mem_cons_self) (by decide)
    obtain ⟨p', q', h1, h2⟩ := ih hcs q (some (.ch c)) (by simp [hc])
    refine ⟨p', q', ?_, h2⟩
    have htd := takeWhile_digits (c :: s) hs rest hr
    simp only [chs, List.map_cons, List.cons_append, List.length_cons] at *
    rw [← Nat.add_assoc, fractions, if_neg, h1]
    rw [htd.2]
    tauto

/-- The next token, if any, of a phrase does not begin with a digit. -/
theorem next_not_digit (t : Tok EAtom) (ts : List (Tok EAtom)) (ht : t.Ends) (hc : (t :: ts).IsChain NextTo) :
    ∀ x, (ts.flatMap tokSyms).head? = some x → x.isDigit = false := by
  intro x hx
  cases ts with
  | nil => simp at hx
  | cons u us =>
    rw [List.isChain_cons_cons] at hc
    obtain ⟨s, y, h1, h2, -⟩ := tok_first u
    rw [List.flatMap_cons, h1] at hx
    simp at hx
    subst hx
    by_contra hd
    have := h2.mp (by simpa using hd)
    apply hc.1.1
    rcases this with ⟨k, rfl⟩ | ⟨a, b, rfl⟩ <;> exact ⟨ht, trivial⟩

theorem slash_digits (ts : List (Tok EAtom)) :
    ((ts.flatMap tokSyms).head? = some (.ch '/') ∧ (ts.flatMap tokSyms).tail.takeWhile Sym.isDigit ≠ []) →
      ∃ u us, ts = .slash :: u :: us ∧ u.Digits := by
  rintro ⟨h1, h2⟩
  cases ts with
  | nil => simp at h1
  | cons t us =>
    obtain ⟨s, y, h3, -, -, -, h4, -⟩ := tok_first t
    rw [List.flatMap_cons, h3] at h1
    simp at h1
    obtain rfl := h4.mp h1
    cases us with
    | nil => simp [tokSyms] at h2
    | cons u us =>
      refine ⟨u, us, rfl, ?_⟩
      obtain ⟨s', z, h5, h6, -⟩ := tok_first u
      rw [List.flatMap_cons, List.flatMap_cons, h5] at h2
      change (z :: (s' ++ us.flatMap tokSyms)).takeWhile Sym.isDigit ≠ [] at h2
      by_cases hz : z.isDigit = true
      · rcases h6.mp hz with ⟨k, rfl⟩ | ⟨a, b, rfl⟩ <;> trivial
      · simp [hz] at h2

/-- The state of the scan at a token: after a power sign both last symbols are stars, and only then. -/
def ScanState (d : Bool) (b : Bool) (p q : Option Sym) : Prop :=
  (d = true ↔ p = some (.ch '*') ∧ q = some (.ch '*')) ∧ (b = false → q ≠ some (.ch '*'))

set_option linter.unusedSimpArgs false in
theorem fractions_text (ts : List (Tok EAtom)) (hc : ts.IsChain NextTo) (d b : Bool) (hn : NumbersOk d ts)
    (hb : ∀ t, ts.head? = some t → t.Infix → b = false) (f : ℕ) (hf : (ts.flatMap tokSyms).length ≤ f) (p q : Option Sym)
    (hs : ScanState d b p q) : fractions f p q (ts.flatMap tokSyms) = ts.flatMap tokEmit := by
  induction ts generalizing d b f p q with
  | nil => cases f <;> rfl
  | cons t ts ih =>
    obtain ⟨hn1, hn2, hn3⟩ := hn
    have hc' : ts.IsChain NextTo := hc.tail
    -- after an operand
    have after : ∀ (ht : t.Ends) (g : ℕ) (p' q' : Option Sym), (ts.flatMap tokSyms).length ≤ g → q' ≠ some (.ch '*') →
        fractions g p' q' (ts.flatMap tokSyms) = ts.flatMap tokEmit := by
      intro ht g p' q' hg hq
      have hd : decide (t = .dstar) = false := by rcases t with _ | _ | _ | _ | _ | _ | _ | _ <;> simp_all [Tok.Ends]
      rw [hd] at hn3
      exact ih hc' false false hn3 (fun _ _ _ => rfl) g hg p' q' ⟨by simp [hq], fun _ => hq⟩
    have notNum : ∀ (x : Sym) (s : List Sym), x.isDigit = false → ∀ g, fractions (g + 1) p q (x :: s) = x :: fractions g q (some x) s := by
      intro x s hx g
      rw [fractions, if_neg (by simp [hx])]
    -- an operator of one symbol that is not a star
    have single : ∀ (c : Char), tokSyms t = [.ch c] → tokEmit t = [.ch c] → c.isDigit = false → c ≠ '*' → t ≠ .dstar →
        fractions f p q ((t :: ts).flatMap tokSyms) = (t :: ts).flatMap tokEmit := by
      intro c h1 h2 h3 h4 h5
      rw [List.flatMap_cons, h1] at hf ⊢
      rw [List.flatMap_cons, h2]
      obtain ⟨g, rfl⟩ : ∃ g, f = g + 1 := ⟨f - 1, by simp only [List.length_append, List.length_cons, List.length_nil, chs, List.length_map, List.length_singleton] at hf; omega⟩
      rw [List.singleton_append, notNum (.ch c) _ h3]
      simp only [h5, decide_false] at hn3
      have := ih hc' false false hn3 (fun _ _ _ => rfl) g (by simp only [List.length_append, List.length_cons, List.length_nil, chs, List.length_map, List.length_singleton] at hf; omega) q (some (.ch c)) ⟨by simp [h4], fun _ => by simp [h4]⟩
      rw [this]; rfl
    rcases t with (k | ⟨x, y⟩ | i) | _ | _ | _ | _ | _ | _ | _
    · -- an integer
      have hk := pyStr_digits k
      have hr := next_not_digit (.atom (.num k)) ts trivial hc
      have e1 : (Tok.atom (EAtom.num k) :: ts).flatMap tokSyms = chs (pyStr k) ++ ts.flatMap tokSyms := rfl
      have e2 : (Tok.atom (EAtom.num k) :: ts).flatMap tokEmit = chs (pyStr k) ++ ts.flatMap tokEmit := rfl
      rw [e1] at hf ⊢
      rw [e2]
      simp only [List.length_append, chs, List.length_map] at hf
      by_cases hsl : (ts.flatMap tokSyms).head? = some (.ch '/') ∧ (ts.flatMap tokSyms).tail.takeWhile Sym.isDigit ≠ []
      · obtain ⟨hd, hk10⟩ := hn1 k rfl (slash_digits ts hsl)
        rw [pyStr_digit hk10] at hf ⊢
        obtain ⟨g, rfl⟩ : ∃ g, f = g + 1 := ⟨f - 1, by simp only [List.length_append, List.length_cons, List.length_nil, chs, List.length_map, List.length_singleton] at hf; omega⟩
        have := hs.1.mp hd
        simp only [chs, List.map_cons, List.map_nil, List.cons_append, List.nil_append]
        rw [fractions, if_neg (by tauto)]
        have hne : some (Sym.ch (Nat.digitChar k)) ≠ some (.ch '*') := by
          have : ∀ k < 10, some (Sym.ch (Nat.digitChar k)) ≠ some (.ch '*') := by decide
          exact this k hk10
        rw [after trivial g _ _ (by simp only [List.length_append, List.length_cons, List.length_nil, chs, List.length_map, List.length_singleton] at hf; omega) hne]
      · obtain ⟨g, rfl⟩ : ∃ g, f = g + (pyStr k).length := ⟨f - (pyStr k).length, by omega⟩
        obtain ⟨s0, c0, h0, -⟩ := pyStr_first k
        obtain ⟨p', q', h1, h2⟩ := fractions_digits (pyStr k) hk _ hr hsl g p q (Or.inr (by rw [h0]; simp))
        rw [h1, after trivial g p' q' (by omega) h2]
    · -- a fraction
      have hd := hn2 x y rfl
      have hr := next_not_digit (.atom (.rat x y)) ts trivial hc
      have e1 : (Tok.atom (EAtom.rat x y) :: ts).flatMap tokSyms =
          chs (pyStr x) ++ (.ch '/' :: (chs (pyStr y) ++ ts.flatMap tokSyms)) := by
        simp [tokSyms, chs]
      have e2 : (Tok.atom (EAtom.rat x y) :: ts).flatMap tokEmit = .frac (pyStr x) (pyStr y) :: ts.flatMap tokEmit := rfl
      have t1 := takeWhile_digits (pyStr x) (pyStr_digits x) (.ch '/' :: (chs (pyStr y) ++ ts.flatMap tokSyms)) (by
        intro z hz; simp at hz; subst hz; decide)
      have t2 := takeWhile_digits (pyStr y) (pyStr_digits y) _ hr
      obtain ⟨s0, c0, h0, hc0⟩ := pyStr_first x
      obtain ⟨s1, c1, h1, hc1⟩ := pyStr_last y
      have hmap : ∀ s : List Char, (chs s).map Sym.char = s := by
        intro s; rw [chs, List.map_map]; exact List.map_id s
      rw [e1] at hf ⊢
      rw [e2]
      obtain ⟨g, rfl⟩ : ∃ g, f = g + 1 := ⟨f - 1, by simp only [List.length_append, List.length_cons, List.length_nil, chs, List.length_map, List.length_singleton] at hf; omega⟩
      have e3 : chs (pyStr x) ++ (.ch '/' :: (chs (pyStr y) ++ ts.flatMap tokSyms)) =
          .ch c0 :: (chs s0 ++ (.ch '/' :: (chs (pyStr y) ++ ts.flatMap tokSyms))) := by rw [h0]; rfl
      rw [e3, fractions, ← e3, t1.1, t1.2]
      simp only [List.tail_cons, t2.1, t2.2, hmap]
      have hns : ¬ (p = some (.ch '*') ∧ q = some (.ch '*')) := fun h => by have := hs.1.mpr h; rw [hd] at this; cases this
      rw [if_pos ⟨hc0, hns, rfl, by rw [h1]; simp [chs]⟩]
      congr 1
      refine after trivial g _ _ ?_ ?_
      · simp only [List.length_append, List.length_cons, chs, List.length_map] at hf; omega
      · rw [h1]
        simp only [chs, List.map_append, List.map_cons, List.map_nil, List.getLast?_concat]
        intro h; cases h; exact absurd hc1 (by decide)
    · -- a leaf
      have e1 : (Tok.atom (EAtom.leaf i) :: ts).flatMap tokSyms = .leaf i :: ts.flatMap tokSyms := rfl
      have e2 : (Tok.atom (EAtom.leaf i) :: ts).flatMap tokEmit = .leaf i :: ts.flatMap tokEmit := rfl
      rw [e1] at hf ⊢
      rw [e2]
      obtain ⟨g, rfl⟩ : ∃ g, f = g + 1 := ⟨f - 1, by simp only [List.length_append, List.length_cons, List.length_nil, chs, List.length_map, List.length_singleton] at hf; omega⟩
      rw [notNum _ _ rfl, after trivial g _ _ (by simp only [List.length_append, List.length_cons, List.length_nil, chs, List.length_map, List.length_singleton] at hf; omega) (by simp)]
    · exact single '+' rfl rfl (by decide) (by decide) (by simp)
    · exact single '-' rfl rfl (by decide) (by decide) (by simp)
    · -- a product
      have e1 : (Tok.star :: ts).flatMap tokSyms = .ch '*' :: ts.flatMap tokSyms := rfl
      have e2 : (Tok.star :: ts).flatMap tokEmit = .ch '*' :: ts.flatMap tokEmit := rfl
      rw [e1] at hf ⊢
      rw [e2]
      obtain ⟨g, rfl⟩ : ∃ g, f = g + 1 := ⟨f - 1, by simp only [List.length_append, List.length_cons, List.length_nil, chs, List.length_map, List.length_singleton] at hf; omega⟩
      have hq := hs.2 (hb _ rfl trivial)
      simp only [reduceCtorEq, decide_false] at hn3
      rw [notNum _ _ (by decide)]
      congr 1
      refine ih hc' false true hn3 (fun u hu hi => ?_) g (by simp only [List.length_append, List.length_cons, List.length_nil, chs, List.length_map, List.length_singleton] at hf; omega) _ _ ⟨by simp [hq], by simp⟩
      cases ts with
      | nil => simp at hu
      | cons v vs =>
        simp at hu; subst hu
        rw [List.isChain_cons_cons] at hc
        exact (hc.1.2 hi).elim
    · exact single '/' rfl rfl (by decide) (by decide) (by simp)
    · -- a power
      have e1 : (Tok.dstar :: ts).flatMap tokSyms = .ch '*' :: .ch '*' :: ts.flatMap tokSyms := rfl
      have e2 : (Tok.dstar :: ts).flatMap tokEmit = .ch '*' :: .ch '*' :: ts.flatMap tokEmit := rfl
      rw [e1] at hf ⊢
      rw [e2]
      obtain ⟨g, rfl⟩ : ∃ g, f = g + 1 + 1 := ⟨f - 2, by simp only [List.length_append, List.length_cons, List.length_nil, chs, List.length_map, List.length_singleton] at hf; omega⟩
      simp only [decide_true] at hn3
      rw [notNum _ _ (by decide), fractions, if_neg (by simp [Sym.isDigit])]
      congr 2
      refine ih hc' true true hn3 (fun u hu hi => ?_) g (by simp only [List.length_append, List.length_cons, List.length_nil, chs, List.length_map, List.length_singleton] at hf; omega) _ _ ⟨by simp, by simp⟩
      cases ts with
      | nil => simp at hu
      | cons v vs =>
        simp at hu; subst hu
        rw [List.isChain_cons_cons] at hc
        exact (hc.1.2 hi).elim
    · exact single '(' rfl rfl (by decide) (by decide) (by simp)
    · exact single ')' rfl rfl (by decide) (by decide) (by simp)

/-! ### Tokens -/

theorem pyLiteral_pyStr (k : ℕ) : pyLiteral (pyStr k) = .ok k := by
  rw [pyLiteral, if_neg, pyInt_pyStr]
  rintro ⟨h1, h2⟩
  by_cases hk : k < 10
  · rw [pyStr_digit hk] at h1 h2
    simp at h1 h2
    exact h2 h1
  · obtain ⟨s, c, hs, hc⟩ := pyStr_first k
    rcases firstDigit_pyStr k with h | ⟨-, d, hd, -, h⟩
    · exact hk h.1
    · rw [hs] at h1 h
      simp only [List.head?_cons, Option.some.injEq] at h1
      subst h1
      rw [firstDigit, List.find?_cons_of_pos hc] at h
      simp at h
      omega

theorem lexer_ch (ds : List Char) (c : Char) (s : List Sym) (hc : c.isDigit = true) :
    lexer ds (.ch c :: s) = lexer (ds ++ [c]) s := by
  have h : c ≠ '*' := by rintro rfl; exact absurd hc (by decide)
  rw [lexer.eq_def]
  split
  · simp_all
  · simp_all
  · simp_all
  · rename_i heq; injection heq with h1 h2; injection h1 with h1; exact absurd h1 h
  · rename_i heq; injection heq with h1 h2; injection h1 with h1; subst h1; subst h2; rw [if_pos hc]

theorem lexer_digits (s : List Char) (hs : ∀ c ∈ s, c.isDigit = true) (ds : List Char) (rest : List Sym) :
    lexer ds (chs s ++ rest) = lexer (ds ++ s) rest := by
  induction s generalizing ds with
  | nil => simp [chs]
  | cons c s ih =>
    have := ih (fun d hd => hs d (List.mem_cons_of_mem _ hd)) (ds ++ [c])
    rw [chs, List.map_cons, List.cons_append, lexer_ch _ _ _ (hs c List.mem_cons_self), ← chs, this]
    simp

theorem flushNum_nil (r : Except Err (List (Tok EAtom))) : flushNum [] r = r := by cases r <;> rfl

theorem lexer_flush (ds : List Char) (rest : List Sym) (h : ∀ x, rest.head? = some x → x.isDigit = false) :
    lexer ds rest = flushNum ds (lexer [] rest) := by
  rw [lexer.eq_def ds, lexer.eq_def []]
  split
  · rw [flushNum_nil]
  · rw [flushNum_nil]
  · rw [flushNum_nil]
  · rw [flushNum_nil]
  · rename_i c s hn
    have : c.isDigit = false := h (.ch c) rfl
    simp only [this, Bool.false_eq_true, if_false]
    split
    · rfl
    · rw [flushNum_nil]

theorem emit_first (t : Tok EAtom) : ∃ s x, tokEmit t = x :: s ∧ (x.isDigit = true → t.Digits) ∧
    (x = .ch '*' → t.Infix) := by
  by_cases h : ∃ a b, t = .atom (.rat a b)
  · obtain ⟨a, b, rfl⟩ := h
    exact ⟨[], _, rfl, by simp [Sym.isDigit], by simp⟩
  · obtain ⟨s, x, h1, h2, -, -, -, h3⟩ := tok_first t
    have : tokEmit t = tokSyms t := by
      rcases t with (k | ⟨a, b⟩ | i) | _ | _ | _ | _ | _ | _ | _ <;> first | rfl | exact absurd ⟨_, _, rfl⟩ h
    refine ⟨s, x, this.trans h1, fun hx => ?_, fun hx => ?_⟩
    · rcases h2.mp hx with ⟨k, rfl⟩ | ⟨a, b, rfl⟩ <;> trivial
    · rcases h3.mp hx with rfl | rfl <;> trivial

/-- Python's tokens of a text are the ones it is written from. -/
theorem lexer_text (ts : List (Tok EAtom)) (hc : ts.IsChain NextTo) : lexer [] (ts.flatMap tokEmit) = .ok ts := by
  induction ts with
  | nil => rfl
  | cons t ts ih =>
    have ih := ih hc.tail
    have hd : t.Ends → ∀ x, (ts.flatMap tokEmit).head? = some x → x.isDigit = false := by
      intro ht x hx
      cases ts with
      | nil => simp at hx
      | cons u us =>
        rw [List.isChain_cons_cons] at hc
        obtain ⟨s, y, h1, h2, -⟩ := emit_first u
        rw [List.flatMap_cons, h1] at hx
        simp at hx
        subst hx
        by_contra hy
        refine hc.1.1 ⟨ht, ?_⟩
        have := h2 (by simpa using hy)
        rcases u with (k | ⟨a, b⟩ | i) | _ | _ | _ | _ | _ | _ | _ <;> trivial
    have hst : ¬ t.Ends → (ts.flatMap tokEmit).head? ≠ some (.ch '*') := by
      intro ht hx
      cases ts with
      | nil => simp at hx
      | cons u us =>
        rw [List.isChain_cons_cons] at hc
        obtain ⟨s, y, h1, -, h2⟩ := emit_first u
        rw [List.flatMap_cons, h1] at hx
        simp at hx
        exact ht (hc.1.2 (h2 hx))
    rcases t with (k | ⟨x, y⟩ | i) | _ | _ | _ | _ | _ | _ | _
    · change lexer [] (chs (pyStr k) ++ ts.flatMap tokEmit) = _
      rw [lexer_digits _ (pyStr_digits k), List.nil_append, lexer_flush _ _ (hd trivial), ih]
      obtain ⟨s, c, hs, -⟩ := pyStr_first k
      rw [flushNum]
      rw [if_neg (by rw [hs]; simp), pyLiteral_pyStr]
    · change lexer [] (.frac (pyStr x) (pyStr y) :: ts.flatMap tokEmit) = _
      rw [lexer, ih, pyLiteral_pyStr, pyLiteral_pyStr, flushNum_nil]
    · change lexer [] (.leaf i :: ts.flatMap tokEmit) = _
      rw [lexer, ih, flushNum_nil]
    case star =>
      change lexer [] (.ch '*' :: ts.flatMap tokEmit) = _
      have := hst id
      rw [lexer.eq_def]
      split
      · simp_all
      · simp_all
      · simp_all
      · rename_i heq; injection heq with h1 h2; rw [h2] at this; simp at this
      · rename_i heq; injection heq with h1 h2; injection h1 with h1; subst h1; subst h2
        simp [ih, flushNum_nil]
    case dstar =>
      change lexer [] (.ch '*' :: .ch '*' :: ts.flatMap tokEmit) = _
      rw [lexer, ih, flushNum_nil]
    all_goals
      rw [List.flatMap_cons]
      simp only [tokEmit, tokSyms, List.cons_append, List.nil_append]
      rw [lexer.eq_def]
      split
      · simp_all
      · simp_all
      · simp_all
      · rename_i heq; injection heq with h1 h2; injection h1 with h1; exact absurd h1 (by decide)
      · rename_i heq; injection heq with h1 h2; injection h1 with h1; subst h1; subst h2
        simp [ih, flushNum_nil]

end Lips

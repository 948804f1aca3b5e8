import Verif.Props.PolyImageInv
import Verif.Props.EvalParse

/-! A text of arithmetic stands for one polynomial only: the tokens can be read off the text. -/

namespace Lips

/-- A letter that can be told from digits, blanks and signs. -/
def PlainLetter (x : Char) : Prop := x.isDigit = false ∧ x ≠ ' ' ∧ x ∉ ['+', '-', '*', '/', '^', '(', ')']

/-- Multiplication or power. -/
def Starry (t : Tok PAtom) : Prop := t = .star ∨ t = .dstar

theorem Reads.no_star {L : Level} {ts : List (Tok PAtom)} {e : Ast PAtom} (h : Reads L ts e) : ∃ t us, ts = t :: us ∧ ¬ Starry t := by
  have app : ∀ {ts us : List (Tok PAtom)}, (∃ t vs, ts = t :: vs ∧ ¬ Starry t) → ∃ t vs, ts ++ us = t :: vs ∧ ¬ Starry t := by
    rintro _ us ⟨t, vs, rfl, h⟩; exact ⟨t, vs ++ us, rfl, h⟩
  induction h with
  | atom x => exact ⟨_, _, rfl, by rintro (h | h) <;> cases h⟩
  | paren _ _ => exact ⟨_, _, rfl, by rintro (h | h) <;> cases h⟩
  | neg _ _ => exact ⟨_, _, rfl, by rintro (h | h) <;> cases h⟩
  | pos _ _ => exact ⟨_, _, rfl, by rintro (h | h) <;> cases h⟩
  | ofAtom _ ih | ofPower _ ih | ofFactor _ ih | ofTerm _ ih => exact ih
  | pow _ _ ih _ | mul _ _ ih _ | div _ _ ih _ | add _ _ ih _ | sub _ _ ih _ => exact app ih

theorem Reads.end_no_star {L : Level} {ts : List (Tok PAtom)} {e : Ast PAtom} (h : Reads L ts e) : ∀ t ∈ ts.getLast?, ¬ Starry t := by
  have ne : ∀ {L : Level} {us : List (Tok PAtom)} {e : Ast PAtom}, Reads L us e → us ≠ [] := fun h => by
    obtain ⟨t, vs, rfl, -⟩ := h.no_star; simp
  have app : ∀ {ts us : List (Tok PAtom)} {o : Tok PAtom}, us ≠ [] → (∀ t ∈ us.getLast?, ¬ Starry t) → ∀ t ∈ (ts ++ o :: us).getLast?, ¬ Starry t := by
    intro ts us o hu h
    rwa [List.getLast?_append_of_ne_nil _ (by simp), List.getLast?_cons_of_ne_nil hu]
  induction h with
  | atom x => intro t ht; simp at ht; subst ht; rintro (h | h) <;> cases h
  | paren _ _ =>
    intro t ht
    rw [← List.cons_append, List.getLast?_append_of_ne_nil _ (by simp)] at ht
    simp at ht
    subst ht; rintro (h | h) <;> cases h
  | neg h ih | pos h ih =>
    have := app (ts := []) (o := .minus) (ne h) ih
    intro t ht
    rw [List.getLast?_cons_of_ne_nil (ne h)] at ht
    exact ih t ht
  | ofAtom _ ih | ofPower _ ih | ofFactor _ ih | ofTerm _ ih => exact ih
  | pow _ h _ ih | mul _ h _ ih | div _ h _ ih | add _ h _ ih | sub _ h _ ih => exact app (ne h) ih

theorem Reads.beside {L : Level} {ts : List (Tok PAtom)} {e : Ast PAtom} (h : Reads L ts e) :
    ts.IsChain fun s t => ¬ (Starry s ∧ Starry t) := by
  have op : ∀ {L L' : Level} {ts us : List (Tok PAtom)} {a b : Ast PAtom} (o : Tok PAtom), Reads L ts a → Reads L' us b →
      ts.IsChain (fun s t => ¬ (Starry s ∧ Starry t)) → us.IsChain (fun s t => ¬ (Starry s ∧ Starry t)) →
      (ts ++ o :: us).IsChain (fun s t => ¬ (Starry s ∧ Starry t)) := by
    intro L L' ts us a b o ha hb h1 h2
    rw [List.isChain_append]
    refine ⟨h1, ?_, fun x hx y _ hxy => ha.end_no_star x hx hxy.1⟩
    rw [List.isChain_cons]
    refine ⟨fun y hy hoy => ?_, h2⟩
    obtain ⟨t, vs, rfl, ht⟩ := hb.no_star
    simp at hy
    subst hy
    exact ht hoy.2
  induction h with
  | atom x => simp
  | paren _ ih =>
    rw [← List.cons_append, List.isChain_append, List.isChain_cons]
    refine ⟨⟨fun y _ h => ?_, ih⟩, by simp, fun x _ y hy h => ?_⟩
    · rcases h.1 with h | h <;> cases h
    · simp at hy; subst hy; rcases h.2 with h | h <;> cases h
  | neg _ ih | pos _ ih =>
    rw [List.isChain_cons]
    exact ⟨fun y _ h => (by rcases h.1 with h | h <;> cases h), ih⟩
  | ofAtom _ ih | ofPower _ ih | ofFactor _ ih | ofTerm _ ih => exact ih
  | pow h h' ih ih' | mul h h' ih ih' | div h h' ih ih' | add h h' ih ih' | sub h h' ih ih' => exact op _ h h' ih ih'

/-- The first character of a token. -/
theorem renderTok_head {pw : List Char} (hpw : PowerSign pw) (t : Tok PAtom) : ∃ x xs, renderTok pw t = x :: xs := by
  rcases t with (k | ⟨l, i⟩) | _ | _ | _ | _ | _ | _ | _
  · rcases h : renderTok pw (.atom (.num k)) with _ | ⟨x, xs⟩
    · exact absurd h (pyStr_ne_nil k)
    · exact ⟨x, xs, rfl⟩
  case dstar => rcases hpw with rfl | rfl <;> exact ⟨_, _, rfl⟩
  all_goals exact ⟨_, _, rfl⟩

/-- The letters of a text. -/
def PlainVars (ts : List (Tok PAtom × ℕ)) : Prop := ∀ l i k, (Tok.atom (PAtom.var l i), k) ∈ ts → PlainLetter l

theorem split_while {p : Char → Bool} {a a' u u' : List Char} (ha : ∀ x ∈ a, p x = true) (ha' : ∀ x ∈ a', p x = true)
    (hu : ∀ x ∈ u.head?, p x = false) (hu' : ∀ x ∈ u'.head?, p x = false) (h : a ++ u = a' ++ u') : a = a' ∧ u = u' := by
  have tw : ∀ {a u : List Char}, (∀ x ∈ a, p x = true) → (∀ x ∈ u.head?, p x = false) → (a ++ u).takeWhile p = a := by
    intro a u ha hu
    induction a with
    | nil =>
      rcases u with _ | ⟨y, u⟩
      · rfl
      · rw [List.nil_append, List.takeWhile_cons_of_neg (by rw [hu y (by simp)]; simp)]
    | cons x a ih =>
      rw [List.cons_append, List.takeWhile_cons_of_pos (ha x List.mem_cons_self), ih fun y hy => ha y (List.mem_cons_of_mem _ hy)]
  have e : a = a' := by rw [← tw ha hu, h, tw ha' hu']
  subst e
  exact ⟨rfl, List.append_cancel_left h⟩

/-- What a text begins with. -/
theorem renderText_head {pw : List Char} (hpw : PowerSign pw) {ts : List (Tok PAtom × ℕ)} (hv : PlainVars ts) (x : Char)
    (hx : (renderText pw ts).head? = some x) : ∃ t k us, ts = (t, k) :: us ∧ x ≠ ' ' ∧ (x.isDigit = true → ∃ j, t = .atom (.num j)) ∧
      (x = '*' → Starry t) := by
  rcases ts with _ | ⟨⟨t, k⟩, us⟩
  · simp [renderText] at hx
  · refine ⟨t, k, us, rfl, ?_⟩
    have hx' : (renderTok pw t).head? = some x := by
      obtain ⟨y, ys, e⟩ := renderTok_head hpw t
      simp [renderText, e] at hx
      simp [e, hx]
    rcases t with (j | ⟨l, i⟩) | _ | _ | _ | _ | _ | _ | _
    · have hd : x.isDigit = true := pyStr_digits j x (List.mem_of_mem_head? hx')
      refine ⟨fun e => ?_, fun _ => ⟨j, rfl⟩, fun e => ?_⟩ <;> (subst e; exact absurd hd (by decide))
    · obtain ⟨h1, h2, h3⟩ := hv l i k List.mem_cons_self
      obtain rfl : l = x := by simpa [renderTok] using hx'
      exact ⟨h2, fun h => (by rw [h1] at h; cases h), fun e => absurd (e ▸ h3) (by decide)⟩
    case dstar =>
      rcases hpw with rfl | rfl <;> simp [renderTok] at hx' <;> subst hx'
      · exact ⟨by decide, fun h => absurd h (by decide), fun e => absurd e (by decide)⟩
      · exact ⟨by decide, fun h => absurd h (by decide), fun _ => .inr rfl⟩
    case star => simp [renderTok] at hx'; subst hx'; exact ⟨by decide, fun h => absurd h (by decide), fun _ => .inl rfl⟩
    all_goals simp [renderTok] at hx'; subst hx'; exact ⟨by decide, fun h => absurd h (by decide), fun e => absurd e (by decide)⟩

theorem PlainVars.tail {t : Tok PAtom × ℕ} {ts : List (Tok PAtom × ℕ)} (h : PlainVars (t :: ts)) : PlainVars ts :=
  fun l i k hm => h l i k (List.mem_cons_of_mem _ hm)

/-- The texts that can be told apart. -/
def Legible (ts : List (Tok PAtom × ℕ)) : Prop :=
  PlainVars ts ∧ (ts.map Prod.fst).IsChain Apart ∧ (ts.map Prod.fst).IsChain fun s t => ¬ (Starry s ∧ Starry t)

theorem Legible.tail {t : Tok PAtom × ℕ} {ts : List (Tok PAtom × ℕ)} (h : Legible (t :: ts)) : Legible ts :=
  ⟨h.1.tail, (List.isChain_cons.mp h.2.1).2, (List.isChain_cons.mp h.2.2).2⟩

theorem blank_head {pw : List Char} (hpw : PowerSign pw) {ts : List (Tok PAtom × ℕ)} (h : Legible ts) :
    ∀ x ∈ (renderText pw ts).head?, (x == ' ') = false := by
  intro x hx
  obtain ⟨t, k, us, rfl, h1, -⟩ := renderText_head hpw h.1 x hx
  simpa using h1

theorem after_atom {pw : List Char} (hpw : PowerSign pw) {y : PAtom} {k : ℕ} {ts : List (Tok PAtom × ℕ)} (h : Legible ((.atom y, k) :: ts)) :
    ∀ x ∈ (List.replicate k ' ' ++ renderText pw ts).head?, x.isDigit = false := by
  intro x hx
  rcases k with _ | k
  · simp only [List.replicate_zero, List.nil_append] at hx
    obtain ⟨t, k, us, rfl, -, h2, -⟩ := renderText_head hpw h.tail.1 x hx
    by_contra hc
    obtain ⟨j, rfl⟩ := h2 (by simpa using hc)
    exact (List.isChain_cons.mp h.2.1).1 (.atom (.num j)) (by simp) ⟨⟨y, rfl⟩, ⟨_, rfl⟩⟩
  · simp [List.replicate_succ] at hx; subst hx; decide

theorem after_star {pw : List Char} (hpw : PowerSign pw) {k : ℕ} {ts : List (Tok PAtom × ℕ)} (h : Legible ((.star, k) :: ts)) :
    ∀ x ∈ (List.replicate k ' ' ++ renderText pw ts).head?, x ≠ '*' := by
  intro x hx
  rcases k with _ | k
  · simp only [List.replicate_zero, List.nil_append] at hx
    obtain ⟨t, k, us, rfl, -, -, h3⟩ := renderText_head hpw h.tail.1 x hx
    intro hc
    exact (List.isChain_cons.mp h.2.2).1 t (by simp) ⟨.inl rfl, h3 hc⟩
  · simp [List.replicate_succ] at hx; subst hx; decide

/-- The tokens of a text. -/
theorem renderText_tokens {pw pw' : List Char} (hpw : PowerSign pw) (hpw' : PowerSign pw') (ts ts' : List (Tok PAtom × ℕ))
    (h : Legible ts) (h' : Legible ts') (e : renderText pw ts = renderText pw' ts') : ts.map Prod.fst = ts'.map Prod.fst := by
  induction ts generalizing ts' with
  | nil =>
    rcases ts' with _ | ⟨⟨t, k⟩, us⟩
    · rfl
    · obtain ⟨x, xs, hx⟩ := renderTok_head hpw' t
      simp [renderText, hx] at e
  | cons t ts ih =>
    obtain ⟨t, k⟩ := t
    rcases ts' with _ | ⟨⟨t', k'⟩, us⟩
    · obtain ⟨x, xs, hx⟩ := renderTok_head hpw t
      simp [renderText, hx] at e
    · have e : renderTok pw t ++ (List.replicate k ' ' ++ renderText pw ts) = renderTok pw' t' ++ (List.replicate k' ' ' ++ renderText pw' us) := by
        simpa [renderText, List.flatMap_cons, List.append_assoc] using e
      have rest : List.replicate k ' ' ++ renderText pw ts = List.replicate k' ' ' ++ renderText pw' us → ts.map Prod.fst = us.map Prod.fst :=
        fun er => ih us h.tail h'.tail (split_while (p := (· == ' ')) (by simp [List.mem_replicate]) (by simp [List.mem_replicate])
          (blank_head hpw h.tail) (blank_head hpw' h'.tail) er).2
      suffices t = t' ∧ List.replicate k ' ' ++ renderText pw ts = List.replicate k' ' ' ++ renderText pw' us by
        rw [List.map_cons, List.map_cons, rest this.2, this.1]
      have dig : ∀ j : ℕ, ∃ x xs, pyStr j = x :: xs ∧ x.isDigit = true := fun j => by
        rcases hj : pyStr j with _ | ⟨x, xs⟩
        · exact absurd hj (pyStr_ne_nil j)
        · exact ⟨x, xs, rfl, pyStr_digits j x (by rw [hj]; exact List.mem_cons_self)⟩
      have num : ∀ (y y' : PAtom) (j j' : ℕ), t = .atom y → t' = .atom y' →
          pyStr j ++ (List.replicate k ' ' ++ renderText pw ts) = pyStr j' ++ (List.replicate k' ' ' ++ renderText pw' us) →
          j = j' ∧ List.replicate k ' ' ++ renderText pw ts = List.replicate k' ' ' ++ renderText pw' us := by
        rintro y y' j j' rfl rfl hj
        obtain ⟨h1, h2⟩ := split_while (pyStr_digits j) (pyStr_digits j') (after_atom hpw h) (after_atom hpw' h') hj
        exact ⟨by rw [← pyInt_pyStr j, h1, pyInt_pyStr], h2⟩
      have hl : ∀ l i, t = .atom (.var l i) → PlainLetter l := fun l i ht => h.1 l i k (by rw [ht]; exact List.mem_cons_self)
      have hl' : ∀ l i, t' = .atom (.var l i) → PlainLetter l := fun l i ht => h'.1 l i k' (by rw [ht]; exact List.mem_cons_self)
      have ws := fun ht : t = .star => after_star hpw (k := k) (ts := ts) (by rw [← ht]; exact h)
      have ws' := fun ht : t' = .star => after_star hpw' (k := k') (ts := us) (by rw [← ht]; exact h')
      clear h h' ih rest
      generalize List.replicate k ' ' ++ renderText pw ts = u at *
      generalize List.replicate k' ' ' ++ renderText pw' us = u' at *
      rcases t with (j | ⟨l, i⟩) | _ | _ | _ | _ | _ | _ | _ <;> rcases t' with (j' | ⟨l', i'⟩) | _ | _ | _ | _ | _ | _ | _ <;>
        simp only [renderTok] at e
      case atom.num.atom.num => obtain ⟨rfl, hu⟩ := num _ _ j j' rfl rfl e; exact ⟨rfl, hu⟩
      case atom.var.atom.var =>
        simp only [List.cons_append, List.cons.injEq] at e
        obtain ⟨rfl, hu⟩ := num _ _ i i' rfl rfl e.2
        exact ⟨by rw [e.1], hu⟩
      case dstar.dstar =>
        rcases hpw with rfl | rfl <;> rcases hpw' with rfl | rfl <;> simp at e
        · exact ⟨rfl, e⟩
        · exact ⟨rfl, e⟩
      case star.dstar =>
        rcases hpw' with rfl | rfl <;> simp at e
        exact absurd rfl (ws rfl '*' (by simp [e]))
      case dstar.star =>
        rcases hpw with rfl | rfl <;> simp at e
        exact absurd rfl (ws' rfl '*' (by simp [← e]))
      case plus.plus | minus.minus | star.star | slash.slash | lpar.lpar | rpar.rpar => exact ⟨rfl, by simpa using e⟩
      all_goals exfalso
      case atom.num.atom.var =>
        obtain ⟨x, xs, ex, hx⟩ := dig j
        have := (hl' l' i' rfl).1
        rw [ex] at e; simp at e; rw [← e.1, hx] at this; cases this
      case atom.var.atom.num =>
        obtain ⟨x, xs, ex, hx⟩ := dig j'
        have := (hl l i rfl).1
        rw [ex] at e; simp at e; rw [e.1, hx] at this; cases this
      case atom.num.dstar =>
        obtain ⟨x, xs, ex, hx⟩ := dig j
        rcases hpw' with rfl | rfl <;> (rw [ex] at e; simp at e; rw [e.1] at hx; exact absurd hx (by decide))
      case dstar.atom.num =>
        obtain ⟨x, xs, ex, hx⟩ := dig j'
        rcases hpw with rfl | rfl <;> (rw [ex] at e; simp at e; rw [← e.1] at hx; exact absurd hx (by decide))
      case atom.var.dstar =>
        rcases hpw' with rfl | rfl <;> (simp at e; exact (hl l i rfl).2.2 (by simp [e.1]))
      case dstar.atom.var =>
        rcases hpw with rfl | rfl <;> (simp at e; exact (hl' l' i' rfl).2.2 (by simp [← e.1]))
      case atom.num.plus | atom.num.minus | atom.num.star | atom.num.slash | atom.num.lpar | atom.num.rpar =>
        obtain ⟨x, xs, ex, hx⟩ := dig j
        rw [ex] at e; simp at e; rw [e.1] at hx; exact absurd hx (by decide)
      case plus.atom.num | minus.atom.num | star.atom.num | slash.atom.num | lpar.atom.num | rpar.atom.num =>
        obtain ⟨x, xs, ex, hx⟩ := dig j'
        rw [ex] at e; simp at e; rw [← e.1] at hx; exact absurd hx (by decide)
      case atom.var.plus | atom.var.minus | atom.var.star | atom.var.slash | atom.var.lpar | atom.var.rpar =>
        simp at e; exact (hl l i rfl).2.2 (by simp [e.1])
      case plus.atom.var | minus.atom.var | star.atom.var | slash.atom.var | lpar.atom.var | rpar.atom.var =>
        simp at e; exact (hl' l' i' rfl).2.2 (by simp [← e.1])
      case dstar.plus | dstar.minus | dstar.slash | dstar.lpar | dstar.rpar => rcases hpw with rfl | rfl <;> simp at e
      case plus.dstar | minus.dstar | slash.dstar | lpar.dstar | rpar.dstar => rcases hpw' with rfl | rfl <;> simp at e
      all_goals simp at e

/-- A text has one tree at most. -/
theorem renderText_unique {pw pw' : List Char} (hpw : PowerSign pw) (hpw' : PowerSign pw') {ts ts' : List (Tok PAtom × ℕ)} {e e' : Ast PAtom}
    (hv : PlainVars ts) (hv' : PlainVars ts') (h : Reads .expr (ts.map Prod.fst) e) (h' : Reads .expr (ts'.map Prod.fst) e')
    (ht : renderText pw ts = renderText pw' ts') : e = e' := by
  have := renderText_tokens hpw hpw' ts ts' ⟨hv, h.apart, h.beside⟩ ⟨hv', h'.apart, h'.beside⟩ ht
  rw [this] at h
  exact h.unique h'

end Lips

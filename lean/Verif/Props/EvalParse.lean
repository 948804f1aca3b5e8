import Verif.Model.Eval

/-!
The recursive descent of `ast.parse` reads exactly the textbook grammar.
-/

namespace Lips

variable {α : Type*}

theorem parse_succ (f : ℕ) (m : Mode α) (ts : List (Tok α)) : parse (f + 1) m ts = parseStep (parse f) m ts := rfl

theorem bind_mono {β γ : Type*} {x x' : Option β} {k k' : β → Option γ} {r : γ} (h : x.bind k = some r)
    (hx : ∀ b, x = some b → x' = some b) (hk : ∀ b, k b = some r → k' b = some r) : x'.bind k' = some r := by
  obtain ⟨b, h1, h2⟩ := Option.bind_eq_some_iff.mp h
  rw [hx b h1]; exact hk b h2

theorem map_mono {β γ : Type*} {x x' : Option β} {k : β → γ} {r : γ} (h : x.map k = some r)
    (hx : ∀ b, x = some b → x' = some b) : x'.map k = some r := by
  obtain ⟨b, h1, h2⟩ := Option.map_eq_some_iff.mp h
  rw [hx b h1, ← h2]; rfl

theorem parse_mono (f : ℕ) : ∀ (m : Mode α) (ts : List (Tok α)) (r : Ast α × List (Tok α)), parse f m ts = some r →
    parse (f + 1) m ts = some r := by
  induction f with
  | zero => intro m ts r h; simp [parse] at h
  | succ f ih =>
    intro m ts r h
    rw [parse_succ, parseStep.eq_def] at h ⊢
    cases m with
    | atom =>
      rcases ts with _ | ⟨t, us⟩
      · exact h
      · cases t <;> first | exact h | exact bind_mono h (fun b => ih _ _ b) fun _ => id
    | power =>
      refine bind_mono h (fun b => ih _ _ b) fun b hb => ?_
      rcases b with ⟨a, _ | ⟨t, us⟩⟩
      · exact hb
      · cases t <;> first | exact hb | exact map_mono hb fun b => ih _ _ b
    | factor =>
      rcases ts with _ | ⟨t, us⟩
      · exact ih _ _ _ h
      · cases t <;> first | exact ih _ _ _ h | exact map_mono h fun b => ih _ _ b
    | term => exact bind_mono h (fun b => ih _ _ b) fun b => ih _ _ _
    | terms a =>
      rcases ts with _ | ⟨t, us⟩
      · exact h
      · cases t <;> first | exact h | exact bind_mono h (fun b => ih _ _ b) fun b => ih _ _ _
    | expr => exact bind_mono h (fun b => ih _ _ b) fun b => ih _ _ _
    | exprs a =>
      rcases ts with _ | ⟨t, us⟩
      · exact h
      · cases t <;> first | exact h | exact bind_mono h (fun b => ih _ _ b) fun b => ih _ _ _

theorem parse_mono_le {f g : ℕ} (h : f ≤ g) {m : Mode α} {ts : List (Tok α)} {r : Ast α × List (Tok α)}
    (hf : parse f m ts = some r) : parse g m ts = some r := by
  induction g, h using Nat.le_induction with
  | base => exact hf
  | succ g _ ih => exact parse_mono g _ _ _ ih

/-- The next token, if any, is none of those. -/
def NoHead (bad : List (Tok α)) (rest : List (Tok α)) : Prop := ∀ t, rest.head? = some t → t ∉ bad

theorem terms_stop (f : ℕ) (a : Ast α) (rest : List (Tok α)) (h : NoHead [.star, .slash] rest) :
    parse (f + 1) (.terms a) rest = some (a, rest) := by
  rw [parse_succ, parseStep.eq_def]
  rcases rest with _ | ⟨t, us⟩
  · rfl
  · have := h t rfl
    cases t <;> first | rfl | simp at this

theorem exprs_stop (f : ℕ) (a : Ast α) (rest : List (Tok α)) (h : NoHead [.plus, .minus] rest) :
    parse (f + 1) (.exprs a) rest = some (a, rest) := by
  rw [parse_succ, parseStep.eq_def]
  rcases rest with _ | ⟨t, us⟩
  · rfl
  · have := h t rfl
    cases t <;> first | rfl | simp at this

/-- What the descent does with a phrase followed by more tokens. -/
def ParseComplete (L : Level) (ts : List (Tok α)) (e : Ast α) : Prop :=
  match L with
  | .atom => ∀ f rest, 8 * ts.length ≤ f + 6 → parse f .atom (ts ++ rest) = some (e, rest)
  | .power => ∀ f rest, NoHead [.dstar] rest → 8 * ts.length ≤ f + 5 → parse f .power (ts ++ rest) = some (e, rest)
  | .factor => ∀ f rest, NoHead [.dstar] rest → 8 * ts.length ≤ f + 4 → parse f .factor (ts ++ rest) = some (e, rest)
  | .term => ∀ f f' rest r, NoHead [.dstar] rest → parse f' (.terms e) rest = some r → f' + 8 * ts.length ≤ f + 2 →
      parse f .term (ts ++ rest) = some r
  | .expr => ∀ f f' rest r, NoHead [.dstar, .star, .slash] rest → parse f' (.exprs e) rest = some r →
      f' + 8 * ts.length ≤ f → parse f .expr (ts ++ rest) = some r

theorem Reads.ne_nil {L : Level} {ts : List (Tok α)} {e : Ast α} (h : Reads L ts e) : 1 ≤ ts.length := by
  induction h with
  | atom => simp
  | ofAtom _ ih => exact ih
  | ofPower _ ih => exact ih
  | ofFactor _ ih => exact ih
  | ofTerm _ ih => exact ih
  | _ => simp only [List.length_cons, List.length_append]; omega

theorem atom_head {ts : List (Tok α)} {e : Ast α} (h : Reads .atom ts e) (rest : List (Tok α)) :
    NoHead [.plus, .minus] (ts ++ rest) := by
  cases h <;> (intro t ht; simp at ht; subst ht; simp)

theorem power_head {ts : List (Tok α)} {e : Ast α} (h : Reads .power ts e) (rest : List (Tok α)) :
    NoHead [.plus, .minus] (ts ++ rest) := by
  cases h with
  | ofAtom h => exact atom_head h rest
  | pow h _ => rw [List.append_assoc]; exact atom_head h _

theorem Reads.complete {L : Level} {ts : List (Tok α)} {e : Ast α} (h : Reads L ts e) : ParseComplete L ts e := by
  induction h with
  | atom x =>
    intro f rest hf
    obtain ⟨g, rfl⟩ : ∃ g, f = g + 1 := ⟨f - 1, by simp at hf; omega⟩
    rfl
  | @paren ts e h ih =>
    intro f rest hf
    simp only [List.length_cons, List.length_append, List.length_nil] at hf
    obtain ⟨g, rfl⟩ : ∃ g, f = g + 1 := ⟨f - 1, by omega⟩
    have := ih g 1 (.rpar :: rest) (e, .rpar :: rest) (by intro t ht; simp at ht; subst ht; simp)
      (exprs_stop 0 e _ (by intro t ht; simp at ht; subst ht; simp)) (by omega)
    rw [parse_succ, parseStep.eq_def]
    simp only [List.cons_append, List.append_assoc, List.nil_append]
    rw [this]
    rfl
  | @ofAtom ts e h ih =>
    intro f rest hr hf
    have := h.ne_nil
    obtain ⟨g, rfl⟩ : ∃ g, f = g + 1 := ⟨f - 1, by omega⟩
    rw [parse_succ, parseStep.eq_def]
    simp only [ih g rest (by omega), Option.bind_some]
    rcases rest with _ | ⟨t, us⟩
    · rfl
    · have := hr t rfl
      cases t <;> first | rfl | simp at this
  | @pow ts us a b h₁ h₂ ih₁ ih₂ =>
    intro f rest hr hf
    simp only [List.length_cons, List.length_append] at hf
    obtain ⟨g, rfl⟩ : ∃ g, f = g + 1 := ⟨f - 1, by omega⟩
    rw [parse_succ, parseStep.eq_def, List.append_assoc]
    simp only [ih₁ g _ (by omega), Option.bind_some, List.cons_append]
    rw [ih₂ g rest hr (by omega)]
    rfl
  | @ofPower ts e h ih =>
    intro f rest hr hf
    have := h.ne_nil
    obtain ⟨g, rfl⟩ : ∃ g, f = g + 1 := ⟨f - 1, by omega⟩
    have hh := power_head h rest
    have := ih g rest hr (by omega)
    rw [parse_succ, parseStep.eq_def]
    rcases htr : ts ++ rest with _ | ⟨t, us⟩
    · rw [htr] at this; exact this
    · rw [htr] at this hh
      have hh := hh t rfl
      cases t <;> first | exact this | simp at hh
  | @neg ts e h ih =>
    intro f rest hr hf
    simp only [List.length_cons] at hf
    obtain ⟨g, rfl⟩ : ∃ g, f = g + 1 := ⟨f - 1, by omega⟩
    rw [parse_succ, parseStep.eq_def]
    simp only [List.cons_append, ih g rest hr (by omega)]
    rfl
  | @pos ts e h ih =>
    intro f rest hr hf
    simp only [List.length_cons] at hf
    obtain ⟨g, rfl⟩ : ∃ g, f = g + 1 := ⟨f - 1, by omega⟩
    rw [parse_succ, parseStep.eq_def]
    simp only [List.cons_append, ih g rest hr (by omega)]
    rfl
  | @ofFactor ts e h ih =>
    intro f f' rest r hr hp hf
    have := h.ne_nil
    obtain ⟨g, rfl⟩ : ∃ g, f = g + 1 := ⟨f - 1, by omega⟩
    rw [parse_succ, parseStep.eq_def]
    simp only [ih g rest hr (by omega), Option.bind_some]
    exact parse_mono_le (by omega) hp
  | @mul ts us a b h₁ h₂ ih₁ ih₂ =>
    intro f f' rest r hr hp hf
    simp only [List.length_cons, List.length_append] at hf
    rw [List.append_assoc]
    refine ih₁ f (f' + 8 * us.length + 1) _ r (by intro t ht; simp at ht; subst ht; simp) ?_ (by omega)
    rw [List.cons_append, parse_succ, parseStep.eq_def]
    simp only [ih₂ (f' + 8 * us.length) rest hr (by omega), Option.bind_some]
    exact parse_mono_le (by omega) hp
  | @div ts us a b h₁ h₂ ih₁ ih₂ =>
    intro f f' rest r hr hp hf
    simp only [List.length_cons, List.length_append] at hf
    rw [List.append_assoc]
    refine ih₁ f (f' + 8 * us.length + 1) _ r (by intro t ht; simp at ht; subst ht; simp) ?_ (by omega)
    rw [List.cons_append, parse_succ, parseStep.eq_def]
    simp only [ih₂ (f' + 8 * us.length) rest hr (by omega), Option.bind_some]
    exact parse_mono_le (by omega) hp
  | @ofTerm ts e h ih =>
    intro f f' rest r hr hp hf
    have := h.ne_nil
    obtain ⟨g, rfl⟩ : ∃ g, f = g + 1 := ⟨f - 1, by omega⟩
    rw [parse_succ, parseStep.eq_def]
    have h1 : NoHead [.dstar] rest := fun t ht => by have := hr t ht; simp at this ⊢; exact this.1
    have h2 : NoHead [.star, .slash] rest := fun t ht => by have := hr t ht; simp at this ⊢; exact this.2
    simp only [ih g 1 rest _ h1 (terms_stop 0 e rest h2) (by omega), Option.bind_some]
    exact parse_mono_le (by omega) hp
  | @add ts us a b h₁ h₂ ih₁ ih₂ =>
    intro f f' rest r hr hp hf
    simp only [List.length_cons, List.length_append] at hf
    have h1 : NoHead [.dstar] rest := fun t ht => by have := hr t ht; simp at this ⊢; exact this.1
    have h2 : NoHead [.star, .slash] rest := fun t ht => by have := hr t ht; simp at this ⊢; exact this.2
    rw [List.append_assoc]
    refine ih₁ f (f' + 8 * us.length + 1) _ r (by intro t ht; simp at ht; subst ht; simp) ?_ (by omega)
    rw [List.cons_append, parse_succ, parseStep.eq_def]
    simp only [ih₂ (f' + 8 * us.length) 1 rest _ h1 (terms_stop 0 b rest h2) (by omega), Option.bind_some]
    exact parse_mono_le (by omega) hp
  | @sub ts us a b h₁ h₂ ih₁ ih₂ =>
    intro f f' rest r hr hp hf
    simp only [List.length_cons, List.length_append] at hf
    have h1 : NoHead [.dstar] rest := fun t ht => by have := hr t ht; simp at this ⊢; exact this.1
    have h2 : NoHead [.star, .slash] rest := fun t ht => by have := hr t ht; simp at this ⊢; exact this.2
    rw [List.append_assoc]
    refine ih₁ f (f' + 8 * us.length + 1) _ r (by intro t ht; simp at ht; subst ht; simp) ?_ (by omega)
    rw [List.cons_append, parse_succ, parseStep.eq_def]
    simp only [ih₂ (f' + 8 * us.length) 1 rest _ h1 (terms_stop 0 b rest h2) (by omega), Option.bind_some]
    exact parse_mono_le (by omega) hp

theorem astParse_complete {ts : List (Tok α)} {e : Ast α} (h : Reads .expr ts e) : astParse ts = .ok e := by
  have := h.complete (8 * ts.length + 1) 1 [] (e, []) (by intro t ht; simp at ht) (exprs_stop 0 e [] (by intro t ht; simp at ht))
    (by omega)
  rw [List.append_nil] at this
  rw [astParse, this]

/-- The textbook grammar is unambiguous. -/
theorem Reads.unique {ts : List (Tok α)} {e e' : Ast α} (h : Reads .expr ts e) (h' : Reads .expr ts e') : e = e' := by
  have h1 := astParse_complete h
  rw [astParse_complete h'] at h1
  exact (Except.ok.inj h1).symm

/-- What a successful descent has read. -/
def Sound (m : Mode α) (us : List (Tok α)) (e : Ast α) : Prop :=
  match m with
  | .atom => Reads .atom us e
  | .power => Reads .power us e
  | .factor => Reads .factor us e
  | .term => Reads .term us e
  | .terms a => ∀ ts, Reads .term ts a → Reads .term (ts ++ us) e
  | .expr => Reads .expr us e
  | .exprs a => ∀ ts, Reads .expr ts a → Reads .expr (ts ++ us) e

theorem parse_sound (f : ℕ) : ∀ (m : Mode α) (ts : List (Tok α)) (e : Ast α) (rest : List (Tok α)),
    parse f m ts = some (e, rest) → ∃ us, ts = us ++ rest ∧ Sound m us e := by
  induction f with
  | zero => intro m ts e rest h; simp [parse] at h
  | succ f ih =>
    intro m ts e rest h
    rw [parse_succ, parseStep.eq_def] at h
    cases m with
    | atom =>
      rcases ts with _ | ⟨t, us⟩
      · simp at h
      · cases t <;> simp only [reduceCtorEq] at h
        · simp at h; obtain ⟨rfl, rfl⟩ := h; exact ⟨[_], rfl, .atom _⟩
        · obtain ⟨⟨a, vs⟩, h1, h2⟩ := Option.bind_eq_some_iff.mp h
          obtain ⟨ws, rfl, hw⟩ := ih _ _ _ _ h1
          rcases vs with _ | ⟨t, vs⟩
          · simp [closeParen] at h2
          · cases t <;> simp [closeParen] at h2
            obtain ⟨rfl, rfl⟩ := h2
            exact ⟨Tok.lpar :: (ws ++ [Tok.rpar]), by simp, Reads.paren hw⟩
    | power =>
      obtain ⟨⟨a, vs⟩, h1, h2⟩ := Option.bind_eq_some_iff.mp h
      obtain ⟨ws, rfl, hw⟩ := ih _ _ _ _ h1
      have other : some (a, vs) = some (e, rest) → ∃ us, ws ++ vs = us ++ rest ∧ Sound .power us e := by
        intro h; simp at h; obtain ⟨rfl, rfl⟩ := h; exact ⟨ws, rfl, .ofAtom hw⟩
      rcases vs with _ | ⟨t, vs⟩
      · exact other h2
      · cases t <;> simp only at h2 <;> first | exact other h2 | skip
        obtain ⟨⟨b, xs⟩, h3, h4⟩ := Option.map_eq_some_iff.mp h2
        obtain ⟨ys, rfl, hy⟩ := ih _ _ _ _ h3
        simp at h4; obtain ⟨rfl, rfl⟩ := h4
        exact ⟨ws ++ .dstar :: ys, by simp, .pow hw hy⟩
    | factor =>
      have other : parse f .power ts = some (e, rest) → ∃ us, ts = us ++ rest ∧ Sound .factor us e := by
        intro h
        obtain ⟨ws, rfl, hw⟩ := ih _ _ _ _ h
        exact ⟨ws, rfl, .ofPower hw⟩
      rcases ts with _ | ⟨t, us⟩
      · exact other h
      · cases t <;> simp only at h <;> first | exact other h | skip
        all_goals
          obtain ⟨⟨b, xs⟩, h3, h4⟩ := Option.map_eq_some_iff.mp h
          obtain ⟨ys, rfl, hy⟩ := ih _ _ _ _ h3
          simp at h4; obtain ⟨rfl, rfl⟩ := h4
        · exact ⟨.plus :: ys, rfl, .pos hy⟩
        · exact ⟨.minus :: ys, rfl, .neg hy⟩
    | term =>
      obtain ⟨⟨a, vs⟩, h1, h2⟩ := Option.bind_eq_some_iff.mp h
      obtain ⟨ws, rfl, hw⟩ := ih _ _ _ _ h1
      obtain ⟨xs, rfl, hx⟩ := ih _ _ _ _ h2
      exact ⟨ws ++ xs, by simp, hx ws (.ofFactor hw)⟩
    | expr =>
      obtain ⟨⟨a, vs⟩, h1, h2⟩ := Option.bind_eq_some_iff.mp h
      obtain ⟨ws, rfl, hw⟩ := ih _ _ _ _ h1
      obtain ⟨xs, rfl, hx⟩ := ih _ _ _ _ h2
      exact ⟨ws ++ xs, by simp, hx ws (.ofTerm hw)⟩
    | terms a =>
      have other : some (a, ts) = some (e, rest) → ∃ us, ts = us ++ rest ∧ Sound (.terms a) us e := by
        intro h; simp at h; obtain ⟨rfl, rfl⟩ := h; exact ⟨[], rfl, fun ts h => by simpa using h⟩
      rcases ts with _ | ⟨t, us⟩
      · exact other h
      · cases t <;> simp only at h <;> first | exact other h | skip
        all_goals
          obtain ⟨⟨b, vs⟩, h1, h2⟩ := Option.bind_eq_some_iff.mp h
          obtain ⟨ws, rfl, hw⟩ := ih _ _ _ _ h1
          obtain ⟨xs, rfl, hx⟩ := ih _ _ _ _ h2
        · exact ⟨.star :: (ws ++ xs), by simp, fun ts ht => by simpa using hx _ (.mul ht hw)⟩
        · exact ⟨.slash :: (ws ++ xs), by simp, fun ts ht => by simpa using hx _ (.div ht hw)⟩
    | exprs a =>
      have other : some (a, ts) = some (e, rest) → ∃ us, ts = us ++ rest ∧ Sound (.exprs a) us e := by
        intro h; simp at h; obtain ⟨rfl, rfl⟩ := h; exact ⟨[], rfl, fun ts h => by simpa using h⟩
      rcases ts with _ | ⟨t, us⟩
      · exact other h
      · cases t <;> simp only at h <;> first | exact other h | skip
        all_goals
          obtain ⟨⟨b, vs⟩, h1, h2⟩ := Option.bind_eq_some_iff.mp h
          obtain ⟨ws, rfl, hw⟩ := ih _ _ _ _ h1
          obtain ⟨xs, rfl, hx⟩ := ih _ _ _ _ h2
        · exact ⟨.plus :: (ws ++ xs), by simp, fun ts ht => by simpa using hx _ (.add ht hw)⟩
        · exact ⟨.minus :: (ws ++ xs), by simp, fun ts ht => by simpa using hx _ (.sub ht hw)⟩

/-- C81: the tokens of an expression are read by `ast.parse` if and only if they are an expression of ordinary
arithmetic, and then with its precedences. -/
theorem C81_grammar (ts : List (Tok α)) (e : Ast α) : astParse ts = .ok e ↔ Reads .expr ts e := by
  refine ⟨fun h => ?_, astParse_complete⟩
  rw [astParse] at h
  split at h
  · next e' h' =>
    obtain ⟨us, h1, h2⟩ := parse_sound _ _ _ _ _ h'
    rw [List.append_nil] at h1
    rw [h1]
    cases h
    exact h2
  · simp at h

end Lips

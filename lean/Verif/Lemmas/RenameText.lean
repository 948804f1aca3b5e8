import Verif.Model.Eval
import Verif.Props.PolyImage
import Verif.Props.EvalParse

/-! Texts of expressions in which the names are replaced by others. -/

namespace Lips

variable {f : List Char → List Char}

/-- A symbol with its name replaced. -/
def Sym.rename (f : List Char → List Char) : Sym → Sym
  | .leaf t => .leaf (f t)
  | x => x

/-- An atom with its name replaced. -/
def EAtom.rename (f : List Char → List Char) : EAtom → EAtom
  | .leaf t => .leaf (f t)
  | x => x

theorem rename_isDigit (x : Sym) : (x.rename f).isDigit = x.isDigit := by cases x <;> rfl
theorem rename_endsDigit (x : Sym) : endsDigit (x.rename f) = endsDigit x := rename_isDigit x
theorem rename_char (x : Sym) : (x.rename f).char = x.char := by cases x <;> rfl
theorem rename_eq (x : Sym) (c : Char) : x.rename f = .ch c ↔ x = .ch c := by cases x <;> simp [Sym.rename]
theorem rename_ends (x : Sym) : endsParen (x.rename f) = endsParen x := by cases x <;> rfl
theorem rename_starts (x : Sym) : startsO (x.rename f) = startsO x := by cases x <;> rfl

theorem noBlanks_rename (s : List Sym) : noBlanks (s.map (Sym.rename f)) = (noBlanks s).map (Sym.rename f) := by
  unfold noBlanks
  rw [List.filter_map]
  congr 1
  refine List.filter_congr fun x _ => ?_
  simp only [Function.comp_def, ne_eq, rename_eq]

theorem powerSigns_rename (s : List Sym) : powerSigns (s.map (Sym.rename f)) = (powerSigns s).map (Sym.rename f) := by
  induction s with
  | nil => rfl
  | cons x s ih =>
    unfold powerSigns at ih ⊢
    rw [List.map_cons, List.flatMap_cons, List.flatMap_cons, List.map_append, ih]
    congr 1
    simp only [rename_eq]
    split <;> rfl

theorem implicitProducts_rename : ∀ s : List Sym, implicitProducts (s.map (Sym.rename f)) = (implicitProducts s).map (Sym.rename f)
  | [] => rfl
  | [x] => rfl
  | x :: y :: s => by
    have ih := implicitProducts_rename (y :: s)
    rw [List.map_cons] at ih
    simp only [List.map_cons, implicitProducts, rename_endsDigit, rename_isDigit, rename_starts, rename_ends, rename_eq, ih]
    by_cases h : (endsDigit x && (startsO y || decide (y = .ch '(')) || endsParen x && (y.isDigit || startsO y || decide (y = .ch '('))) = true
    · rw [if_pos h, if_pos h]; rfl
    · rw [if_neg h, if_neg h]; rfl

theorem takeWhile_rename (s : List Sym) : (s.map (Sym.rename f)).takeWhile Sym.isDigit = (s.takeWhile Sym.isDigit).map (Sym.rename f) := by
  rw [List.takeWhile_map]
  congr 2
  funext x
  exact rename_isDigit x

theorem dropWhile_rename (s : List Sym) : (s.map (Sym.rename f)).dropWhile Sym.isDigit = (s.dropWhile Sym.isDigit).map (Sym.rename f) := by
  rw [List.dropWhile_map]
  congr 2
  funext x
  exact rename_isDigit x

theorem rename_option (o : Option Sym) (c : Char) : o.map (Sym.rename f) = some (.ch c) ↔ o = some (.ch c) := by
  cases o <;> simp [rename_eq]

theorem fractions_rename : ∀ (k : ℕ) (p q : Option Sym) (s : List Sym),
    fractions k (p.map (Sym.rename f)) (q.map (Sym.rename f)) (s.map (Sym.rename f)) = (fractions k p q s).map (Sym.rename f)
  | 0, _, _, _ => rfl
  | _ + 1, _, _, [] => rfl
  | k + 1, p, q, x :: s => by
    have hc : Sym.char ∘ Sym.rename f = Sym.char := funext fun x => rename_char x
    have h0 := fun r s => fractions_rename k (some (.ch '/')) r s
    have h1 := fractions_rename k q (some x) s
    simp only [Option.map_some] at h0 h1
    have e1 := takeWhile_rename (f := f) (x :: s)
    have e2 := dropWhile_rename (f := f) (x :: s)
    rw [List.map_cons] at e1 e2
    simp only [List.map_cons, fractions, e1, e2, rename_isDigit, List.head?_map, rename_option, ← List.map_tail, takeWhile_rename, dropWhile_rename, ne_eq,
      List.map_eq_nil_iff, List.map_map, hc, List.getLast?_map]
    split
    · rw [List.map_cons]
      congr 1
      exact h0 _ _
    · rw [h1, List.map_cons]

theorem prepare_rename (s : List Sym) : prepare (s.map (Sym.rename f)) = (prepare s).map (Sym.rename f) := by
  unfold prepare
  simp only [noBlanks_rename, powerSigns_rename, implicitProducts_rename, List.length_map]
  exact fractions_rename _ none none _

theorem flushNum_rename (ds : List Char) (r : Except Err (List (Tok EAtom))) :
    flushNum ds (r.map (List.map (Tok.map (EAtom.rename f)))) = (flushNum ds r).map (List.map (Tok.map (EAtom.rename f))) := by
  cases r with
  | error e => rfl
  | ok ts =>
    simp only [flushNum, Except.map]
    split
    · rfl
    · cases pyLiteral ds <;> rfl

theorem lexer_rename (ds : List Char) (s : List Sym) :
    lexer ds (s.map (Sym.rename f)) = (lexer ds s).map (List.map (Tok.map (EAtom.rename f))) := by
  fun_induction lexer ds s with
  | case1 ds => exact flushNum_rename ds (.ok [])
  | case2 ds i s ih =>
    rw [List.map_cons, Sym.rename, lexer, ih, ← flushNum_rename]
    congr 1
    cases lexer [] s <;> rfl
  | case3 ds a b s ih =>
    rw [List.map_cons, Sym.rename, lexer, ih, ← flushNum_rename]
    · congr 1
      cases pyLiteral a <;> cases pyLiteral b <;> cases lexer [] s <;> rfl
    · simp
  | case4 ds s ih =>
    rw [List.map_cons, List.map_cons, Sym.rename, lexer, ih, ← flushNum_rename]
    · congr 1
      cases lexer [] s <;> rfl
    all_goals simp
  | case5 ds c s hs hd ih =>
    rw [List.map_cons, Sym.rename, lexer, if_pos hd, ih]
    · intro s' e hc
      rcases s with _ | ⟨x, s⟩
      · cases e
      · rw [List.map_cons] at e
        exact hs s (by rw [(rename_eq x '*').1 (List.cons.inj e).1]) hc
    all_goals simp
  | case6 ds c s hs hd ht =>
    rw [List.map_cons, Sym.rename, lexer, if_neg hd, ht]
    · rfl
    · intro s' e hc
      rcases s with _ | ⟨x, s⟩
      · cases e
      · rw [List.map_cons] at e
        exact hs s (by rw [(rename_eq x '*').1 (List.cons.inj e).1]) hc
    all_goals simp
  | case7 ds c s hs hd t ht ih =>
    rw [List.map_cons, Sym.rename, lexer, if_neg hd, ht]
    · simp only [ih]
      rw [← flushNum_rename]
      congr 1
      have hm : Tok.map (EAtom.rename f) t = t := by
        revert ht
        repeat' split
        all_goals (intro ht; cases ht; try rfl)
      cases lexer [] s with
      | error e => rfl
      | ok ts => simp only [Except.map, List.map_cons, hm]
    · intro s' e hc
      rcases s with _ | ⟨x, s⟩
      · cases e
      · rw [List.map_cons] at e
        exact hs s (by rw [(rename_eq x '*').1 (List.cons.inj e).1]) hc
    all_goals simp

/-! ### Reading -/

variable {α β : Type*}

/-- A mode with its atoms replaced. -/
def Mode.map (g : α → β) : Mode α → Mode β
  | .atom => .atom
  | .power => .power
  | .factor => .factor
  | .term => .term
  | .terms a => .terms (a.map g)
  | .expr => .expr
  | .exprs a => .exprs (a.map g)

theorem parse_map (g : α → β) : ∀ (k : ℕ) (m : Mode α) (ts : List (Tok α)),
    parse k (m.map g) (ts.map (Tok.map g)) = (parse k m ts).map fun r => (r.1.map g, r.2.map (Tok.map g))
  | 0, _, _ => rfl
  | k + 1, m, ts => by
    have ih := parse_map g k
    have iha := ih .atom
    have ihp := ih .power
    have ihf := ih .factor
    have iht := ih .term
    have ihe := ih .expr
    have ihts := fun a => ih (.terms a)
    have ihes := fun a => ih (.exprs a)
    simp only [Mode.map] at iha ihp ihf iht ihe ihts ihes
    cases m with
    | atom =>
      rcases ts with _ | ⟨t, us⟩
      · rfl
      · cases t <;> try rfl
        simp only [parse, parseStep, Mode.map, List.map_cons, Tok.map, ihe]
        rcases parse k .expr us with _ | ⟨e, _ | ⟨t, vs⟩⟩
        · rfl
        · rfl
        · cases t <;> rfl
    | power =>
      simp only [parse, parseStep, Mode.map, iha]
      rcases parse k .atom ts with _ | ⟨e, _ | ⟨t, vs⟩⟩
      · rfl
      · rfl
      · cases t <;> try rfl
        simp only [Option.map_some, Option.bind_some, List.map_cons, Tok.map, ihf]
        rcases parse k .factor vs with _ | ⟨e', vs⟩ <;> rfl
    | factor =>
      rcases ts with _ | ⟨t, us⟩
      · exact ihp []
      · cases t <;> try exact ihp (_ :: us)
        all_goals
          simp only [parse, parseStep, Mode.map, List.map_cons, Tok.map, ihf]
          rcases parse k .factor us with _ | ⟨e', vs⟩ <;> rfl
    | term =>
      simp only [parse, parseStep, Mode.map, ihf]
      rcases parse k .factor ts with _ | ⟨e, vs⟩
      · rfl
      · exact ihts e vs
    | terms a =>
      rcases ts with _ | ⟨t, us⟩
      · rfl
      · cases t <;> try rfl
        all_goals
          simp only [parse, parseStep, Mode.map, List.map_cons, Tok.map, ihf]
          rcases parse k .factor us with _ | ⟨e, vs⟩
          · rfl
          · simp only [Option.map_some, Option.bind_some]
            first | exact ihts (.mul a e) vs | exact ihts (.div a e) vs
    | expr =>
      simp only [parse, parseStep, Mode.map, iht]
      rcases parse k .term ts with _ | ⟨e, vs⟩
      · rfl
      · exact ihes e vs
    | exprs a =>
      rcases ts with _ | ⟨t, us⟩
      · rfl
      · cases t <;> try rfl
        all_goals
          simp only [parse, parseStep, Mode.map, List.map_cons, Tok.map, iht]
          rcases parse k .term us with _ | ⟨e, vs⟩
          · rfl
          · simp only [Option.map_some, Option.bind_some]
            first | exact ihes (.add a e) vs | exact ihes (.sub a e) vs

theorem astParse_map (g : α → β) (ts : List (Tok α)) : astParse (ts.map (Tok.map g)) = (astParse ts).map (Ast.map g) := by
  have h := parse_map g (8 * ts.length + 1) .expr ts
  rw [Mode.map] at h
  unfold astParse
  rw [List.length_map, h]
  rcases parse (8 * ts.length + 1) .expr ts with _ | ⟨e, _ | ⟨t, us⟩⟩ <;> rfl

theorem readText_rename (s : List Sym) : readText (s.map (Sym.rename f)) = (readText s).map (Ast.map (EAtom.rename f)) := by
  unfold readText
  rw [prepare_rename, lexer_rename]
  cases lexer [] (prepare s) with
  | error e => rfl
  | ok ts => exact astParse_map _ ts

/-! ### Names that are read -/

theorem fractions_mem (i : List Char) : ∀ (k : ℕ) (p q : Option Sym) (s : List Sym), .leaf i ∈ fractions k p q s → .leaf i ∈ s
  | 0, _, _, _, h => h
  | _ + 1, _, _, [], h => h
  | k + 1, p, q, x :: s, h => by
    simp only [fractions] at h
    split at h
    · rcases List.mem_cons.1 h with h | h
      · cases h
      · have := fractions_mem i k _ _ _ h
        exact (List.dropWhile_suffix _).subset (List.mem_of_mem_tail ((List.dropWhile_suffix _).subset this))
    · rcases List.mem_cons.1 h with h | h
      · rw [h]; exact List.mem_cons_self
      · exact List.mem_cons_of_mem _ (fractions_mem i k _ _ _ h)

theorem implicitProducts_mem (i : List Char) : ∀ s : List Sym, .leaf i ∈ implicitProducts s → .leaf i ∈ s
  | [], h => h
  | [x], h => h
  | x :: y :: s, h => by
    have ih := implicitProducts_mem i (y :: s)
    simp only [implicitProducts] at h
    split at h
    · rcases List.mem_cons.1 h with h | h
      · rw [h]; exact List.mem_cons_self
      · rcases List.mem_cons.1 h with h | h
        · cases h
        · exact List.mem_cons_of_mem _ (ih h)
    · rcases List.mem_cons.1 h with h | h
      · rw [h]; exact List.mem_cons_self
      · exact List.mem_cons_of_mem _ (ih h)

theorem prepare_leaf {i : List Char} {s : List Sym} (h : .leaf i ∈ prepare s) : .leaf i ∈ s := by
  have h := implicitProducts_mem i _ (fractions_mem i _ _ _ _ h)
  obtain ⟨x, hx, hm⟩ := List.mem_flatMap.1 h
  split at hm
  · simp at hm
  · rw [List.mem_singleton] at hm
    rw [← hm] at hx
    exact (List.mem_filter.1 hx).1

theorem flushNum_mem {i : List Char} {ds : List Char} {r : Except Err (List (Tok EAtom))} {ts : List (Tok EAtom)} (h : flushNum ds r = .ok ts)
    (hi : .atom (.leaf i) ∈ ts) : ∃ us, r = .ok us ∧ .atom (.leaf i) ∈ us := by
  cases r with
  | error e => cases h
  | ok us =>
    refine ⟨us, rfl, ?_⟩
    simp only [flushNum] at h
    split at h
    · cases h; exact hi
    · cases hp : pyLiteral ds with
      | error e => rw [hp] at h; cases h
      | ok k =>
        rw [hp] at h
        cases h
        simpa using hi

theorem lexer_mem (i : List Char) (ds : List Char) (s : List Sym) : ∀ ts, lexer ds s = .ok ts → .atom (.leaf i) ∈ ts → .leaf i ∈ s := by
  fun_induction lexer ds s with
  | case1 ds =>
    intro ts h hi
    obtain ⟨us, h1, h2⟩ := flushNum_mem h hi
    cases h1; cases h2
  | case2 ds j s ih =>
    intro ts h hi
    obtain ⟨us, h1, h2⟩ := flushNum_mem h hi
    cases hl : lexer [] s with
    | error e => rw [hl] at h1; cases h1
    | ok vs =>
      rw [hl] at h1
      cases h1
      rcases List.mem_cons.1 h2 with h2 | h2
      · injection h2 with h2; injection h2 with h2; rw [h2]; exact List.mem_cons_self
      · exact List.mem_cons_of_mem _ (ih vs hl h2)
  | case3 ds a b s ih =>
    intro ts h hi
    obtain ⟨us, h1, h2⟩ := flushNum_mem h hi
    cases ha : pyLiteral a <;> cases hb : pyLiteral b <;> cases hl : lexer [] s <;> rw [ha, hb, hl] at h1 <;> cases h1
    rcases List.mem_cons.1 h2 with h2 | h2
    · cases h2
    · exact List.mem_cons_of_mem _ (ih _ hl h2)
  | case4 ds s ih =>
    intro ts h hi
    obtain ⟨us, h1, h2⟩ := flushNum_mem h hi
    cases hl : lexer [] s with
    | error e => rw [hl] at h1; cases h1
    | ok vs =>
      rw [hl] at h1
      cases h1
      rcases List.mem_cons.1 h2 with h2 | h2
      · cases h2
      · exact List.mem_cons_of_mem _ (List.mem_cons_of_mem _ (ih vs hl h2))
  | case5 ds c s hs hd ih => intro ts h hi; exact List.mem_cons_of_mem _ (ih ts h hi)
  | case6 ds c s hs hd ht => intro ts h; cases h
  | case7 ds c s hs hd t ht ih =>
    intro ts h hi
    obtain ⟨us, h1, h2⟩ := flushNum_mem h hi
    cases hl : lexer [] s with
    | error e => rw [hl] at h1; cases h1
    | ok vs =>
      rw [hl] at h1
      cases h1
      rcases List.mem_cons.1 h2 with h2 | h2
      · rw [← h2] at ht
        revert ht
        repeat' split
        all_goals (intro ht; cases ht)
      · exact List.mem_cons_of_mem _ (ih vs hl h2)

variable {K : Type*} [Field K]

theorem evalNode_rename {leaf leaf' : List Char → Except Err K} (e : Ast EAtom) (h : ∀ i, e.Has (.leaf i) → leaf' (f i) = leaf i) :
    evalNode leaf' (e.map (EAtom.rename f)) = evalNode leaf e := by
  unfold Ast.map
  induction e with
  | atom x =>
    cases x with
    | num k => rfl
    | rat a b => rfl
    | leaf i => simp only [Ast.bind, EAtom.rename, evalNode, h i .atom]
  | pos a ih => exact ih fun i hi => h i (.pos hi)
  | neg a ih => simp only [Ast.bind, evalNode]; rw [ih fun i hi => h i (.neg hi)]
  | add a b iha ihb => simp only [Ast.bind, evalNode]; rw [iha fun i hi => h i (.add₁ hi), ihb fun i hi => h i (.add₂ hi)]
  | sub a b iha ihb => simp only [Ast.bind, evalNode]; rw [iha fun i hi => h i (.sub₁ hi), ihb fun i hi => h i (.sub₂ hi)]
  | mul a b iha ihb => simp only [Ast.bind, evalNode]; rw [iha fun i hi => h i (.mul₁ hi), ihb fun i hi => h i (.mul₂ hi)]
  | div a b iha ihb => simp only [Ast.bind, evalNode]; rw [iha fun i hi => h i (.div₁ hi), ihb fun i hi => h i (.div₂ hi)]
  | pow a b iha ihb => simp only [Ast.bind, evalNode]; rw [iha fun i hi => h i (.pow₁ hi), ihb fun i hi => h i (.pow₂ hi)]

/-- Evaluating a text with other names is evaluating the text with other values. -/
theorem evalText_rename {leaf leaf' : List Char → Except Err K} (s : List Sym) (h : ∀ i, .leaf i ∈ s → leaf' (f i) = leaf i) :
    evalText leaf' (s.map (Sym.rename f)) = evalText leaf s := by
  unfold evalText
  rw [readText_rename]
  cases hr : readText s with
  | error e => rfl
  | ok e =>
    refine evalNode_rename e fun i hi => h i ?_
    unfold readText at hr
    cases hl : lexer [] (prepare s) with
    | error e => rw [hl] at hr; cases hr
    | ok ts =>
      rw [hl] at hr
      exact prepare_leaf (lexer_mem i _ _ ts hl (((C81_grammar ts e).1 hr).has hi))

end Lips

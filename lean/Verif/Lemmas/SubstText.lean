import Verif.Lemmas.RenameText

/-!
Replacing names in texts by names or by `(-name)` commutes with the rewriting of the text, the tokens and the syntax tree.
-/

namespace Lips

variable {g : List Char → Bool} {f : List Char → List Char}

/-- The name `t` is replaced by `f t`, or by `(-f t)`. -/
def Sym.subst (g : List Char → Bool) (f : List Char → List Char) : Sym → List Sym
  | .leaf t => if g t then [.ch '(', .ch '-', .leaf (f t), .ch ')'] else [.leaf (f t)]
  | x => [x]

/-- The same on the atoms of tokens and trees. -/
def EAtom.substTok (g : List Char → Bool) (f : List Char → List Char) : EAtom → List (Tok EAtom)
  | .leaf t => if g t then [.lpar, .minus, .atom (.leaf (f t)), .rpar] else [.atom (.leaf (f t))]
  | x => [.atom x]

def EAtom.subst (g : List Char → Bool) (f : List Char → List Char) : EAtom → Ast EAtom
  | .leaf t => if g t then .neg (.atom (.leaf (f t))) else .atom (.leaf (f t))
  | x => .atom x

theorem noBlanks_subst (s : List Sym) : noBlanks (s.flatMap (Sym.subst g f)) = (noBlanks s).flatMap (Sym.subst g f) := by
  unfold noBlanks
  induction s with
  | nil => rfl
  | cons x s ih =>
    rw [List.flatMap_cons, List.filter_append, ih]
    cases x with
    | leaf t => by_cases h : g t = true <;> simp [Sym.subst, h]
    | ch c => by_cases h : c = ' ' <;> simp [Sym.subst, h]
    | frac a b => simp [Sym.subst]

theorem powerSigns_subst (s : List Sym) : powerSigns (s.flatMap (Sym.subst g f)) = (powerSigns s).flatMap (Sym.subst g f) := by
  unfold powerSigns
  induction s with
  | nil => rfl
  | cons x s ih =>
    rw [List.flatMap_cons, List.flatMap_append, ih]
    cases x with
    | leaf t => by_cases h : g t = true <;> simp [Sym.subst, h]
    | ch c => by_cases h : c = '^' <;> simp [Sym.subst, h]
    | frac a b => simp [Sym.subst]

/-- Is a product put in between. -/
def putsStar (x y : Sym) : Bool := (endsDigit x && (startsO y || y = .ch '(')) || (endsParen x && (y.isDigit || startsO y || y = .ch '('))

theorem implicitProducts_cons (x y : Sym) (s : List Sym) :
    implicitProducts (x :: y :: s) = x :: ((if putsStar x y then [.ch '*'] else []) ++ implicitProducts (y :: s)) := by
  simp only [implicitProducts]
  cases h : putsStar x y <;> unfold putsStar at h <;> simp [h]

/-- What a replaced symbol begins and ends with. -/
theorem subst_ends (x : Sym) : ∃ y L z, x.subst g f = y :: L ∧ (∀ w, putsStar w y = putsStar w x) ∧
    (∀ w, putsStar z w = putsStar x w) ∧ ∀ w R, implicitProducts (x.subst g f ++ w :: R) = x.subst g f ++ ((if putsStar z w then [.ch '*'] else []) ++ implicitProducts (w :: R)) := by
  have one : ∀ v : Sym, ∀ w R, implicitProducts ([v] ++ w :: R) = [v] ++ ((if putsStar v w then [.ch '*'] else []) ++ implicitProducts (w :: R)) :=
    fun v w R => implicitProducts_cons v w R
  cases x with
  | ch c => exact ⟨_, _, .ch c, rfl, fun _ => rfl, fun _ => rfl, one _⟩
  | frac a b => exact ⟨_, _, .frac a b, rfl, fun _ => rfl, fun _ => rfl, one _⟩
  | leaf t =>
    by_cases h : g t = true
    · refine ⟨.ch '(', [.ch '-', .leaf (f t), .ch ')'], .ch ')', by simp [Sym.subst, h], ?_, ?_, ?_⟩
      · intro w
        unfold putsStar
        have e1 : startsO (.ch '(') = false := by decide
        have e2 : startsO (.leaf t) = true := rfl
        simp [e1, e2]
      · intro w
        unfold putsStar
        have e1 : endsDigit (.ch ')') = false := by decide
        have e2 : endsDigit (.leaf t) = false := rfl
        have e3 : endsParen (.ch ')') = true := by decide
        have e4 : endsParen (.leaf t) = true := rfl
        rw [e1, e2, e3, e4]
      · intro w R
        have e : (Sym.leaf t).subst g f = [.ch '(', .ch '-', .leaf (f t), .ch ')'] := by simp [Sym.subst, h]
        rw [e]
        simp only [List.cons_append, List.nil_append]
        rw [implicitProducts_cons, implicitProducts_cons, implicitProducts_cons, implicitProducts_cons]
        have a1 : putsStar (.ch '(') (.ch '-') = false := by decide
        have a2 : putsStar (.ch '-') (.leaf (f t)) = false := rfl
        have a3 : putsStar (.leaf (f t)) (.ch ')') = false := by unfold putsStar; simp [endsDigit, endsParen, startsO, Sym.isDigit]
        rw [a1, a2, a3]
        simp
    · refine ⟨.leaf (f t), [], .leaf (f t), by simp [Sym.subst, h], fun w => ?_, fun w => ?_, ?_⟩
      · unfold putsStar
        have e1 : startsO (.leaf (f t)) = true := rfl
        have e2 : startsO (.leaf t) = true := rfl
        simp [e1, e2]
      · unfold putsStar
        rfl
      · have e : (Sym.leaf t).subst g f = [.leaf (f t)] := by simp [Sym.subst, h]
        rw [e]
        exact one _

theorem implicitProducts_subst : ∀ s : List Sym, implicitProducts (s.flatMap (Sym.subst g f)) = (implicitProducts s).flatMap (Sym.subst g f)
  | [] => rfl
  | [x] => by
    obtain ⟨y, L, z, -⟩ := subst_ends (g := g) (f := f) x
    cases x with
    | ch c => rfl
    | frac a b => rfl
    | leaf t =>
      by_cases h : g t = true
      · have a1 : putsStar (.ch '(') (.ch '-') = false := by decide
        have a2 : putsStar (.ch '-') (.leaf (f t)) = false := rfl
        have a3 : putsStar (.leaf (f t)) (.ch ')') = false := by unfold putsStar; simp [endsDigit, endsParen, startsO, Sym.isDigit]
        have e : (Sym.leaf t).subst g f = [.ch '(', .ch '-', .leaf (f t), .ch ')'] := by simp [Sym.subst, h]
        change implicitProducts ((Sym.leaf t).subst g f ++ []) = (Sym.leaf t).subst g f ++ []
        rw [e, List.append_nil, implicitProducts_cons, implicitProducts_cons, implicitProducts_cons, a1, a2, a3]
        rfl
      · simp [Sym.subst, h, implicitProducts]
  | x :: w :: s => by
    have ih := implicitProducts_subst (w :: s)
    obtain ⟨y, L, z, -, -, h3, h4⟩ := subst_ends (g := g) (f := f) x
    obtain ⟨y', L', z', k1, k2, -, -⟩ := subst_ends (g := g) (f := f) w
    have l : (w :: s).flatMap (Sym.subst g f) = y' :: (L' ++ s.flatMap (Sym.subst g f)) := by rw [List.flatMap_cons, k1]; rfl
    rw [l] at ih
    rw [List.flatMap_cons, l, h4, ih, implicitProducts_cons x w s, List.flatMap_cons, List.flatMap_append, h3, k2]
    congr 2
    cases putsStar x w <;> rfl

theorem takeWhile_subst (s : List Sym) : (s.flatMap (Sym.subst g f)).takeWhile Sym.isDigit = s.takeWhile Sym.isDigit ∧
    (s.flatMap (Sym.subst g f)).dropWhile Sym.isDigit = (s.dropWhile Sym.isDigit).flatMap (Sym.subst g f) := by
  induction s with
  | nil => exact ⟨rfl, rfl⟩
  | cons x s ih =>
    rw [List.flatMap_cons]
    cases x with
    | ch c =>
      by_cases h : c.isDigit = true
      · simp [Sym.subst, Sym.isDigit, h, ih.1, ih.2]
      · simp [Sym.subst, Sym.isDigit, h]
    | frac a b => simp [Sym.subst, Sym.isDigit]
    | leaf t =>
      have e : Sym.isDigit (.ch '(') = false := by decide
      have e' : Sym.isDigit (.leaf (f t)) = false := rfl
      have e'' : Sym.isDigit (.leaf t) = false := rfl
      by_cases h : g t = true <;> simp [Sym.subst, h, e, e', e'']

theorem head_subst (s : List Sym) (c : Char) (hc : c ≠ '(') : (s.flatMap (Sym.subst g f)).head? = some (.ch c) ↔ s.head? = some (.ch c) := by
  rcases s with _ | ⟨x, s⟩
  · simp
  · cases x with
    | ch d => simp [Sym.subst]
    | frac a b => simp [Sym.subst]
    | leaf t => by_cases h : g t = true <;> simp [Sym.subst, h, Ne.symm hc]

theorem fractions_subst (k : ℕ) : ∀ (k' : ℕ) (p q p' q' : Option Sym) (s : List Sym), s.length ≤ k → (s.flatMap (Sym.subst g f)).length ≤ k' →
    ((p' = some (.ch '*') ∧ q' = some (.ch '*')) ↔ (p = some (.ch '*') ∧ q = some (.ch '*'))) → (q' = some (.ch '*') ↔ q = some (.ch '*')) →
    fractions k' p' q' (s.flatMap (Sym.subst g f)) = (fractions k p q s).flatMap (Sym.subst g f) := by
  induction k with
  | zero =>
    intro k' p q p' q' s h1 h2 _ _
    obtain rfl : s = [] := List.eq_nil_of_length_eq_zero (by omega)
    cases k' <;> rfl
  | succ k ih =>
    intro k' p q p' q' s h1 h2 hp hq
    rcases s with _ | ⟨x, s⟩
    · cases k' <;> rfl
    · have plain : ∀ x : Sym, x.isDigit = false → ∀ (j : ℕ) (p q : Option Sym) (s : List Sym), fractions (j + 1) p q (x :: s) = x :: fractions j q (some x) s := by
        intro x hx j p q s
        simp only [fractions, hx]
        simp
      have hlen : s.length ≤ k := by simpa using h1
      cases x with
      | leaf t =>
        rw [plain (.leaf t) rfl, List.flatMap_cons, List.flatMap_cons]
        by_cases h : g t = true
        · have e : (Sym.leaf t).subst g f = [.ch '(', .ch '-', .leaf (f t), .ch ')'] := by simp [Sym.subst, h]
          rw [List.flatMap_cons, e] at h2
          rw [e]
          obtain ⟨j, rfl⟩ : ∃ j, k' = j + 4 := ⟨k' - 4, by simp only [List.length_append, List.length_cons, List.length_nil] at h2; omega⟩
          simp only [List.cons_append, List.nil_append]
          rw [plain _ (by decide), plain _ (by decide), plain (.leaf (f t)) rfl, plain _ (by decide),
            ih j q (some (.leaf t)) (some (.leaf (f t))) (some (.ch ')')) s hlen (by simp only [List.length_append, List.length_cons, List.length_nil] at h2; omega) (by simp) (by simp)]
        · have e : (Sym.leaf t).subst g f = [.leaf (f t)] := by simp [Sym.subst, h]
          rw [List.flatMap_cons, e] at h2
          rw [e]
          obtain ⟨j, rfl⟩ : ∃ j, k' = j + 1 := ⟨k' - 1, by simp only [List.length_append, List.length_cons, List.length_nil] at h2; omega⟩
          simp only [List.cons_append, List.nil_append]
          rw [plain (.leaf (f t)) rfl, ih j q (some (.leaf t)) q' (some (.leaf (f t))) s hlen (by simp only [List.length_append, List.length_cons, List.length_nil] at h2; omega) (by simp) (by simp)]
      | frac a b =>
        rw [List.flatMap_cons] at h2
        obtain ⟨j, rfl⟩ : ∃ j, k' = j + 1 := ⟨k' - 1, by simp only [Sym.subst, List.length_append, List.length_cons, List.length_nil] at h2; omega⟩
        rw [plain (.frac a b) rfl, List.flatMap_cons, List.flatMap_cons]
        simp only [Sym.subst, List.cons_append, List.nil_append]
        rw [plain (.frac a b) rfl, ih j q (some (.frac a b)) q' (some (.frac a b)) s hlen (by simp only [Sym.subst, List.length_append, List.length_cons, List.length_nil] at h2; omega) (by simp) (by simp)]
      | ch c =>
        rw [List.flatMap_cons] at h2
        obtain ⟨j, rfl⟩ : ∃ j, k' = j + 1 := ⟨k' - 1, by simp only [Sym.subst, List.length_append, List.length_cons, List.length_nil] at h2; omega⟩
        have hj : (s.flatMap (Sym.subst g f)).length ≤ j := by simp only [Sym.subst, List.length_append, List.length_cons, List.length_nil] at h2; omega
        have rest := ih j q (some (.ch c)) q' (some (.ch c)) s hlen hj (by rw [hq]) Iff.rfl
        by_cases hd : Sym.isDigit (.ch c) = true
        · obtain ⟨t1, t2⟩ := takeWhile_subst (g := g) (f := f) (.ch c :: s)
          have e : (Sym.ch c :: s).flatMap (Sym.subst g f) = .ch c :: s.flatMap (Sym.subst g f) := rfl
          rw [e] at t1 t2 ⊢
          simp only [fractions, t1, t2, head_subst _ '/' (by decide), hp]
          by_cases hh : ((Sym.ch c :: s).dropWhile Sym.isDigit).head? = some (.ch '/')
          · obtain ⟨R, hR⟩ : ∃ R, (Sym.ch c :: s).dropWhile Sym.isDigit = .ch '/' :: R := by
              rcases hx : (Sym.ch c :: s).dropWhile Sym.isDigit with _ | ⟨y, R⟩
              · rw [hx] at hh; cases hh
              · rw [hx] at hh; exact ⟨R, by rw [Option.some.inj hh]⟩
            obtain ⟨r1, r2⟩ := takeWhile_subst (g := g) (f := f) R
            have eR : ((Sym.ch '/' :: R).flatMap (Sym.subst g f)).tail = R.flatMap (Sym.subst g f) := rfl
            rw [hR, eR, List.tail_cons, r1, r2]
            have l1 : (R.dropWhile Sym.isDigit).length ≤ k := by
              have a := (List.dropWhile_suffix (l := Sym.ch c :: s) Sym.isDigit).length_le
              have b := (List.dropWhile_suffix (l := R) Sym.isDigit).length_le
              rw [hR] at a
              simp at a
              omega
            have l2 : ((R.dropWhile Sym.isDigit).flatMap (Sym.subst g f)).length ≤ j := by
              have a := (List.dropWhile_suffix (l := Sym.ch c :: s.flatMap (Sym.subst g f)) Sym.isDigit).length_le
              have b := (List.dropWhile_suffix (l := R.flatMap (Sym.subst g f)) Sym.isDigit).length_le
              rw [t2, hR] at a
              rw [r2] at b
              have : ((Sym.ch '/' :: R).flatMap (Sym.subst g f)).length = (R.flatMap (Sym.subst g f)).length + 1 := by
                rw [List.flatMap_cons, List.length_append]; exact Nat.add_comm _ _
              rw [this] at a
              simp only [List.length_cons] at a
              omega
            split
            · rw [List.flatMap_cons, ih j _ _ _ _ _ l1 l2 Iff.rfl Iff.rfl]; rfl
            · rw [List.flatMap_cons, rest]; rfl
          · rw [if_neg (fun h => hh h.2.2.1), if_neg (fun h => hh h.2.2.1), List.flatMap_cons, rest]; rfl
        · rw [Bool.not_eq_true] at hd
          rw [plain _ hd, List.flatMap_cons, List.flatMap_cons]
          simp only [Sym.subst, List.cons_append, List.nil_append]
          rw [plain _ hd, rest]

theorem prepare_subst (s : List Sym) : prepare (s.flatMap (Sym.subst g f)) = (prepare s).flatMap (Sym.subst g f) := by
  unfold prepare
  rw [noBlanks_subst, powerSigns_subst, implicitProducts_subst]
  exact fractions_subst _ _ _ _ _ _ _ le_rfl le_rfl Iff.rfl Iff.rfl

theorem flushNum_subst (ds : List Char) (r r' : Except Err (List (Tok EAtom)))
    (h : r' = r.map fun ts => ts.flatMap (Tok.bind (EAtom.substTok g f))) :
    flushNum ds r' = (flushNum ds r).map fun ts => ts.flatMap (Tok.bind (EAtom.substTok g f)) := by
  subst h
  cases r with
  | error e => rfl
  | ok ts =>
    simp only [Except.map, flushNum]
    split
    · rfl
    · cases pyLiteral ds <;> rfl

theorem lexer_subst (ds : List Char) (s : List Sym) :
    lexer ds (s.flatMap (Sym.subst g f)) = (lexer ds s).map fun ts => ts.flatMap (Tok.bind (EAtom.substTok g f)) := by
  have ih0 : ∀ (r : Except Err (List (Tok EAtom))), flushNum [] r = r := by intro r; cases r <;> rfl
  fun_induction lexer ds s with
  | case1 ds => exact flushNum_subst ds _ _ rfl
  | case2 ds j s ih =>
    rw [List.flatMap_cons]
    by_cases h : g j = true
    · have e : (Sym.leaf j).subst g f = [.ch '(', .ch '-', .leaf (f j), .ch ')'] := by simp [Sym.subst, h]
      rw [e]
      simp only [List.cons_append, List.nil_append]
      have l1 : ∀ ds s, lexer ds (.ch '(' :: s) = flushNum ds (match lexer [] s with | .ok ts => .ok (.lpar :: ts) | .error e => .error e) := by
        intro ds s; rw [lexer]
        · rfl
        · intro s' _ h; revert h; decide
      have l2 : ∀ ds s, lexer ds (.ch '-' :: s) = flushNum ds (match lexer [] s with | .ok ts => .ok (.minus :: ts) | .error e => .error e) := by
        intro ds s; rw [lexer]
        · rfl
        · intro s' _ h; revert h; decide
      have l3 : ∀ ds s, lexer ds (.ch ')' :: s) = flushNum ds (match lexer [] s with | .ok ts => .ok (.rpar :: ts) | .error e => .error e) := by
        intro ds s; rw [lexer]
        · rfl
        · intro s' _ h; revert h; decide
      rw [l1, l2, lexer, l3, ih, ih0, ih0, ih0]
      refine flushNum_subst ds _ _ ?_
      cases lexer [] s with
      | error e => rfl
      | ok ts => simp [Except.map, Tok.bind, EAtom.substTok, h]
    · have e : (Sym.leaf j).subst g f = [.leaf (f j)] := by simp [Sym.subst, h]
      rw [e]
      simp only [List.cons_append, List.nil_append]
      rw [lexer, ih]
      refine flushNum_subst ds _ _ ?_
      cases lexer [] s with
      | error e => rfl
      | ok ts => simp [Except.map, Tok.bind, EAtom.substTok, h]
  | case3 ds a b s ih =>
    rw [List.flatMap_cons]
    simp only [Sym.subst, List.cons_append, List.nil_append]
    rw [lexer, ih]
    refine flushNum_subst ds _ _ ?_
    cases pyLiteral a <;> cases pyLiteral b <;> cases lexer [] s <;> rfl
  | case4 ds s ih =>
    rw [List.flatMap_cons, List.flatMap_cons]
    simp only [Sym.subst, List.cons_append, List.nil_append]
    rw [lexer, ih]
    refine flushNum_subst ds _ _ ?_
    cases lexer [] s <;> rfl
  | case5 ds c s hs hd ih =>
    rw [List.flatMap_cons]
    simp only [Sym.subst, List.cons_append, List.nil_append]
    rw [lexer]
    · rw [if_pos hd, ih]
    · intro s' e hc
      obtain ⟨u, hu⟩ : ∃ u, s = .ch '*' :: u := by
        have := (head_subst (g := g) (f := f) s '*' (by decide)).1 (by rw [e]; rfl)
        rcases s with _ | ⟨y, u⟩
        · cases this
        · exact ⟨u, by rw [Option.some.inj this]⟩
      exact hs u hu hc
  | case6 ds c s hs hd ht =>
    rw [List.flatMap_cons]
    simp only [Sym.subst, List.cons_append, List.nil_append]
    rw [lexer]
    · rw [if_neg hd, ht]; rfl
    · intro s' e hc
      obtain ⟨u, hu⟩ : ∃ u, s = .ch '*' :: u := by
        have := (head_subst (g := g) (f := f) s '*' (by decide)).1 (by rw [e]; rfl)
        rcases s with _ | ⟨y, u⟩
        · cases this
        · exact ⟨u, by rw [Option.some.inj this]⟩
      exact hs u hu hc
  | case7 ds c s hs hd t ht ih =>
    rw [List.flatMap_cons]
    simp only [Sym.subst, List.cons_append, List.nil_append]
    rw [lexer]
    · rw [if_neg hd, ht]
      simp only
      rw [ih]
      refine flushNum_subst ds _ _ ?_
      cases lexer [] s with
      | error e => rfl
      | ok ts =>
        have : Tok.bind (EAtom.substTok g f) t = [t.map id] ∧ t.map id = t := by
          revert ht
          repeat' split
          all_goals (intro ht; cases ht)
          all_goals exact ⟨rfl, rfl⟩
        simp [Except.map, this.1, this.2]
    · intro s' e hc
      obtain ⟨u, hu⟩ : ∃ u, s = .ch '*' :: u := by
        have := (head_subst (g := g) (f := f) s '*' (by decide)).1 (by rw [e]; rfl)
        rcases s with _ | ⟨y, u⟩
        · cases this
        · exact ⟨u, by rw [Option.some.inj this]⟩
      exact hs u hu hc

/-- A text with replaced names reads as the tree with replaced names. -/
theorem readText_subst {s : List Sym} {e : Ast EAtom} (h : readText s = .ok e) : readText (s.flatMap (Sym.subst g f)) = .ok (e.bind (EAtom.subst g f)) := by
  unfold readText at h ⊢
  rw [prepare_subst, lexer_subst]
  cases hl : lexer [] (prepare s) with
  | error e => rw [hl] at h; cases h
  | ok ts =>
    rw [hl] at h
    refine (C81_grammar _ _).2 (((C81_grammar ts e).1 h).bind ?_)
    intro x _
    cases x with
    | num k => exact .atom _
    | rat a b => exact .atom _
    | leaf t =>
      by_cases hg : g t = true
      · have : EAtom.substTok g f (.leaf t) = .lpar :: ([.minus, .atom (.leaf (f t))] ++ [.rpar]) := by simp [EAtom.substTok, hg]
        rw [this, show EAtom.subst g f (.leaf t) = .neg (.atom (.leaf (f t))) by simp [EAtom.subst, hg]]
        exact .paren (.ofTerm (.ofFactor (.neg (.ofPower (.ofAtom (.atom _))))))
      · rw [show EAtom.substTok g f (.leaf t) = [.atom (.leaf (f t))] by simp [EAtom.substTok, hg],
          show EAtom.subst g f (.leaf t) = .atom (.leaf (f t)) by simp [EAtom.subst, hg]]
        exact .atom _

variable {K : Type*} [Field K]

theorem evalNode_subst {leaf leaf' : List Char → Except Err K} (e : Ast EAtom)
    (h : ∀ i, e.Has (.leaf i) → leaf' i = if g i then (leaf (f i)).map (- ·) else leaf (f i)) :
    evalNode leaf (e.bind (EAtom.subst g f)) = evalNode leaf' e := by
  induction e with
  | atom x =>
    cases x with
    | num k => rfl
    | rat a b => rfl
    | leaf i =>
      simp only [Ast.bind, EAtom.subst, evalNode, h i .atom]
      by_cases hg : g i = true
      · simp only [hg, if_true, evalNode]
        cases leaf (f i) <;> rfl
      · simp only [hg]
        rfl
  | pos a ih => exact ih fun i hi => h i (.pos hi)
  | neg a ih => simp only [Ast.bind, evalNode]; rw [ih fun i hi => h i (.neg hi)]
  | add a b iha ihb => simp only [Ast.bind, evalNode]; rw [iha fun i hi => h i (.add₁ hi), ihb fun i hi => h i (.add₂ hi)]
  | sub a b iha ihb => simp only [Ast.bind, evalNode]; rw [iha fun i hi => h i (.sub₁ hi), ihb fun i hi => h i (.sub₂ hi)]
  | mul a b iha ihb => simp only [Ast.bind, evalNode]; rw [iha fun i hi => h i (.mul₁ hi), ihb fun i hi => h i (.mul₂ hi)]
  | div a b iha ihb => simp only [Ast.bind, evalNode]; rw [iha fun i hi => h i (.div₁ hi), ihb fun i hi => h i (.div₂ hi)]
  | pow a b iha ihb => simp only [Ast.bind, evalNode]; rw [iha fun i hi => h i (.pow₁ hi), ihb fun i hi => h i (.pow₂ hi)]

/-- Evaluating a text with replaced names. -/
theorem evalText_subst {leaf leaf' : List Char → Except Err K} {s : List Sym} {e : Ast EAtom} (he : readText s = .ok e)
    (h : ∀ i, .leaf i ∈ s → leaf' i = if g i then (leaf (f i)).map (- ·) else leaf (f i)) :
    evalText leaf (s.flatMap (Sym.subst g f)) = evalText leaf' s := by
  unfold evalText
  rw [readText_subst he, he]
  refine evalNode_subst e fun i hi => h i ?_
  unfold readText at he
  cases hl : lexer [] (prepare s) with
  | error e => rw [hl] at he; cases he
  | ok ts =>
    rw [hl] at he
    exact prepare_leaf (lexer_mem i _ _ ts hl (((C81_grammar ts e).1 he).has hi))

end Lips

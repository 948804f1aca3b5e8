import Verif.Props.EvalText

/-!
A text of ordinary arithmetic in which some quotients of two numbers are taken for fractions first.
-/

namespace Lips

/-- A token without fractions. -/
def flatTok : Tok EAtom → List (Tok EAtom)
  | .atom (.rat a b) => [.atom (.num a), .slash, .atom (.num b)]
  | t => [t]

theorem flat_syms (gs : List (Tok EAtom)) : (gs.flatMap flatTok).flatMap tokSyms = gs.flatMap tokSyms := by
  induction gs with
  | nil => rfl
  | cons t gs ih =>
    rw [List.flatMap_cons, List.flatMap_append, ih, List.flatMap_cons]
    congr 1
    rcases t with (k | ⟨a, b⟩ | i) | _ | _ | _ | _ | _ | _ | _ <;> simp [flatTok, tokSyms, chs]

/-- Is the last token a power sign; `d` answers for the empty text. -/
def endsPower (d : Bool) (ts : List (Tok EAtom)) : Bool := ts.foldl (fun _ t => decide (t = .dstar)) d

/-- The last token that is not a sign. -/
def lastOp (o : Option (Tok EAtom)) (ts : List (Tok EAtom)) : Option (Tok EAtom) :=
  ts.foldl (fun o t => if t = .plus ∨ t = .minus then o else some t) o

/-- A text in which every quotient of two integer literals is one that may be taken first: it is no divisor and no
exponent, and not itself raised to a power. A literal of one digit that is directly an exponent is allowed. -/
def Clear (ts : List (Tok EAtom)) : Prop :=
  ∀ pre a b post, ts = pre ++ .atom (.num a) :: .slash :: .atom (.num b) :: post →
    (endsPower false pre = true ∧ a < 10) ∨
    (lastOp none pre ≠ some .slash ∧ lastOp none pre ≠ some .dstar ∧ post.head? ≠ some .dstar)

theorem endsPower_append (d : Bool) (xs ys : List (Tok EAtom)) : endsPower d (xs ++ ys) = endsPower (endsPower d xs) ys :=
  List.foldl_append

theorem lastOp_append (o : Option (Tok EAtom)) (xs ys : List (Tok EAtom)) : lastOp o (xs ++ ys) = lastOp (lastOp o xs) ys :=
  List.foldl_append

theorem endsPower_flat (d : Bool) (gs : List (Tok EAtom)) : endsPower d (gs.flatMap flatTok) = endsPower d gs := by
  induction gs generalizing d with
  | nil => rfl
  | cons t gs ih =>
    rw [List.flatMap_cons, endsPower_append, ih]
    rcases t with (k | ⟨a, b⟩ | i) | _ | _ | _ | _ | _ | _ | _ <;> simp [flatTok, endsPower]

theorem endsPower_lastOp (pre : List (Tok EAtom)) (h : endsPower false pre = true) : lastOp none pre = some .dstar := by
  cases pre using List.reverseRecOn with
  | nil => simp [endsPower] at h
  | append_singleton xs x =>
    simp [endsPower] at h
    subst h
    simp [lastOp]

/-! ### Composing -/

theorem numbersOk_append (d : Bool) (xs ys : List (Tok EAtom)) (o : Tok EAtom) (ho : ∀ x, o ≠ .atom x) (hx : NumbersOk d xs)
    (hy : NumbersOk (o = .dstar) ys) (hb : o = .slash → ∀ zs k u us, xs = zs ++ [.atom (.num k)] → ys = u :: us → u.Digits →
      endsPower d zs = true ∧ k < 10) : NumbersOk d (xs ++ o :: ys) := by
  induction xs generalizing d with
  | nil => exact ⟨fun k hk => absurd hk (ho _), fun a b h => absurd h (ho _), hy⟩
  | cons x xs ih =>
    obtain ⟨h1, h2, h3⟩ := hx
    refine ⟨fun k hk hs => ?_, h2, ih _ h3 ?_⟩
    · obtain ⟨u, us, hs, hu⟩ := hs
      match xs, hs with
      | [], hs =>
        simp at hs
        exact hb hs.1 [] k u us (by simp [hk]) hs.2 hu
      | [w], hs =>
        simp at hs
        obtain ⟨rfl, rfl, rfl⟩ := hs
        rcases hc : o with x | _ | _ | _ | _ | _ | _ | _
        · exact absurd hc (ho x)
        all_goals rw [hc] at hu; exact hu.elim
      | w :: v :: vs, hs =>
        simp at hs
        exact h1 k hk ⟨v, vs, by rw [hs.1], by rw [hs.2.1]; exact hu⟩
    · intro hsl zs k u us hxs hys hu
      exact hb hsl (x :: zs) k u us (by rw [hxs]; rfl) hys hu

theorem numbersOk_last (d : Bool) (vs : List (Tok EAtom)) (k c : ℕ) (h : NumbersOk d (vs ++ [.atom (.num k)]))
    (hd : endsPower d vs = false) : NumbersOk d (vs ++ [.atom (.rat k c)]) := by
  induction vs generalizing d with
  | nil => exact ⟨by simp, fun _ _ _ => hd, trivial⟩
  | cons x vs ih =>
    obtain ⟨h1, h2, h3⟩ := h
    refine ⟨fun m hm hs => ?_, h2, ih _ h3 hd⟩
    obtain ⟨u, us, hs, hu⟩ := hs
    match vs, hs with
    | [], hs => simp at hs
    | [w], hs =>
      simp at hs
      exact h1 m hm ⟨.atom (.num k), [], by simp [hs.1], trivial⟩
    | w :: v :: vs, hs =>
      simp at hs
      exact h1 m hm ⟨v, vs ++ [.atom (.num k)], by simp [hs.1], by rw [hs.2.1]; exact hu⟩

/-- Phrases that bind tighter than a product. -/
def Level.Tight : Level → Prop
  | .atom => True
  | .power => True
  | .factor => True
  | _ => False

/-- A tight phrase that ends in a number is that number after signs, or has a power sign before the number and its
signs. -/
theorem tight_last {L : Level} {us : List (Tok EAtom)} {e : Ast EAtom} (h : Reads L us e) (hL : L.Tight)
    (ws : List (Tok EAtom)) (k : ℕ) (hu : us = ws ++ [.atom (.num k)]) (o : Option (Tok EAtom)) :
    lastOp o ws = o ∨ lastOp o ws = some .dstar := by
  induction h generalizing ws o with
  | atom x =>
    cases ws with
    | nil => exact Or.inl rfl
    | cons => simp at hu
  | paren _ _ =>
    rw [← List.cons_append] at hu
    have := congrArg List.getLast? hu
    rw [List.getLast?_concat, List.getLast?_concat] at this
    cases this
  | ofAtom _ ih => exact ih trivial ws hu o
  | @pow ts us a b h1 h2 ih1 ih2 =>
    obtain ⟨t, us', rfl⟩ : ∃ t us', us = us' ++ [t] := by
      have := h2.shape.ne
      exact ⟨_, _, (List.dropLast_append_getLast this).symm⟩
    rw [← List.cons_append, ← List.append_assoc] at hu
    obtain ⟨rfl, h⟩ := List.append_inj' hu rfl
    simp at h
    subst h
    right
    rw [lastOp_append]
    have := ih2 trivial us' rfl (some .dstar)
    simpa [lastOp] using this
  | ofPower _ ih => exact ih trivial ws hu o
  | neg _ ih =>
    cases ws with
    | nil => simp at hu
    | cons w ws =>
      simp at hu
      obtain ⟨rfl, hu⟩ := hu
      have := ih trivial ws hu o
      simpa [lastOp] using this
  | pos _ ih =>
    cases ws with
    | nil => simp at hu
    | cons w ws =>
      simp at hu
      obtain ⟨rfl, hu⟩ := hu
      have := ih trivial ws hu o
      simpa [lastOp] using this
  | ofFactor => exact hL.elim
  | mul => exact hL.elim
  | div => exact hL.elim
  | ofTerm => exact hL.elim
  | add => exact hL.elim
  | sub => exact hL.elim

/-- A tight phrase that begins with a number is that number or a power of it. -/
theorem tight_first {L : Level} {us : List (Tok EAtom)} {e : Ast EAtom} (h : Reads L us e) (hL : L.Tight)
    (x : EAtom) (ws : List (Tok EAtom)) (hu : us = .atom x :: ws) :
    (ws = [] ∧ e = .atom x) ∨ (L ≠ .atom ∧ ws.head? = some .dstar) := by
  induction h generalizing ws with
  | atom y => simp at hu; left; simp [hu]
  | paren _ _ => simp at hu
  | ofAtom _ ih => rcases ih trivial ws hu with h | h <;> simp_all
  | @pow ts us a b h1 h2 ih1 ih2 =>
    obtain ⟨t, ts', rfl⟩ := List.exists_cons_of_ne_nil h1.shape.ne
    simp at hu
    obtain ⟨rfl, rfl⟩ := hu
    rcases ih1 trivial ts' rfl with h | h
    · right; simp [h]
    · simp at h
  | ofPower _ ih => rcases ih trivial ws hu with h | h <;> simp_all
  | neg _ ih => simp at hu
  | pos _ ih => simp at hu
  | ofFactor => exact hL.elim
  | mul => exact hL.elim
  | div => exact hL.elim
  | ofTerm => exact hL.elim
  | add => exact hL.elim
  | sub => exact hL.elim

/-! ### Grouping -/

variable {K : Type*} [Field K]

/-- The value of an atom: numbers are themselves, a fraction is the quotient. -/
noncomputable def atomValue (leaf : List Char → Option K) : EAtom → Option K
  | .num k => some k
  | .rat a b => quotient (a : K) (b : K)
  | .leaf i => leaf i

/-- The integer value of an atom. -/
def atomInt : EAtom → Option ℤ
  | .num k => some k
  | _ => none

/-- The text `ts` of `e`, grouped to `gs` of `e'`. -/
structure Grouping (leaf : List Char → Option K) (L : Level) (d : Bool) (ts : List (Tok EAtom)) (e : Ast EAtom) (gs : List (Tok EAtom))
    (e' : Ast EAtom) : Prop where
  flat : gs.flatMap flatTok = ts
  reads : Reads L gs e'
  ok : NumbersOk d gs
  value : e'.value (atomValue leaf) atomInt = e.value (atomValue leaf) atomInt
  int : e'.int atomInt = e.int atomInt

/-- The text ends in a number that could be divided by another one. -/
def Extends (leaf : List Char → Option K) (L : Level) (ctx ts : List (Tok EAtom)) (e : Ast EAtom) (gs : List (Tok EAtom)) : Prop :=
  ∀ vs k, gs = vs ++ [.atom (.num k)] → endsPower (endsPower false ctx) vs = false → ∀ (c : ℕ) (post : List (Tok EAtom)),
    Clear (ctx ++ ts ++ .slash :: .atom (.num c) :: post) → ∃ e2, Reads L (vs ++ [.atom (.rat k c)]) e2 ∧
      e2.value (atomValue leaf) atomInt = (e.value (atomValue leaf) atomInt).bind (fun x => quotient x (c : K)) ∧
      e2.int atomInt = none

omit [Field K] in
theorem snoc_of_append {α : Type*} {xs ys vs : List α} {o z : α} (h : xs ++ o :: ys = vs ++ [z]) (hy : ys ≠ []) :
    ∃ ws, ys = ws ++ [z] ∧ vs = xs ++ o :: ws := by
  obtain ⟨t, ys', rfl⟩ : ∃ t ys', ys = ys' ++ [t] := ⟨_, _, (List.dropLast_append_getLast hy).symm⟩
  rw [← List.cons_append, ← List.append_assoc] at h
  obtain ⟨h1, h2⟩ := List.append_inj' h rfl
  simp at h2
  exact ⟨ys', by rw [h2], h1.symm⟩

theorem flat_nil {gs : List (Tok EAtom)} (h : gs.flatMap flatTok = []) : gs = [] := by
  cases gs with
  | nil => rfl
  | cons t gs => rcases t with (k | ⟨a, b⟩ | i) | _ | _ | _ | _ | _ | _ | _ <;> simp [flatTok] at h

theorem quotient_mul (x y c : K) : (quotient y c).map (x * ·) = quotient (x * y) c := by
  unfold quotient
  split_ifs <;> simp [mul_div_assoc]

theorem quotient_neg (y c : K) : (quotient y c).map (- ·) = quotient (-y) c := by
  unfold quotient
  split_ifs <;> simp [neg_div]

/-- Every clear text of ordinary arithmetic is also a text in which quotients of literals are fractions, with the same
value. -/
theorem grouping (leaf : List Char → Option K) {L : Level} {ts : List (Tok EAtom)} {e : Ast EAtom} (h : Reads L ts e) :
    (∀ a b, .atom (.rat a b) ∉ ts) → ∀ ctx post, Clear (ctx ++ ts ++ post) →
    ∃ gs e', Grouping leaf L (endsPower false ctx) ts e gs e' ∧ (L ≠ .expr → Extends leaf L ctx ts e gs) := by
  induction h with
  | atom x =>
    intro hr ctx post hc
    refine ⟨[.atom x], .atom x, ⟨?_, .atom x, ?_, rfl, rfl⟩, fun _ => ?_⟩
    · rcases x with k | ⟨a, b⟩ | i <;> first | rfl | exact absurd (by simp) (hr a b)
    · exact ⟨by simp, fun a b h => absurd (by simp [h]) (hr a b), trivial⟩
    · intro vs k hvs hd c post' hc'
      cases vs with
      | cons => simp at hvs
      | nil =>
        simp at hvs
        subst hvs
        exact ⟨.atom (.rat k c), .atom _, rfl, rfl⟩
  | @paren ts e h ih =>
    intro hr ctx post hc
    obtain ⟨gs, e', hg, -⟩ := ih (fun a b hm => hr a b (by simp [hm])) (ctx ++ [.lpar]) ([.rpar] ++ post) (by simpa using hc)
    refine ⟨.lpar :: (gs ++ [.rpar]), e', ⟨?_, .paren hg.reads, ?_, hg.value, hg.int⟩, fun _ => ?_⟩
    · simp [flatTok, hg.flat]
    · refine ⟨by simp, by simp, ?_⟩
      have := hg.ok
      rw [endsPower_append] at this
      exact numbersOk_append _ _ [] .rpar (by simp) this trivial (by simp)
    · intro vs k hvs
      rw [← List.cons_append] at hvs
      have := congrArg List.getLast? hvs
      rw [List.getLast?_concat, List.getLast?_concat] at this
      cases this
  | ofAtom _ ih =>
    intro hr ctx post hc
    obtain ⟨gs, e', hg, he⟩ := ih hr ctx post hc
    refine ⟨gs, e', ⟨hg.flat, .ofAtom hg.reads, hg.ok, hg.value, hg.int⟩, fun _ vs k hvs hd c post' hc' => ?_⟩
    obtain ⟨e2, h1, h2⟩ := he (by simp) vs k hvs hd c post' hc'
    exact ⟨e2, .ofAtom h1, h2⟩
  | @pow ts us a b h1 h2 ih1 ih2 =>
    intro hr ctx post hc
    obtain ⟨gs, e', hg, -⟩ := ih1 (fun a b hm => hr a b (by simp [hm])) ctx (.dstar :: us ++ post) (by simpa using hc)
    obtain ⟨gs', e'', hg', -⟩ := ih2 (fun a b hm => hr a b (by simp [hm])) (ctx ++ ts ++ [.dstar]) post (by simpa using hc)
    refine ⟨gs ++ .dstar :: gs', .pow e' e'', ⟨?_, .pow hg.reads hg'.reads, ?_, ?_, ?_⟩, fun _ => ?_⟩
    · simp [flatTok, hg.flat, hg'.flat]
    · refine numbersOk_append _ _ _ _ (by simp) hg.ok ?_ (by simp)
      have := hg'.ok
      rw [endsPower_append] at this
      simpa [endsPower] using this
    · simp [Ast.value, hg.value, hg'.int]
    · simp [Ast.int, hg.int, hg'.int]
    · intro vs k hvs hd c post' hc'
      exfalso
      obtain ⟨ws, hws, rfl⟩ := snoc_of_append hvs hg'.reads.shape.ne
      have hus : us = ws.flatMap flatTok ++ [.atom (.num k)] := by rw [← hg'.flat, hws]; simp [flatTok]
      have := hc' (ctx ++ ts ++ .dstar :: ws.flatMap flatTok) k c post' (by rw [hus]; simp)
      rcases this with ⟨h, -⟩ | ⟨-, h, -⟩
      · rw [List.append_assoc, endsPower_append, ← hg.flat] at h
        have e : (gs.flatMap flatTok ++ .dstar :: ws.flatMap flatTok) = (gs ++ .dstar :: ws).flatMap flatTok := by
          simp [flatTok]
        rw [e, endsPower_flat, hd] at h
        cases h
      · apply h
        rw [lastOp_append]
        have := tight_last h2 trivial _ k hus (some .dstar)
        simpa [lastOp] using this
  | ofPower _ ih =>
    intro hr ctx post hc
    obtain ⟨gs, e', hg, he⟩ := ih hr ctx post hc
    refine ⟨gs, e', ⟨hg.flat, .ofPower hg.reads, hg.ok, hg.value, hg.int⟩, fun _ vs k hvs hd c post' hc' => ?_⟩
    obtain ⟨e2, h1, h2⟩ := he (by simp) vs k hvs hd c post' hc'
    exact ⟨e2, .ofPower h1, h2⟩
  | @neg ts e h ih =>
    intro hr ctx post hc
    obtain ⟨gs, e', hg, he⟩ := ih (fun a b hm => hr a b (by simp [hm])) (ctx ++ [.minus]) post (by simpa using hc)
    refine ⟨.minus :: gs, .neg e', ⟨?_, .neg hg.reads, ?_, ?_, ?_⟩, fun _ vs k hvs hd c post' hc' => ?_⟩
    · simp [flatTok, hg.flat]
    · refine ⟨by simp, by simp, ?_⟩
      have := hg.ok
      rw [endsPower_append] at this
      exact this
    · simp [Ast.value, hg.value]
    · simp [Ast.int, hg.int]
    · obtain ⟨ws, hws, rfl⟩ := snoc_of_append (xs := []) hvs hg.reads.shape.ne
      obtain ⟨e2, h1, h2, h3⟩ := he (by simp) ws k hws (by rw [endsPower_append]; exact hd) c post' (by simpa using hc')
      refine ⟨.neg e2, .neg h1, ?_, by simp [Ast.int, h3]⟩
      simp only [Ast.value, h2]
      cases e.value (atomValue leaf) atomInt with
      | none => rfl
      | some x => exact quotient_neg x c
  | @pos ts e h ih =>
    intro hr ctx post hc
    obtain ⟨gs, e', hg, he⟩ := ih (fun a b hm => hr a b (by simp [hm])) (ctx ++ [.plus]) post (by simpa using hc)
    refine ⟨.plus :: gs, .pos e', ⟨?_, .pos hg.reads, ?_, ?_, ?_⟩, fun _ vs k hvs hd c post' hc' => ?_⟩
    · simp [flatTok, hg.flat]
    · refine ⟨by simp, by simp, ?_⟩
      have := hg.ok
      rw [endsPower_append] at this
      exact this
    · simp [Ast.value, hg.value]
    · simp [Ast.int, hg.int]
    · obtain ⟨ws, hws, rfl⟩ := snoc_of_append (xs := []) hvs hg.reads.shape.ne
      obtain ⟨e2, h1, h2, h3⟩ := he (by simp) ws k hws (by rw [endsPower_append]; exact hd) c post' (by simpa using hc')
      exact ⟨.pos e2, .pos h1, h2, h3⟩
  | ofFactor _ ih =>
    intro hr ctx post hc
    obtain ⟨gs, e', hg, he⟩ := ih hr ctx post hc
    refine ⟨gs, e', ⟨hg.flat, .ofFactor hg.reads, hg.ok, hg.value, hg.int⟩, fun _ vs k hvs hd c post' hc' => ?_⟩
    obtain ⟨e2, h1, h2⟩ := he (by simp) vs k hvs hd c post' hc'
    exact ⟨e2, .ofFactor h1, h2⟩
  | @mul ts us a b h1 h2 ih1 ih2 =>
    intro hr ctx post hc
    obtain ⟨gs, e', hg, -⟩ := ih1 (fun a b hm => hr a b (by simp [hm])) ctx (.star :: us ++ post) (by simpa using hc)
    obtain ⟨gs', e'', hg', he⟩ := ih2 (fun a b hm => hr a b (by simp [hm])) (ctx ++ ts ++ [.star]) post (by simpa using hc)
    have hst : endsPower false (ctx ++ ts ++ [.star]) = false := by rw [endsPower_append]; rfl
    refine ⟨gs ++ .star :: gs', .mul e' e'', ⟨?_, .mul hg.reads hg'.reads, ?_, ?_, ?_⟩, fun _ vs k hvs hd c post' hc' => ?_⟩
    · simp [flatTok, hg.flat, hg'.flat]
    · exact numbersOk_append _ _ _ _ (by simp) hg.ok (by have := hg'.ok; rw [hst] at this; simpa using this) (by simp)
    · simp [Ast.value, hg.value, hg'.value]
    · simp [Ast.int, hg.int, hg'.int]
    · obtain ⟨ws, hws, rfl⟩ := snoc_of_append hvs hg'.reads.shape.ne
      obtain ⟨e2, k1, k2, k3⟩ := he (by simp) ws k hws (by
        rw [hst]; rw [endsPower_append] at hd; exact hd) c post' (by simpa using hc')
      refine ⟨.mul e' e2, by simpa using Reads.mul hg.reads k1, ?_, ?_⟩
      · simp only [Ast.value, k2, hg.value]
        cases a.value (atomValue leaf) atomInt with
        | none => rfl
        | some x =>
          cases b.value (atomValue leaf) atomInt with
          | none => rfl
          | some y => exact quotient_mul x y c
      · simp [Ast.int, k3]
  | @div ts us a b h1 h2 ih1 ih2 =>
    intro hr ctx post hc
    obtain ⟨gs, e', hg, he⟩ := ih1 (fun a b hm => hr a b (by simp [hm])) ctx (.slash :: us ++ post) (by simpa using hc)
    by_cases hcase : (∃ vs k, gs = vs ++ [.atom (.num k)] ∧ endsPower (endsPower false ctx) vs = false) ∧
        ∃ c, us = [.atom (.num c)]
    · -- the quotient is taken first
      obtain ⟨⟨vs, k, hvs, hd⟩, c, rfl⟩ := hcase
      obtain ⟨e2, k1, k2, k3⟩ := he (by simp) vs k hvs hd c post (by simpa using hc)
      have hb : b = .atom (.num c) := by
        rcases tight_first h2 trivial (.num c) [] rfl with h | h
        · exact h.2
        · simp at h
      refine ⟨vs ++ [.atom (.rat k c)], e2, ⟨?_, k1, ?_, ?_, ?_⟩, fun _ ws m hws => ?_⟩
      · rw [← hg.flat, hvs]; simp [flatTok]
      · exact numbersOk_last _ _ _ _ (by rw [← hvs]; exact hg.ok) hd
      · rw [k2, hb]; rfl
      · rw [k3]; rfl
      · have := (List.append_inj' hws rfl).2
        simp at this
    · obtain ⟨gs', e'', hg', -⟩ := ih2 (fun a b hm => hr a b (by simp [hm])) (ctx ++ ts ++ [.slash]) post (by simpa using hc)
      have hst : endsPower false (ctx ++ ts ++ [.slash]) = false := by rw [endsPower_append]; rfl
      refine ⟨gs ++ .slash :: gs', .div e' e'', ⟨?_, .div hg.reads hg'.reads, ?_, ?_, ?_⟩, fun _ vs k hvs hd c post' hc' => ?_⟩
      · simp [flatTok, hg.flat, hg'.flat]
      · refine numbersOk_append _ _ _ _ (by simp) hg.ok (by have := hg'.ok; rw [hst] at this; simpa using this) fun _ zs k u us' hzs hgs hu => ?_
        obtain ⟨c, us2, hus⟩ : ∃ c us2, us = .atom (.num c) :: us2 := by
          rw [← hg'.flat, hgs]
          rcases u with (c | ⟨x, y⟩ | i) | _ | _ | _ | _ | _ | _ | _ <;>
            first | exact hu.elim | exact ⟨_, _, by simp [flatTok]; exact ⟨rfl, rfl⟩⟩
        have hts : ts = zs.flatMap flatTok ++ [.atom (.num k)] := by rw [← hg.flat, hzs]; simp [flatTok]
        have := hc (ctx ++ zs.flatMap flatTok) k c (us2 ++ post) (by rw [hts, hus]; simp)
        rw [endsPower_append, endsPower_flat] at this
        rcases this with h | ⟨-, h, hp⟩
        · exact h
        · exfalso
          rcases tight_first h2 trivial _ _ hus with ⟨rfl, -⟩ | ⟨-, h3⟩
          · refine hcase ⟨⟨zs, k, hzs, ?_⟩, c, hus⟩
            by_contra hne
            refine h (endsPower_lastOp _ ?_)
            rw [endsPower_append, endsPower_flat]
            simpa using hne
          · apply hp
            rw [List.head?_append, h3]; rfl
      · simp [Ast.value, hg.value, hg'.value]
      · simp [Ast.int]
      · exfalso
        obtain ⟨ws, hws, rfl⟩ := snoc_of_append hvs hg'.reads.shape.ne
        have hus : us = ws.flatMap flatTok ++ [.atom (.num k)] := by rw [← hg'.flat, hws]; simp [flatTok]
        have := hc' (ctx ++ ts ++ .slash :: ws.flatMap flatTok) k c post' (by rw [hus]; simp)
        rcases this with ⟨h, -⟩ | ⟨h, h', -⟩
        · rw [List.append_assoc, endsPower_append, ← hg.flat] at h
          have e : (gs.flatMap flatTok ++ .slash :: ws.flatMap flatTok) = (gs ++ .slash :: ws).flatMap flatTok := by
            simp [flatTok]
          rw [e, endsPower_flat, hd] at h
          cases h
        · rw [lastOp_append] at h h'
          have := tight_last h2 trivial _ k hus (some .slash)
          rcases this with h3 | h3
          · exact h (by simpa [lastOp] using h3)
          · exact h' (by simpa [lastOp] using h3)
  | ofTerm _ ih =>
    intro hr ctx post hc
    obtain ⟨gs, e', hg, -⟩ := ih hr ctx post hc
    exact ⟨gs, e', ⟨hg.flat, .ofTerm hg.reads, hg.ok, hg.value, hg.int⟩, fun h => absurd rfl h⟩
  | @add ts us a b h1 h2 ih1 ih2 =>
    intro hr ctx post hc
    obtain ⟨gs, e', hg, -⟩ := ih1 (fun a b hm => hr a b (by simp [hm])) ctx (.plus :: us ++ post) (by simpa using hc)
    obtain ⟨gs', e'', hg', -⟩ := ih2 (fun a b hm => hr a b (by simp [hm])) (ctx ++ ts ++ [.plus]) post (by simpa using hc)
    have hst : endsPower false (ctx ++ ts ++ [.plus]) = false := by rw [endsPower_append]; rfl
    refine ⟨gs ++ .plus :: gs', .add e' e'', ⟨?_, .add hg.reads hg'.reads, ?_, ?_, ?_⟩, fun h => absurd rfl h⟩
    · simp [flatTok, hg.flat, hg'.flat]
    · exact numbersOk_append _ _ _ _ (by simp) hg.ok (by have := hg'.ok; rw [hst] at this; simpa using this) (by simp)
    · simp [Ast.value, hg.value, hg'.value]
    · simp [Ast.int, hg.int, hg'.int]
  | @sub ts us a b h1 h2 ih1 ih2 =>
    intro hr ctx post hc
    obtain ⟨gs, e', hg, -⟩ := ih1 (fun a b hm => hr a b (by simp [hm])) ctx (.minus :: us ++ post) (by simpa using hc)
    obtain ⟨gs', e'', hg', -⟩ := ih2 (fun a b hm => hr a b (by simp [hm])) (ctx ++ ts ++ [.minus]) post (by simpa using hc)
    have hst : endsPower false (ctx ++ ts ++ [.minus]) = false := by rw [endsPower_append]; rfl
    refine ⟨gs ++ .minus :: gs', .sub e' e'', ⟨?_, .sub hg.reads hg'.reads, ?_, ?_, ?_⟩, fun h => absurd rfl h⟩
    · simp [flatTok, hg.flat, hg'.flat]
    · exact numbersOk_append _ _ _ _ (by simp) hg.ok (by have := hg'.ok; rw [hst] at this; simpa using this) (by simp)
    · simp [Ast.value, hg.value, hg'.value]
    · simp [Ast.int, hg.int, hg'.int]

end Lips

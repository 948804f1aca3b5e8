import Verif.Model.PairAll
import Verif.Props.SetPairStops
import Verif.Props.PairND
import Verif.Props.Pair3S
import Verif.Props.PairDelta

/-! Property C101: `_set_pair` as a whole. -/

namespace Lips

set_option linter.unusedSectionVars false
set_option linter.unusedTactic false

variable {K Γ : Type*} [Field K] [LinearOrder Γ] {n : ℕ}

/-- The kinds of texts that `_set_pair_inner` tells apart. -/
inductive InvKind
  | two | three | nb | mandel | delta | other
deriving DecidableEq

def Inv.kind : Inv n → InvKind
  | .two .. => .two
  | .three _ => .three
  | .nb _ => .nb
  | .mandel _ => .mandel
  | .delta _ => .delta
  | .other => .other

/-- The pairs of kinds that are looked up in a table of texts. -/
def Tabled (x y : Inv n) : Prop :=
  (x.kind = .nb ∧ y.kind = .nb) ∨ (x.kind = .nb ∧ y.kind = .delta) ∨ (x.kind = .delta ∧ y.kind = .nb)

theorem plan33_again {longer : Bool} {t u : T3 n} (h : plan33 longer t u = .again) : swaps33 t u := by
  unfold plan33 at h
  simp only at h
  split at h
  · split at h <;> cases h
  · rename_i h1
    split at h
    · split at h <;> cases h
    · rename_i h2
      split at h
      · rename_i h3
        exact ⟨h1, h2, h3⟩
      · split at h
        · cases h
        · split at h <;> cases h

/-- A recursive call of the model is one of those of `pairStep`. -/
theorem pairInner_none {E : PairEnv K Γ} {ps : Point K n} : ∀ {k : ℕ} {s₁ s₂ : String} {x y : Req n K},
    pairInner E ps k s₁ s₂ x y = none → ¬ Tabled x.1 y.1 → pairIter k (x, y) ≠ none := by
  intro k
  induction k with
  | zero => intro s₁ s₂ x y _ _; simp [pairIter]
  | succ k ih =>
    intro s₁ s₂ ⟨x, v⟩ ⟨y, w⟩ h ht
    unfold pairInner at h
    by_cases hb : (x.blank || y.blank) = true
    · rw [if_pos hb] at h; cases h
    rw [if_neg hb] at h
    have hb' : ¬ ((((x, v) : Req n K).1.blank || ((y, w) : Req n K).1.blank) = true) := hb
    have step : pairStep ((x, v), (y, w)) = dispatchPair (x, v) (y, w) := by unfold pairStep; rw [if_neg hb']
    rw [pairIter, step]
    rcases x with ⟨p, a, b⟩ | t | t | A | d | _ <;> rcases y with ⟨q, a', b'⟩ | u | u | B | d' | _ <;> simp only at h <;>
      first
      | exact absurd h (by simp)
      | exact absurd ⟨rfl, rfl⟩ (fun q => ht (.inl q))
      | exact absurd ⟨rfl, rfl⟩ (fun q => ht (.inr (.inl q)))
      | exact absurd ⟨rfl, rfl⟩ (fun q => ht (.inr (.inr q)))
      | exact ih h (by unfold Tabled; simp [Inv.kind])
      | skip
    · -- two three-brackets
      rcases hp : pair33 E.c E.T E.longer ps t v u w with _ | r
      · rw [hp] at h
        have hs : swaps33 (norm33 t u).1 (norm33 t u).2 := by
          unfold pair33 at hp
          rcases hn : norm33 t u with ⟨t', u'⟩
          rw [hn] at hp
          simp only at hp
          rcases hq : plan33 E.longer t' u' with _ | _ | _ | _ <;> rw [hq] at hp <;> simp only at hp <;> try cases hp
          exact plan33_again hq
        simp only [dispatchPair, step33, if_pos hs, Option.bind_some]
        exact ih h (by unfold Tabled; simp [Inv.kind])
      · rw [hp] at h; cases h
    · -- two Mandelstams
      rcases hp : stepSS A v B w with ⟨A', v', B', w', p, q⟩ | ⟨C, v', D, w'⟩
      · rw [hp] at h
        simp only at h
        unfold pairSS at h
        rw [hp] at h
        cases h
      · rw [hp] at h
        simp only [dispatchPair, hp, Option.bind_some]
        exact ih h (by unfold Tabled; simp [Inv.kind])

/-- **C101.** From five particles on the method answers after at most four recursive calls, except that a text in the
table may take more steps to read. -/
theorem C101_answers (hn : 5 ≤ n) (E : PairEnv K Γ) (ps : Point K n) (s₁ s₂ : String) (x y : Req n K)
    (hx : ∀ ls, x.1 = .mandel ls → ls.Nodup) (hy : ∀ ls, y.1 = .mandel ls → ls.Nodup) (ht : ¬ Tabled x.1 y.1) :
    pairInner E ps 5 s₁ s₂ x y ≠ none := fun h => pairInner_none h ht (C71_stops hn x y hx hy)

/-- **C101.** The order of two invariants of different kinds does not matter to `_set_pair_inner`. -/
theorem C101_order (E : PairEnv K Γ) (ps : Point K n) (k : ℕ) (s₁ s₂ : String) (x y : Req n K) (h : x.1.kind ≠ y.1.kind) :
    pairInner E ps (k + 2) s₁ s₂ x y = pairInner E ps (k + 2) s₂ s₁ y x := by
  obtain ⟨x, v⟩ := x
  obtain ⟨y, w⟩ := y
  unfold pairInner
  by_cases hb : (x.blank || y.blank) = true
  · rw [if_pos hb, if_pos (by rw [Bool.or_comm]; exact hb)]
  rw [if_neg hb, if_neg (by rw [Bool.or_comm]; exact hb)]
  have hb' : ¬ (y.blank || x.blank) = true := by rw [Bool.or_comm]; exact hb
  rcases x with ⟨p, a, b⟩ | t | t | A | d | _ <;> rcases y with ⟨q, a', b'⟩ | u | u | B | d' | _ <;>
    first
    | exact absurd rfl h
    | rfl
    | (simp only; unfold pairInner; simp only [if_neg hb]; done)
    | (simp only; unfold pairInner; simp only [if_neg hb']; done)

/-- The answer `Not implemented.`, read off the two invariants. -/
def Unimplemented (s₁ s₂ : String) (x y : Inv n) : Prop :=
  (x.blank || y.blank) = false ∧
  match x, y with
  | .three _, .nb _ | .nb _, .three _ | .nb _, .mandel _ | .mandel _, .nb _ | .delta _, .delta _ => True
  | .nb _, .nb _ => ∀ z ∈ hardStrings, ¬ (z.first = s₁ ∧ z.second = s₂)
  | .nb _, .delta _ => ∀ z ∈ hardDelta, ¬ (z.first = s₁ ∧ z.second = s₂)
  | .delta _, .nb _ => ∀ z ∈ hardDelta, ¬ (z.first = s₂ ∧ z.second = s₁)
  | .three t, .delta L | .delta L, .three t => ∃ A B C, L = [A, B, C] ∧ order3D t [A, B, C] = .ok none
  | .mandel S, .delta L | .delta L, .mandel S => ∃ A B C, L = [A, B, C] ∧ chooseCorners S ![A, B, C] = none
  | _, _ => False

theorem map_set_ne {r : Except Err (Point K n)} : (some (r.map PairOut.set) = some (Except.ok PairOut.notImplemented)) = False := by
  rcases r with e | ps <;> simp [Except.map]

theorem tableSet_not {r : Option (Except Err (Option (Point K n)))} :
    tableSet r = some (.ok .notImplemented) ↔ r = some (.ok none) := by
  rcases r with _ | e | _ | ps <;> simp [tableSet, Except.map]

theorem optSet_not {r : Option (Except Err (Point K n))} : optSet r = .ok .notImplemented ↔ r = none := by
  rcases r with _ | e | ps <;> simp [optSet, Except.map]

theorem pair3D_none {c : Ctx K} {T : Tol K Γ} {ps : Point K n} {t : T3 n} {v : K} {L : Corners n} {w : K} :
    pair3D c T ps t v L w = none ↔ order3D t [L 0, L 1, L 2] = .ok none := by
  unfold pair3D
  split <;> simp_all

theorem pairSD_none {c : Ctx K} {root : K → Option K} {ps : Point K n} {S : List (Fin n)} {v : K} {L : Corners n} {w : K} :
    pairSD c root ps S v L w = none ↔ chooseCorners S L = none := by
  unfold pairSD
  rcases chooseCorners S L with _ | ⟨i, j⟩ <;> simp

theorem cornersOf_cases (L : List (List (Fin n))) : (∃ A B C, L = [A, B, C]) ∨ cornersOf L = none := by
  unfold cornersOf
  split
  · exact .inl ⟨_, _, _, rfl⟩
  · exact .inr rfl

theorem pairHard_not {table : List HardPair} {abs : K → Γ} {tol : Γ} {c : Ctx K} {fuel : ℕ} {ps : Point K n} {s₁ s₂ : String}
    {v w : K} : pairHard table abs tol c fuel ps s₁ v s₂ w = some (.ok none) ↔
      ∀ z ∈ table, ¬ (z.first = s₁ ∧ z.second = s₂) := by
  unfold pairHard
  rcases hf : table.find? (fun h => decide (h.first = s₁ ∧ h.second = s₂)) with _ | z <;> rw [hf]
  · refine iff_of_true rfl fun z hz => ?_
    have := List.find?_eq_none.mp hf z hz
    simpa only [decide_eq_true_eq] using this
  · have h1 := List.find?_some hf
    have h2 := List.mem_of_find?_eq_some hf
    simp only [decide_eq_true_eq] at h1
    constructor
    · intro h
      exfalso
      simp only at h
      rcases hr : z.run abs tol c fuel v w ps with _ | e | r <;> rw [hr] at h <;> simp [Except.map] at h
    · intro h
      exact absurd h1 (h z h2)

/-- Two three-brackets, or two Mandelstam invariants: always implemented. -/
theorem pairInner_same {E : PairEnv K Γ} {ps : Point K n} : ∀ {k : ℕ} {s₁ s₂ : String} {x y : Req n K},
    (x.1.kind = .three ∧ y.1.kind = .three) ∨ (x.1.kind = .mandel ∧ y.1.kind = .mandel) →
    pairInner E ps k s₁ s₂ x y ≠ some (.ok .notImplemented) := by
  intro k
  induction k with
  | zero => intro s₁ s₂ x y _ h; simp [pairInner] at h
  | succ k ih =>
    intro s₁ s₂ ⟨x, v⟩ ⟨y, w⟩ hk h
    unfold pairInner at h
    by_cases hb : (x.blank || y.blank) = true
    · rw [if_pos hb] at h; cases h
    rw [if_neg hb] at h
    rcases hk with ⟨hx, hy⟩ | ⟨hx, hy⟩
    · rcases x with _ | t | _ | _ | _ | _ <;> try cases hx
      rcases y with _ | u | _ | _ | _ | _ <;> try cases hy
      simp only at h
      rcases hp : pair33 E.c E.T E.longer ps t v u w with _ | r
      · rw [hp] at h
        exact ih (.inl ⟨rfl, rfl⟩) h
      · rw [hp] at h
        simp only [map_set_ne] at h
    · rcases x with _ | _ | _ | A | _ | _ <;> try cases hx
      rcases y with _ | _ | _ | B | _ | _ <;> try cases hy
      simp only at h
      rcases hp : stepSS A v B w with ⟨A', v', B', w', p, q⟩ | ⟨C, v', D, w'⟩
      · rw [hp] at h
        simp only at h
        rcases hq : pairSS E.c E.T ps A v B w with _ | r
        · rw [hq] at h; cases h
        · rw [hq] at h
          simp only [map_set_ne] at h
      · rw [hp] at h
        exact ih (.inr ⟨rfl, rfl⟩) h

theorem cornersOf_three (A B C : List (Fin n)) : cornersOf [A, B, C] = some ![A, B, C] := rfl

theorem delta3_not {E : PairEnv K Γ} {ps : Point K n} {t : T3 n} {v w : K} {L : List (List (Fin n))} :
    some (match cornersOf L with
      | some L => optSet (pair3D E.c E.T ps t v L w)
      | none => Except.error Err.indexError) = some (Except.ok PairOut.notImplemented) ↔
    ∃ A B C, L = [A, B, C] ∧ order3D t [A, B, C] = .ok none := by
  rcases cornersOf_cases L with ⟨A, B, C, rfl⟩ | h
  · rw [cornersOf_three]
    simp only [Option.some.injEq, optSet_not, pair3D_none, List.cons.injEq, and_true]
    constructor
    · intro h; exact ⟨A, B, C, ⟨rfl, rfl, rfl⟩, h⟩
    · rintro ⟨A', B', C', ⟨rfl, rfl, rfl⟩, h⟩; exact h
  · rw [h]
    constructor
    · intro h; cases h
    · rintro ⟨A, B, C, rfl, _⟩
      rw [cornersOf_three] at h; cases h

theorem deltaS_not {E : PairEnv K Γ} {ps : Point K n} {S : List (Fin n)} {v w : K} {L : List (List (Fin n))} :
    some (match cornersOf L with
      | some L => optSet (pairSD E.c E.root ps S v L w)
      | none => Except.error Err.indexError) = some (Except.ok PairOut.notImplemented) ↔
    ∃ A B C, L = [A, B, C] ∧ chooseCorners S ![A, B, C] = none := by
  rcases cornersOf_cases L with ⟨A, B, C, rfl⟩ | h
  · rw [cornersOf_three]
    simp only [Option.some.injEq, optSet_not, pairSD_none, List.cons.injEq, and_true]
    constructor
    · intro h; exact ⟨A, B, C, ⟨rfl, rfl, rfl⟩, h⟩
    · rintro ⟨A', B', C', ⟨rfl, rfl, rfl⟩, h⟩; exact h
  · rw [h]
    constructor
    · intro h; cases h
    · rintro ⟨A, B, C, rfl, _⟩
      rw [cornersOf_three] at h; cases h

theorem delta2_not {E : PairEnv K Γ} {ps : Point K n} {p : Bool} {a b : Fin n} {v w : K} {L : List (List (Fin n))} :
    some (match cornersOf L with
      | some L => (pair2D E.c E.T ps p a b v L w).map PairOut.set
      | none => Except.error Err.indexError) ≠ some (Except.ok PairOut.notImplemented) := by
  rcases cornersOf L with _ | L
  · intro h; cases h
  · intro h
    simp only [map_set_ne] at h

theorem replaced_not {E : PairEnv K Γ} {ps : Point K n} {t : T3 n} {v w : K} {S : List (Fin n)} :
    some ((pair3S E.c E.T ps t v S w).map fun qs =>
        match replaced3S t S with
        | some (i, j) => PairOut.replaced qs i j
        | none => .set qs) ≠ some (Except.ok PairOut.notImplemented) := by
  rcases pair3S E.c E.T ps t v S w with e | qs
  · intro h; cases h
  · rcases replaced3S t S with _ | ⟨i, j⟩ <;> intro h <;> cases h

/-- **C101.** The list of the pairs that are not implemented is complete: there is none with a two-bracket, none of two
three-brackets, of a three-bracket and a Mandelstam invariant, of two Mandelstam invariants. -/
theorem C101_not_implemented (E : PairEnv K Γ) (ps : Point K n) (k : ℕ) (s₁ s₂ : String) (x y : Req n K) :
    pairInner E ps (k + 2) s₁ s₂ x y = some (.ok .notImplemented) ↔ Unimplemented s₁ s₂ x.1 y.1 := by
  obtain ⟨x, v⟩ := x
  obtain ⟨y, w⟩ := y
  unfold Unimplemented
  by_cases hb : (x.blank || y.blank) = true
  · unfold pairInner
    rw [if_pos hb, hb]
    exact iff_of_false (by simp) (by simp)
  have hb' : ¬ (y.blank || x.blank) = true := by rw [Bool.or_comm]; exact hb
  rcases x with ⟨p, a, b⟩ | t | t | A | d | _ <;> rcases y with ⟨q, a', b'⟩ | u | u | B | d' | _ <;>
    first
    | exact iff_of_false (pairInner_same (.inl ⟨rfl, rfl⟩)) (fun h => h.2)
    | exact iff_of_false (pairInner_same (.inr ⟨rfl, rfl⟩)) (fun h => h.2)
    | skip
  all_goals
    unfold pairInner
    simp only [if_neg hb]
    rw [eq_false_of_ne_true hb]
  all_goals
    first
    | (unfold pairInner; simp only [if_neg hb'])
    | skip
  all_goals
    simp only [true_and, and_false, tableSet_not, pairHard_not]
  all_goals
    first
    | exact delta3_not
    | exact deltaS_not
    | exact iff_of_false delta2_not id
    | exact iff_of_false replaced_not id
    | exact iff_of_false (by rw [map_set_ne]; exact id) id
    | exact iff_of_false (by simp) id

/-- What `_set_pair` makes of two strings and a point. -/
theorem finish_ok {E : PairEnv K Γ} {rest : Point K n → Except Err K} {x y : Req n K} {i j : Inv n} {ps ps' : Point K n} :
    setPairOut.finish E rest x y i j ps = .ok ps' ↔ ps' = ps ∧ pointCheck E.T ps = none ∧
      ∃ a b, i.number rest ps = .ok a ∧ j.number rest ps = .ok b ∧ signDiff E.T.abs a x.2 ≤ E.T.tol ∧
        signDiff E.T.abs b y.2 ≤ E.T.tol := by
  unfold setPairOut.finish
  rcases i.number rest ps with e | a
  · simp
  rcases j.number rest ps with e | b
  · simp
  simp only
  rcases pointCheck E.T ps with _ | e
  · simp only
    by_cases h : signDiff E.T.abs a x.2 ≤ E.T.tol ∧ signDiff E.T.abs b y.2 ≤ E.T.tol
    · rw [if_pos h]
      constructor
      · intro h'; cases h'; exact ⟨rfl, trivial, a, b, rfl, rfl, h⟩
      · rintro ⟨rfl, -⟩; rfl
    · rw [if_neg h]
      constructor
      · intro h'; cases h'
      · rintro ⟨-, -, a', b', ha, hb, h'⟩
        cases ha; cases hb
        exact absurd h' h
  · simp

/-- **C101.** For the pairs that are not implemented `_set_pair` raises its own exception. -/
theorem C101_refuses (E : PairEnv K Γ) (rest : Point K n → Except Err K) (ps : Point K n) (k : ℕ) (s₁ s₂ : String) (x y : Req n K)
    (h : Unimplemented s₁ s₂ x.1 y.1) : setPair E rest (k + 2) s₁ s₂ x y ps = some (.error .exception) := by
  unfold setPair
  rw [(C101_not_implemented E ps k s₁ s₂ x y).mpr h]
  rfl

theorem signDiff_zero {T : Tol K Γ} (hT : T.abs 0 ≤ T.tol) {a v : K} (h : a = v ∨ a = -v) : signDiff T.abs a v ≤ T.tol := by
  unfold signDiff
  rcases h with rfl | rfl
  · exact min_le_of_left_le (by rwa [sub_self])
  · exact min_le_of_right_le (by rwa [neg_add_cancel])

/-- **C101.** When the two values are those asked for, up to a sign each, and the point is good, the method returns
normally: the checks raise no exception. With the theorems about the single methods this gives the end of
`_set_pair`. -/
theorem C101_returns [NeZero (2 : K)] (E : PairEnv K Γ) (hT : E.T.abs 0 ≤ E.T.tol) (hn : n ≠ 0) (rest : Point K n → Except Err K)
    (k : ℕ) (s₁ s₂ : String) (x y : Req n K) (ps ps' : Point K n) (h : pairInner E ps k s₁ s₂ x y = some (.ok (.set ps')))
    (hg : GoodPoint E.c ps') (a b : K) (ha : x.1.number rest ps' = .ok a) (hb : y.1.number rest ps' = .ok b)
    (hv : a = x.2 ∨ a = -x.2) (hw : b = y.2 ∨ b = -y.2) : setPair E rest k s₁ s₂ x y ps = some (.ok ps') := by
  unfold setPair
  rw [h]
  simp only [Option.map_some, setPairOut, Option.some.injEq]
  exact finish_ok.mpr ⟨rfl, pointCheck_good hT hn hg, a, b, ha, hb, signDiff_zero hT hv, signDiff_zero hT hw⟩

/-- The strings are replaced only when a three-bracket and a Mandelstam invariant are set. -/
theorem pairInner_replaced {E : PairEnv K Γ} {ps : Point K n} : ∀ {k : ℕ} {s₁ s₂ : String} {x y : Req n K} {ps' : Point K n}
    {i j : Inv n}, pairInner E ps k s₁ s₂ x y = some (.ok (.replaced ps' i j)) →
    ∃ t ls, ((x.1 = .three t ∧ y.1 = .mandel ls) ∨ (x.1 = .mandel ls ∧ y.1 = .three t)) ∧ replaced3S t ls = some (i, j) := by
  have hset : ∀ (r : Except Err (Point K n)) (ps' : Point K n) (i j : Inv n),
      some (r.map PairOut.set) ≠ some (Except.ok (PairOut.replaced ps' i j)) := by
    intro r ps' i j h
    rcases r with e | q <;> cases h
  have htab : ∀ (r : Option (Except Err (Option (Point K n)))) (ps' : Point K n) (i j : Inv n),
      tableSet r ≠ some (Except.ok (PairOut.replaced ps' i j)) := by
    intro r ps' i j h
    rcases r with _ | e | _ | q <;> cases h
  have hopt : ∀ (r : Option (Except Err (Point K n))) (ps' : Point K n) (i j : Inv n),
      optSet r ≠ Except.ok (PairOut.replaced ps' i j) := by
    intro r ps' i j h
    rcases r with _ | e | q <;> cases h
  intro k
  induction k with
  | zero => intro s₁ s₂ x y ps' i j h; simp [pairInner] at h
  | succ k ih =>
    intro s₁ s₂ ⟨x, v⟩ ⟨y, w⟩ ps' i j h
    unfold pairInner at h
    by_cases hb : (x.blank || y.blank) = true
    · rw [if_pos hb] at h; cases h
    rw [if_neg hb] at h
    rcases x with ⟨p, a, b⟩ | t | t | A | d | _ <;> rcases y with ⟨q, a', b'⟩ | u | u | B | d' | _ <;> simp only at h <;>
      first
      | exact absurd h (hset _ _ _ _)
      | exact absurd h (htab _ _ _ _)
      | (cases h; done)
      | (rcases hc : cornersOf d' with _ | L <;> rw [hc] at h <;> first | (cases h; done) | exact absurd h (hset _ _ _ _) | exact absurd (Option.some.inj h) (hopt _ _ _ _))
      | skip
    all_goals
      try (have hi := ih h
           obtain ⟨t, ls, hh, hr⟩ := hi
           exact ⟨t, ls, hh.symm.imp And.symm And.symm, hr⟩)
    · rcases hp : pair33 E.c E.T E.longer ps t v u w with _ | r
      · rw [hp] at h
        obtain ⟨t', ls, hh, -⟩ := ih h
        rcases hh with ⟨-, e⟩ | ⟨e, -⟩ <;> cases e
      · rw [hp] at h
        exact absurd h (hset _ _ _ _)
    · rcases hp : pair3S E.c E.T ps t v B w with e | qs
      · rw [hp] at h; cases h
      · rw [hp] at h
        rcases hr : replaced3S t B with _ | ⟨i', j'⟩
        · simp only [Except.map, hr] at h
          cases h
        · simp only [Except.map, hr, Option.some.injEq, Except.ok.injEq, PairOut.replaced.injEq] at h
          obtain ⟨-, rfl, rfl⟩ := h
          exact ⟨t, B, .inl ⟨rfl, rfl⟩, hr⟩
    · rcases hp : stepSS A v B w with ⟨A', v', B', w', p, q⟩ | ⟨C, v', D, w'⟩
      · rw [hp] at h
        simp only at h
        rcases hq : pairSS E.c E.T ps A v B w with _ | r
        · rw [hq] at h; cases h
        · rw [hq] at h
          exact absurd h (hset _ _ _ _)
      · rw [hp] at h
        obtain ⟨t', ls, hh, -⟩ := ih h
        rcases hh with ⟨e, -⟩ | ⟨-, e⟩ <;> cases e

/-- What is checked in place of a three-bracket and a Mandelstam invariant: an angle bracket of the middle of the string,
and the invariant or its complement, which has all labels of the string. -/
theorem replaced3S_spec {t : T3 n} {ls : List (Fin n)} {i j : Inv n} (h : replaced3S t ls = some (i, j)) :
    ∃ u ls' a b m, (u = t ∨ u = t.flip) ∧ (ls' = ls ∨ ls' = freeLabels ls) ∧ (∀ k ∈ u.labels, k ∈ ls') ∧ u.m = a :: b :: m ∧
      i = .two true a b ∧ j = .mandel ls' := by
  have key : ∀ (u : T3 n) (ls' : List (Fin n)), (match plan3S u ls', u.m with
      | none, j :: k :: _ => some (Inv.two true j k, Inv.mandel ls')
      | _, _ => none) = some (i, j) → (∀ k ∈ u.labels, k ∈ ls') ∧ ∃ a b m, u.m = a :: b :: m ∧ i = .two true a b ∧ j = .mandel ls' := by
    intro u ls' h
    rcases hp : plan3S u ls' with _ | z
    · rcases hm : u.m with _ | ⟨a, _ | ⟨b, m⟩⟩ <;> simp only [hp, hm] at h
      · cases h
      · cases h
      · cases h
        exact ⟨plan3S_none.mp hp, a, b, m, rfl, rfl, rfl⟩
    · simp only [hp] at h
      cases h
  unfold replaced3S at h
  simp only at h
  by_cases h1 : 2 ≤ freeAsIs t ls ∨ (freeFirst t ls < 2 ∧ freeSecond t ls < 2)
  · rw [if_pos h1] at h
    obtain ⟨hk, a, b, m, hm, hi, hj⟩ := key _ _ h
    exact ⟨t, ls, a, b, m, .inl rfl, .inl rfl, hk, hm, hi, hj⟩
  · rw [if_neg h1] at h
    by_cases h2 : 2 ≤ freeFirst t ls
    · rw [if_pos h2] at h
      obtain ⟨hk, a, b, m, hm, hi, hj⟩ := key _ _ h
      exact ⟨t, _, a, b, m, .inl rfl, .inr rfl, hk, hm, hi, hj⟩
    · rw [if_neg h2] at h
      obtain ⟨hk, a, b, m, hm, hi, hj⟩ := key _ _ h
      exact ⟨t.flip, _, a, b, m, .inr rfl, .inl rfl, hk, hm, hi, hj⟩

/-- What a normal return means for two strings. -/
def PairReached (E : PairEnv K Γ) (rest : Point K n → Except Err K) (i j : Inv n) (v w : K) (ps : Point K n) : Prop :=
  ∃ a b, i.number rest ps = .ok a ∧ j.number rest ps = .ok b ∧
    (E.T.abs (a - v) ≤ E.T.tol ∨ E.T.abs (a + v) ≤ E.T.tol) ∧ (E.T.abs (b - w) ≤ E.T.tol ∨ E.T.abs (b + w) ≤ E.T.tol)

/-- **C101.** When `_set_pair` returns normally the point conserves momentum, is on shell, and has the two values, up to a
sign each and the tolerance; when a three-bracket and a Mandelstam invariant were asked for with all labels of the string
in the invariant (or in its complement, or with the middle of the string replaced by its complement), it is an angle bracket and
the invariant that have the values. -/
theorem C101_sound (E : PairEnv K Γ) (rest : Point K n → Except Err K) (k : ℕ) (s₁ s₂ : String) (x y : Req n K)
    (ps ps' : Point K n) (h : setPair E rest k s₁ s₂ x y ps = some (.ok ps')) :
    SpecPoint E.T.abs E.T.tol ps' ∧
    (PairReached E rest x.1 y.1 x.2 y.2 ps' ∨
      ∃ t ls u ls' a b m, ((x.1 = .three t ∧ y.1 = .mandel ls) ∨ (x.1 = .mandel ls ∧ y.1 = .three t)) ∧
        (u = t ∨ u = t.flip) ∧ (ls' = ls ∨ ls' = freeLabels ls) ∧ (∀ k ∈ u.labels, k ∈ ls') ∧ u.m = a :: b :: m ∧
        PairReached E rest (.two true a b) (.mandel ls') x.2 y.2 ps') := by
  unfold setPair at h
  rcases hp : pairInner E ps k s₁ s₂ x y with _ | e | qs | _ | ⟨qs, i, j⟩ <;> rw [hp] at h <;>
    simp only [Option.map_none, Option.map_some, setPairOut, Option.some.injEq, reduceCtorEq] at h
  · obtain ⟨rfl, hc, a, b, ha, hb, hv, hw⟩ := finish_ok.mp h
    exact ⟨checkPoint_spec hc, .inl ⟨a, b, ha, hb, min_le_iff.mp hv, min_le_iff.mp hw⟩⟩
  · obtain ⟨rfl, hc, a, b, ha, hb, hv, hw⟩ := finish_ok.mp h
    obtain ⟨t, ls, hxy, hr⟩ := pairInner_replaced hp
    obtain ⟨u, ls', a', b', m, hu, hl, hk, hm, rfl, rfl⟩ := replaced3S_spec hr
    exact ⟨checkPoint_spec hc, .inr ⟨t, ls, u, ls', a', b', m, hxy, hu, hl, hk, hm, a, b, ha, hb, min_le_iff.mp hv, min_le_iff.mp hw⟩⟩

/-- **C101**, a finding. All labels of the string are in the invariant: the string is not set, and the values are
exchanged. With the invariant given first the method returns normally, and the *invariant* has the value that was
asked for the *string*. With the string given first the same point is reached and an exception raised, unless the two
values agree up to a sign each. -/
theorem C101_exchanged_partial [DecidableEq K] [NeZero (2 : K)] (E : PairEnv K Γ) (hT : E.T.abs 0 ≤ E.T.tol)
    (hT' : ∀ z, E.T.abs z ≤ E.T.tol → z = 0) (hn : n ≠ 0)
    (rest : Point K n → Except Err K) (k : ℕ) (s₁ s₂ : String) (t : T3 n) (v w : K) (ls : List (Fin n)) (ps ps' : Point K n)
    (hc : ∀ k ∈ t.labels, k ∈ ls) (hf : 2 ≤ freeAsIs t ls) (a b : Fin n) (m : List (Fin n)) (hm : t.m = a :: b :: m)
    (hp : pair2S E.c E.T ps true a b w ls v = .ok ps') (hg : GoodPoint E.c ps') (ha : twoVal true a b ps' = .ok w)
    (hb : computeS ps' ls = v) :
    setPair E rest (k + 2) s₂ s₁ (.mandel ls, w) (.three t, v) ps = some (.ok ps') ∧
    setPair E rest (k + 2) s₁ s₂ (.three t, v) (.mandel ls, w) ps =
      some (if w = v ∨ w = -v then .ok ps' else .error .exception) := by
  have hls : ls ≠ [] := by
    rintro rfl
    exact absurd (hc t.s (by simp [T3.labels])) (by simp)
  have hb0 : ¬ ((Inv.three t).blank || (Inv.mandel ls).blank) = true := by
    rcases ls with _ | ⟨z, zs⟩
    · exact absurd rfl hls
    · simp [Inv.blank]
  have hr : replaced3S t ls = some (.two true a b, .mandel ls) := by
    unfold replaced3S
    simp only [if_pos (Or.inl hf : 2 ≤ freeAsIs t ls ∨ _), plan3S_none.mpr hc, hm]
  have h1 : pairInner E ps (k + 2) s₁ s₂ (.three t, v) (.mandel ls, w) = some (.ok (.replaced ps' (.two true a b) (.mandel ls))) := by
    unfold pairInner
    rw [if_neg hb0]
    simp only [C97_contained_partial E.c E.T ps t v w ls hc hf a b m hm, hp, Except.map, hr]
  have h2 := (C101_order E ps k s₁ s₂ (.three t, v) (.mandel ls, w) (by simp [Inv.kind])).symm.trans h1
  have hpc := pointCheck_good (T := E.T) hT hn hg
  unfold setPair
  rw [h1, h2]
  simp only [Option.map_some, setPairOut, Option.some.injEq]
  refine ⟨finish_ok.mpr ⟨rfl, hpc, w, v, ha, by simp [Inv.number, hb], signDiff_zero hT (.inl rfl), signDiff_zero hT (.inl rfl)⟩, ?_⟩
  by_cases e : w = v ∨ w = -v
  · rw [if_pos e]
    refine finish_ok.mpr ⟨rfl, hpc, w, v, ha, by simp [Inv.number, hb], signDiff_zero hT e, signDiff_zero hT ?_⟩
    rcases e with rfl | rfl
    · exact .inl rfl
    · exact .inr (neg_neg v).symm
  · rw [if_neg e]
    unfold setPairOut.finish
    simp only [Inv.number, ha, hb, hpc]
    rw [if_neg]
    rintro ⟨h, -⟩
    refine e ((min_le_iff.mp h).imp (fun q => sub_eq_zero.mp (hT' _ q)) fun q => eq_neg_of_add_eq_zero_left (hT' _ q))

end Lips

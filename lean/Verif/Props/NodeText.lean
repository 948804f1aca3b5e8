import Verif.Spec.PyGrammar
import Verif.Props.EvalText

/-!
C106: how the text `_parse` writes is read. The descent of Model/NodeText finds the tree of Python's grammar.
-/

namespace Lips

/-! ### Reading finds what the grammar derives -/

/-- With this depth or more, the descent gives this. -/
def Finds (f : ℕ) (m : NMode) (ts : List NTok) (r : Node × List NTok) : Prop := ∀ g, f ≤ g → parseNode g m ts = some r

theorem Finds.mono {f g : ℕ} {m ts r} (h : Finds f m ts r) (hg : f ≤ g) : Finds g m ts r := fun k hk => h k (hg.trans hk)

theorem finds_step {f : ℕ} {m ts r} (h : ∀ g, f ≤ g → nodeStep (parseNode g) m ts = some r) : Finds (f + 1) m ts r := by
  intro g hg
  obtain ⟨g, rfl⟩ : ∃ k, g = k + 1 := ⟨g - 1, by omega⟩
  exact h g (by omega)

/-- The next token is not one of these. -/
def Next (bad : List NTok) (rest : List NTok) : Prop := ∀ t ∈ rest.head?, t ∉ bad

theorem Next.mono {a b : List NTok} {rest} (h : Next b rest) (hs : ∀ t ∈ a, t ∈ b) : Next a rest := fun t ht ha => h t ht (hs t ha)
theorem next_cons {a : List NTok} {t : NTok} {rest} (h : t ∉ a) : Next a (t :: rest) := by
  intro u hu
  simp only [List.head?_cons, Option.mem_def, Option.some.injEq] at hu
  exact hu ▸ h
theorem next_nil (a : List NTok) : Next a [] := by intro t ht; simp at ht

def callNext : List NTok := [.lpar]
def powNext : List NTok := [.lpar, .lbr, .op .pow]
def mulNext : List NTok := [.lpar, .lbr, .op .pow, .op .mul, .op .div, .op .matmul]
def addNext : List NTok := [.lpar, .lbr, .op .pow, .op .mul, .op .div, .op .matmul, .op .add, .op .sub]

theorem ntrailers_stop (a : Node) {rest} (h : Next [.lbr] rest) : Finds 1 (.trailers a) rest (a, rest) := by
  refine finds_step fun g _ => ?_
  match rest with
  | [] => rfl
  | .lbr :: _ => exact absurd (by simp) (h .lbr (by simp))
  | .num _ :: _ | .op _ :: _ | .lpar :: _ | .rpar :: _ | .rbr :: _ | .comma :: _ | .colon :: _ | .str _ :: _ | .id _ :: _ => rfl

theorem nterms_stop (a : Node) {rest} (h : Next [.op .mul, .op .div, .op .matmul] rest) : Finds 1 (.terms a) rest (a, rest) := by
  refine finds_step fun g _ => ?_
  match rest with
  | [] => rfl
  | .op .mul :: _ => exact absurd (by simp) (h (.op .mul) (by simp))
  | .op .div :: _ => exact absurd (by simp) (h (.op .div) (by simp))
  | .op .matmul :: _ => exact absurd (by simp) (h (.op .matmul) (by simp))
  | .op .add :: _ | .op .sub :: _ | .op .pow :: _ => rfl
  | .num _ :: _ | .lbr :: _ | .lpar :: _ | .rpar :: _ | .rbr :: _ | .comma :: _ | .colon :: _ | .str _ :: _ | .id _ :: _ => rfl

theorem nexprs_stop (a : Node) {rest} (h : Next [.op .add, .op .sub] rest) : Finds 1 (.exprs a) rest (a, rest) := by
  refine finds_step fun g _ => ?_
  match rest with
  | [] => rfl
  | .op .add :: _ => exact absurd (by simp) (h (.op .add) (by simp))
  | .op .sub :: _ => exact absurd (by simp) (h (.op .sub) (by simp))
  | .op .mul :: _ | .op .div :: _ | .op .pow :: _ | .op .matmul :: _ => rfl
  | .num _ :: _ | .lbr :: _ | .lpar :: _ | .rpar :: _ | .rbr :: _ | .comma :: _ | .colon :: _ | .str _ :: _ | .id _ :: _ => rfl

theorem readInt_of {ts k} (h : DInt ts k) (rest) : readInt (ts ++ rest) = some (k, rest) := by cases h <;> rfl

/-- A token that ends an index. -/
def EndsIx (t : NTok) : Prop := t = .rbr ∨ t = .comma

theorem readIx_of {ts x} (h : DIx ts x) {t : NTok} (ht : EndsIx t) (rest) : readIx (ts ++ t :: rest) = some (x, t :: rest) := by
  cases h with
  | pos h => rcases ht with rfl | rfl <;> cases h <;> rfl
  | all => rcases ht with rfl | rfl <;> rfl
  | low h => rcases ht with rfl | rfl <;> cases h <;> rfl
  | high h => rcases ht with rfl | rfl <;> cases h <;> rfl
  | both h h' => rcases ht with rfl | rfl <;> cases h <;> cases h' <;> rfl

theorem readIxs_of {ts xs} (h : DIxs ts xs) (rest) : ∀ k, ts.length < k → readIxs k (ts ++ .rbr :: rest) = some (xs, rest) := by
  induction h with
  | one h =>
    rintro (_ | k) hk
    · omega
    · rw [readIxs, readIx_of h (.inl rfl)]
  | cons h _ ih =>
    rintro (_ | k) hk
    · omega
    · simp only [List.length_append, List.length_cons] at hk
      rw [readIxs, List.append_assoc, List.cons_append, readIx_of h (.inr rfl)]
      simp only
      rw [ih k (by omega)]
      rfl

theorem derives_pos {l ts a} (h : Derives l ts a) : 1 ≤ ts.length := by
  induction h <;> simp_all <;> omega

/-- What the descent finds, level by level. -/
def Found : PyLevel → List NTok → Node → Prop
  | .atom, ts, a => ∀ rest, Next callNext rest → Finds (9 * ts.length - 5) .atom (ts ++ rest) (a, rest)
  | .primary, ts, a => ∀ rest r f, Next callNext rest → Finds f (.trailers a) rest r →
      ∃ a₀ rest₀, Finds (9 * ts.length - 5) .atom (ts ++ rest) (a₀, rest₀) ∧ Finds (f + ts.length) (.trailers a₀) rest₀ r
  | .power, ts, a => ∀ rest, Next powNext rest → Finds (9 * ts.length - 3) .power (ts ++ rest) (a, rest)
  | .factor, ts, a => ∀ rest, Next powNext rest → Finds (9 * ts.length - 2) .factor (ts ++ rest) (a, rest)
  | .term, ts, a => ∀ rest r f, Next powNext rest → Finds f (.terms a) rest r →
      Finds (max (9 * ts.length) (f + ts.length)) .term (ts ++ rest) r
  | .sum, ts, a => ∀ rest r f, Next mulNext rest → Finds f (.exprs a) rest r →
      Finds (max (9 * ts.length + 1) (f + ts.length)) .expr (ts ++ rest) r
  | .elems, ts, a => ∀ rest t as, a = .list as → t = .rpar ∨ t = .rbr → ∀ g, 9 * ts.length + 1 ≤ g → ∀ k, ts.length < k →
      readElems (parseNode g) t k (ts ++ t :: rest) = some (as, rest)

/-- A whole expression before a token that ends it. -/
theorem found_whole {ts a} (h : Found .sum ts a) (hl : 1 ≤ ts.length) {rest} (hr : Next addNext rest) :
    Finds (9 * ts.length + 1) .expr (ts ++ rest) (a, rest) :=
  (h rest (a, rest) 1 (hr.mono (by simp +contextual [mulNext, addNext])) (nexprs_stop a (hr.mono (by simp +contextual [addNext])))).mono (by omega)

theorem found {l ts a} (h : Derives l ts a) : Found l ts a := by
  induction h with
  | num k => exact fun rest _ => finds_step (f := 3) fun g _ => rfl
  | name f =>
    intro rest hr
    refine finds_step (f := 3) fun g _ => ?_
    match rest with
    | [] => rfl
    | .lpar :: _ => exact absurd (by simp [callNext]) (hr .lpar (by simp))
    | .num _ :: _ | .op _ :: _ | .lbr :: _ | .rpar :: _ | .rbr :: _ | .comma :: _ | .colon :: _ | .str _ :: _ | .id _ :: _ => rfl
  | @paren ts a h ih =>
    intro rest _
    refine (finds_step (f := 9 * ts.length + 1) fun g hg => ?_).mono (by simp; omega)
    have h1 := found_whole ih (derives_pos h) (rest := .rpar :: rest) (next_cons (by simp [addNext])) g hg
    show ((parseNode g .expr (ts ++ [NTok.rpar] ++ rest)).bind (closeNode id)) = _
    rw [List.append_assoc, List.singleton_append, h1]
    rfl
  | @list ts as h ih =>
    intro rest _
    refine (finds_step (f := 9 * ts.length + 1) fun g hg => ?_).mono (by simp; omega)
    show ((readElems (parseNode g) .rbr (ts ++ [NTok.rbr] ++ rest).length (ts ++ [NTok.rbr] ++ rest)).map _) = _
    rw [List.append_assoc, List.singleton_append, ih rest .rbr as rfl (.inr rfl) g hg _ (by simp)]
    rfl
  | oPs s => exact fun rest _ => (finds_step (f := 0) fun g _ => rfl).mono (by simp)
  | fraction a b => exact fun rest _ => (finds_step (f := 0) fun g _ => rfl).mono (by simp)
  | @block ts a h ih =>
    intro rest _
    refine (finds_step (f := 9 * ts.length + 1) fun g hg => ?_).mono (by simp; omega)
    have h1 := found_whole ih (derives_pos h) (rest := .rpar :: rest) (next_cons (by simp [addNext])) g hg
    show ((parseNode g .expr (ts ++ [NTok.rpar] ++ rest)).bind (closeNode .block)) = _
    rw [List.append_assoc, List.singleton_append, h1]
    rfl
  | @transpose ts a h ih =>
    intro rest _
    refine (finds_step (f := 9 * ts.length + 1) fun g hg => ?_).mono (by simp; omega)
    have h1 := found_whole ih (derives_pos h) (rest := .rpar :: rest) (next_cons (by simp [addNext])) g hg
    show ((parseNode g .expr (ts ++ [NTok.rpar] ++ rest)).bind (closeNode .transpose)) = _
    rw [List.append_assoc, List.singleton_append, h1]
    rfl
  | @call f ts as hf h ih =>
    intro rest _
    refine (finds_step (f := 9 * ts.length + 1) fun g hg => ?_).mono (by simp; omega)
    simp only [ownNode, List.mem_cons, List.not_mem_nil, or_false, not_or] at hf
    have h1 := ih rest .rpar as rfl (.inl rfl) g hg (ts ++ .rpar :: rest).length (by simp)
    simp only [List.cons_append, List.append_assoc, List.nil_append, nodeStep, hf.1, hf.2.1, hf.2.2.1, hf.2.2.2, if_false, h1, Option.map_some]
  | atom _ ih => exact fun rest r f hr hf => ⟨_, rest, ih rest hr, hf.mono (by omega)⟩
  | @subscript ts a us xs h hx ih =>
    intro rest r f _ hf
    obtain ⟨a₀, rest₀, h1, h2⟩ := ih (.lbr :: (us ++ .rbr :: rest)) r (f + 1) (next_cons (by simp [callNext])) (by
      refine finds_step fun g hg => ?_
      show ((readIxs (us ++ .rbr :: rest).length (us ++ .rbr :: rest)).bind _) = _
      rw [readIxs_of hx rest _ (by simp)]
      exact hf g hg)
    refine ⟨a₀, rest₀, ?_, h2.mono (by simp; omega)⟩
    have : ts ++ NTok.lbr :: (us ++ [NTok.rbr]) ++ rest = ts ++ .lbr :: (us ++ .rbr :: rest) := by simp
    rw [this]
    exact h1.mono (by simp; omega)
  | @primary ts a h ih =>
    intro rest hr
    obtain ⟨a₀, rest₀, h1, h2⟩ := ih rest (a, rest) 1 (hr.mono (by simp [callNext, powNext])) (ntrailers_stop a (hr.mono (by simp [powNext])))
    have hl := derives_pos h
    refine (finds_step (f := 9 * ts.length - 4) fun g hg => ?_).mono (by omega)
    rw [nodeStep, h1 g (by omega)]
    simp only [Option.bind_some]
    rw [h2 g (by omega)]
    match rest with
    | [] => rfl
    | .op .pow :: _ => exact absurd (by simp [powNext]) (hr (.op .pow) (by simp))
    | .op .add :: _ | .op .sub :: _ | .op .mul :: _ | .op .div :: _ | .op .matmul :: _ => rfl
    | .num _ :: _ | .lbr :: _ | .lpar :: _ | .rpar :: _ | .rbr :: _ | .comma :: _ | .colon :: _ | .str _ :: _ | .id _ :: _ => rfl
  | @pow ts a us b h h' ih ih' =>
    intro rest hr
    obtain ⟨a₀, rest₀, h1, h2⟩ := ih (.op .pow :: (us ++ rest)) (a, .op .pow :: (us ++ rest)) 1 (next_cons (by simp [callNext]))
      (ntrailers_stop a (next_cons (by simp)))
    have hl := derives_pos h
    have hl' := derives_pos h'
    refine (finds_step (f := 9 * ts.length + 9 * us.length) fun g hg => ?_).mono (by simp; omega)
    rw [List.append_assoc, List.cons_append, nodeStep, h1 g (by omega)]
    simp only [Option.bind_some]
    rw [h2 g (by omega)]
    simp only [Option.bind_some]
    rw [ih' rest hr g (by omega)]
    rfl
  | @power ts a h ih =>
    intro rest hr
    have hl := derives_pos h
    refine (finds_step (f := 9 * ts.length - 3) fun g hg => ?_).mono (by omega)
    have h1 := ih rest hr g hg
    have hs : ∀ b t us, ts ++ rest = .op b :: us → parseNode g .power (ts ++ rest) ≠ some t := by
      intro b t us e
      rw [e]
      obtain ⟨g, rfl⟩ : ∃ k, g = k + 1 := ⟨g - 1, by omega⟩
      obtain ⟨g, rfl⟩ : ∃ k, g = k + 1 := ⟨g - 1, by omega⟩
      simp [parseNode, nodeStep]
    rcases e : ts ++ rest with _ | ⟨t, us⟩
    · rw [e] at h1; exact h1
    · match t with
      | .op b => exact absurd h1 (hs b _ us e)
      | .num _ | .lpar | .rpar | .lbr | .rbr | .comma | .colon | .str _ | .id _ => rw [e] at h1; exact h1
  | @neg ts a h ih =>
    intro rest hr
    have hl := derives_pos h
    refine (finds_step (f := 9 * ts.length - 2) fun g hg => ?_).mono (by simp; omega)
    rw [List.cons_append, nodeStep, ih rest hr g hg]
    rfl
  | @pos ts a h ih =>
    intro rest hr
    have hl := derives_pos h
    refine (finds_step (f := 9 * ts.length - 2) fun g hg => ?_).mono (by simp; omega)
    rw [List.cons_append, nodeStep, ih rest hr g hg]
    rfl
  | @factor ts a h ih =>
    intro rest r f hr hf
    have hl := derives_pos h
    refine (finds_step (f := max (9 * ts.length - 2) f) fun g hg => ?_).mono (by omega)
    rw [nodeStep, ih rest hr g (by omega)]
    exact hf g (by omega)
  | @times o ts a us b ho h h' ih ih' =>
    intro rest r f hr hf
    have hl := derives_pos h'
    have := ih (.op o :: (us ++ rest)) r (max (9 * us.length - 2) f + 1) (next_cons (by rcases ho with rfl | rfl | rfl <;> simp [powNext])) (by
      refine finds_step fun g hg => ?_
      have h1 := ih' rest hr g (by omega)
      rcases ho with rfl | rfl | rfl <;> (rw [nodeStep, h1]; exact hf g (by omega)))
    rw [List.append_assoc, List.cons_append]
    exact this.mono (by simp; omega)
  | @term ts a h ih =>
    intro rest r f hr hf
    have hl := derives_pos h
    refine (finds_step (f := max (9 * ts.length) f) fun g hg => ?_).mono (by omega)
    rw [nodeStep, ih rest (a, rest) 1 (hr.mono (by simp +contextual [powNext, mulNext])) (nterms_stop a (hr.mono (by simp +contextual [mulNext]))) g (by omega)]
    exact hf g (by omega)
  | @plus o ts a us b ho h h' ih ih' =>
    intro rest r f hr hf
    have hl := derives_pos h'
    have := ih (.op o :: (us ++ rest)) r (max (9 * us.length) f + 1) (next_cons (by rcases ho with rfl | rfl <;> simp [mulNext])) (by
      refine finds_step fun g hg => ?_
      have h1 := ih' rest (b, rest) 1 (hr.mono (by simp +contextual [powNext, mulNext])) (nterms_stop b (hr.mono (by simp +contextual [mulNext]))) g (by omega)
      rcases ho with rfl | rfl <;> (rw [nodeStep, h1]; exact hf g (by omega)))
    rw [List.append_assoc, List.cons_append]
    exact this.mono (by simp; omega)
  | @one ts a h ih =>
    rintro rest t as ha ht g hg (_ | k) hk
    · omega
    · cases ha
      rw [readElems, found_whole ih (derives_pos h) (next_cons (by rcases ht with rfl | rfl <;> simp [addNext])) g hg]
      simp
  | @cons ts a us as h h' ih ih' =>
    rintro rest t as' ha ht g hg (_ | k) hk
    · omega
    · cases ha
      simp only [List.length_append, List.length_cons] at hg hk
      rw [readElems, List.append_assoc, List.cons_append,
        found_whole ih (derives_pos h) (next_cons (by simp [addNext])) g (by omega)]
      have : (NTok.comma : NTok) ≠ t := by rcases ht with rfl | rfl <;> simp
      simp only [this, if_false, if_true]
      rw [ih' rest t as rfl ht g (by omega) k (by omega)]
      rfl

/-! ### What is found is derived -/

theorem readInt_sound {ts k rest} (h : readInt ts = some (k, rest)) : ∃ us, ts = us ++ rest ∧ DInt us k := by
  unfold readInt at h
  split at h
  · cases h; exact ⟨[_], rfl, .pos _⟩
  · cases h; exact ⟨[_, _], rfl, .neg _⟩
  · cases h

theorem readHigh_sound {ts x rest} {lo : Option ℤ} (h : readHigh lo ts = (x, rest)) :
    (x = .slice lo none ∧ ts = rest) ∨ ∃ us k, ts = us ++ rest ∧ DInt us k ∧ x = .slice lo (some k) := by
  unfold readHigh at h
  split at h
  · rename_i k us hk
    cases h
    obtain ⟨vs, h1, h2⟩ := readInt_sound hk
    exact .inr ⟨vs, k, h1, h2, rfl⟩
  · cases h; exact .inl ⟨rfl, rfl⟩

theorem readIx_sound {ts x rest} (h : readIx ts = some (x, rest)) : ∃ us, ts = us ++ rest ∧ DIx us x := by
  unfold readIx at h
  split at h
  · rcases readHigh_sound (Option.some.inj h) with ⟨rfl, rfl⟩ | ⟨us, k, rfl, h2, rfl⟩
    · exact ⟨[.colon], rfl, .all⟩
    · exact ⟨.colon :: us, rfl, .high h2⟩
  · split at h
    · rename_i k us hk
      obtain ⟨vs, rfl, h2⟩ := readInt_sound hk
      rcases readHigh_sound (Option.some.inj h) with ⟨rfl, rfl⟩ | ⟨ws, l, rfl, h3, rfl⟩
      · exact ⟨vs ++ [.colon], by simp, .low h2⟩
      · exact ⟨vs ++ .colon :: ws, by simp, .both h2 h3⟩
    · rename_i k us _ hk
      cases h
      obtain ⟨vs, h1, h2⟩ := readInt_sound hk
      exact ⟨vs, h1, .pos h2⟩
    · cases h

theorem readIxs_sound {k : ℕ} : ∀ {ts xs rest}, readIxs k ts = some (xs, rest) → ∃ us, ts = us ++ .rbr :: rest ∧ DIxs us xs := by
  induction k with
  | zero => intro ts xs rest h; cases h
  | succ k ih =>
    intro ts xs rest h
    rw [readIxs] at h
    split at h
    · rename_i x us hx
      cases h
      obtain ⟨vs, h1, h2⟩ := readIx_sound hx
      exact ⟨vs, h1, .one h2⟩
    · rename_i x us hx
      obtain ⟨vs, rfl, h2⟩ := readIx_sound hx
      rcases hr : readIxs k us with _ | ⟨ys, rest'⟩
      · rw [hr] at h; cases h
      · rw [hr] at h
        cases h
        obtain ⟨ws, rfl, h3⟩ := ih hr
        exact ⟨vs ++ .comma :: ws, by simp, .cons h2 h3⟩
    · cases h

/-- What the grammar says about the result of the descent. -/
def NodeSound (m : NMode) (ts : List NTok) (a : Node) (rest : List NTok) : Prop :=
  ∃ us, ts = us ++ rest ∧ match m with
    | .atom => Derives .atom us a
    | .trailers b => ∀ vs, Derives .primary vs b → Derives .primary (vs ++ us) a
    | .power => Derives .power us a
    | .factor => Derives .factor us a
    | .term => Derives .term us a
    | .terms b => ∀ vs, Derives .term vs b → Derives .term (vs ++ us) a
    | .expr => Derives .sum us a
    | .exprs b => ∀ vs, Derives .sum vs b → Derives .sum (vs ++ us) a

theorem readElems_sound {p : NMode → List NTok → Option (Node × List NTok)} (hp : ∀ ts a rest, p .expr ts = some (a, rest) → NodeSound .expr ts a rest)
    {stop : NTok} {k : ℕ} : ∀ {ts as rest}, readElems p stop k ts = some (as, rest) →
      ∃ us, ts = us ++ stop :: rest ∧ Derives .elems us (.list as) := by
  induction k with
  | zero => intro ts as rest h; cases h
  | succ k ih =>
    intro ts as rest h
    rw [readElems] at h
    split at h
    · rename_i a t us ha
      obtain ⟨vs, rfl, h2⟩ := hp _ _ _ ha
      split_ifs at h with h3 h4
      · cases h
        exact ⟨vs, by rw [h3], .one h2⟩
      · rcases hr : readElems p stop k us with _ | ⟨bs, rest'⟩
        · rw [hr] at h; cases h
        · rw [hr] at h
          cases h
          obtain ⟨ws, rfl, h5⟩ := ih hr
          exact ⟨vs ++ .comma :: ws, by simp [h4], .cons h2 h5⟩
    · cases h

theorem closeNode_sound {g : Node → Node} {r : Node × List NTok} {a rest} (h : closeNode g r = some (a, rest)) :
    ∃ b, r = (b, .rpar :: rest) ∧ a = g b := by
  unfold closeNode at h
  split at h
  · cases h; exact ⟨_, rfl, rfl⟩
  · cases h

theorem step_sound {p : NMode → List NTok → Option (Node × List NTok)} (hp : ∀ m ts a rest, p m ts = some (a, rest) → NodeSound m ts a rest)
    (m : NMode) (ts : List NTok) (a : Node) (rest : List NTok) (h : nodeStep p m ts = some (a, rest)) : NodeSound m ts a rest := by
  have closed : ∀ {g : Node → Node} {us a rest}, (p .expr us).bind (closeNode g) = some (a, rest) →
      ∃ vs b, us = vs ++ .rpar :: rest ∧ Derives .sum vs b ∧ a = g b := by
    intro g us a rest h
    obtain ⟨r, h1, h2⟩ := Option.bind_eq_some_iff.mp h
    obtain ⟨b, rfl, rfl⟩ := closeNode_sound h2
    obtain ⟨vs, h3, h4⟩ := hp _ _ _ _ h1
    exact ⟨vs, b, h3, h4, rfl⟩
  cases m with
  | atom =>
    unfold nodeStep at h
    dsimp only at h
    split at h
    · cases h; exact ⟨[_], rfl, .num _⟩
    · obtain ⟨vs, b, rfl, h2, rfl⟩ := closed h
      exact ⟨.lpar :: (vs ++ [.rpar]), by simp, .paren h2⟩
    · obtain ⟨r, h1, h2⟩ := Option.map_eq_some_iff.mp h
      cases h2
      obtain ⟨vs, rfl, h3⟩ := readElems_sound (hp .expr) (as := r.1) (rest := r.2) h1
      exact ⟨.lbr :: (vs ++ [.rbr]), by simp, .list h3⟩
    · rename_i f us
      split_ifs at h with h1 h2 h3 h4
      · split at h
        · cases h; subst h1
          exact ⟨[_, _, _, _], rfl, .oPs _⟩
        · cases h
      · split at h
        · cases h; subst h2
          exact ⟨[_, _, _, _, _, _], rfl, .fraction _ _⟩
        · cases h
      · obtain ⟨vs, b, rfl, h5, rfl⟩ := closed h
        subst h3
        exact ⟨.id "numpy.block".toList :: .lpar :: (vs ++ [.rpar]), by simp, .block h5⟩
      · obtain ⟨vs, b, rfl, h5, rfl⟩ := closed h
        subst h4
        exact ⟨.id "numpy.transpose".toList :: .lpar :: (vs ++ [.rpar]), by simp, .transpose h5⟩
      · obtain ⟨r, h5, h6⟩ := Option.map_eq_some_iff.mp h
        cases h6
        obtain ⟨vs, rfl, h7⟩ := readElems_sound (hp .expr) (as := r.1) (rest := r.2) h5
        exact ⟨.id f :: .lpar :: (vs ++ [.rpar]), by simp, .call (by simp only [ownNode, List.mem_cons, List.not_mem_nil, or_false]; tauto) h7⟩
    · cases h; exact ⟨[_], rfl, .name _⟩
    · cases h
  | trailers b =>
    unfold nodeStep at h
    dsimp only at h
    split at h
    · obtain ⟨r, h1, h2⟩ := Option.bind_eq_some_iff.mp h
      obtain ⟨vs, rfl, h3⟩ := readIxs_sound (xs := r.1) (rest := r.2) h1
      obtain ⟨ws, h4, h5⟩ := hp _ _ _ _ h2
      refine ⟨.lbr :: (vs ++ .rbr :: ws), by simp [h4], fun us hu => ?_⟩
      have := h5 _ (.subscript hu h3)
      simpa using this
    · cases h; exact ⟨[], rfl, fun vs hv => by simpa using hv⟩
  | power =>
    unfold nodeStep at h
    dsimp only at h
    obtain ⟨r, h1, h'⟩ := Option.bind_eq_some_iff.mp h
    clear h
    obtain ⟨r', h2, h⟩ := Option.bind_eq_some_iff.mp h'
    clear h'
    obtain ⟨us, rfl, h3⟩ := hp _ _ _ r.2 h1
    obtain ⟨vs, h4, h5⟩ := hp _ _ _ r'.2 h2
    have h6 := h5 _ (.atom h3)
    split at h
    · rename_i ws hw
      obtain ⟨r'', h7, h8⟩ := Option.map_eq_some_iff.mp h
      cases h8
      obtain ⟨xs, h9, h10⟩ := hp _ _ _ r''.2 h7
      exact ⟨us ++ vs ++ .op .pow :: xs, by rw [h4, hw, h9]; simp, .pow h6 h10⟩
    · cases h
      exact ⟨us ++ vs, by rw [h4]; simp, .primary h6⟩
  | factor =>
    unfold nodeStep at h
    dsimp only at h
    split at h
    · obtain ⟨r, h1, h2⟩ := Option.map_eq_some_iff.mp h
      cases h2
      obtain ⟨us, rfl, h3⟩ := hp _ _ _ r.2 h1
      exact ⟨.op .sub :: us, rfl, .neg h3⟩
    · obtain ⟨r, h1, h2⟩ := Option.map_eq_some_iff.mp h
      cases h2
      obtain ⟨us, rfl, h3⟩ := hp _ _ _ r.2 h1
      exact ⟨.op .add :: us, rfl, .pos h3⟩
    · obtain ⟨us, h1, h2⟩ := hp _ _ _ _ h
      exact ⟨us, h1, .power h2⟩
  | term =>
    unfold nodeStep at h
    dsimp only at h
    obtain ⟨r, h1, h2⟩ := Option.bind_eq_some_iff.mp h
    obtain ⟨us, rfl, h3⟩ := hp _ _ _ r.2 h1
    obtain ⟨vs, h4, h5⟩ := hp _ _ _ _ h2
    exact ⟨us ++ vs, by rw [h4]; simp, h5 _ (.factor h3)⟩
  | terms b =>
    have next : ∀ {o : Bin} {us}, (o = .mul ∨ o = .div ∨ o = .matmul) → ((p .factor us).bind fun r => p (.terms (.bin o b r.1)) r.2) = some (a, rest) →
        NodeSound (.terms b) (.op o :: us) a rest := by
      intro o us ho h
      obtain ⟨r, h1, h2⟩ := Option.bind_eq_some_iff.mp h
      obtain ⟨vs, rfl, h3⟩ := hp _ _ _ r.2 h1
      obtain ⟨ws, h4, h5⟩ := hp _ _ _ _ h2
      refine ⟨.op o :: (vs ++ ws), by rw [h4]; simp, fun xs hx => ?_⟩
      have := h5 _ (.times ho hx h3)
      simpa using this
    unfold nodeStep at h
    dsimp only at h
    split at h
    · exact next (.inl rfl) h
    · exact next (.inr (.inl rfl)) h
    · exact next (.inr (.inr rfl)) h
    · cases h; exact ⟨[], rfl, fun vs hv => by simpa using hv⟩
  | expr =>
    unfold nodeStep at h
    dsimp only at h
    obtain ⟨r, h1, h2⟩ := Option.bind_eq_some_iff.mp h
    obtain ⟨us, rfl, h3⟩ := hp _ _ _ r.2 h1
    obtain ⟨vs, h4, h5⟩ := hp _ _ _ _ h2
    exact ⟨us ++ vs, by rw [h4]; simp, h5 _ (.term h3)⟩
  | exprs b =>
    have next : ∀ {o : Bin} {us}, (o = .add ∨ o = .sub) → ((p .term us).bind fun r => p (.exprs (.bin o b r.1)) r.2) = some (a, rest) →
        NodeSound (.exprs b) (.op o :: us) a rest := by
      intro o us ho h
      obtain ⟨r, h1, h2⟩ := Option.bind_eq_some_iff.mp h
      obtain ⟨vs, rfl, h3⟩ := hp _ _ _ r.2 h1
      obtain ⟨ws, h4, h5⟩ := hp _ _ _ _ h2
      refine ⟨.op o :: (vs ++ ws), by rw [h4]; simp, fun xs hx => ?_⟩
      have := h5 _ (.plus ho hx h3)
      simpa using this
    unfold nodeStep at h
    dsimp only at h
    split at h
    · exact next (.inl rfl) h
    · exact next (.inr rfl) h
    · cases h; exact ⟨[], rfl, fun vs hv => by simpa using hv⟩

theorem node_sound : ∀ (f : ℕ) (m : NMode) (ts : List NTok) (a : Node) (rest : List NTok), parseNode f m ts = some (a, rest) → NodeSound m ts a rest
  | 0, _, _, _, _, h => by cases h
  | f + 1, m, ts, a, rest, h => step_sound (node_sound f) m ts a rest h

/-! ### Tokens -/

theorem takeWhile_all {α : Type*} {q : α → Bool} {s t : List α} (h : ∀ c ∈ s, q c = true) (ht : ∀ c, t.head? = some c → q c = false) :
    (s ++ t).takeWhile q = s ∧ (s ++ t).dropWhile q = t := by
  induction s with
  | nil =>
    cases t with
    | nil => simp
    | cons c t => simp [ht c rfl]
  | cons c s ih => simp [h c (by simp), ih fun d hd => h d (by simp [hd])]

theorem nameChar_iff (c : Char) : nameChar c = true ↔ IdChar c := by
  constructor
  · intro h
    simp only [nameChar, asciiLetter, Bool.or_eq_true, Bool.and_eq_true, decide_eq_true_eq] at h
    rcases h with (((h | rfl) | rfl) | rfl) | rfl
    · have e : c = Char.ofNat c.toNat := c.ofNat_toNat.symm
      rcases h with h | h
      · have h1 : 97 ≤ c.toNat := UInt32.le_iff_toNat_le.mp h.1
        have h2 : c.toNat ≤ 122 := UInt32.le_iff_toNat_le.mp h.2
        rw [e]
        generalize c.toNat = m at h1 h2
        interval_cases m <;> decide
      · have h1 : 65 ≤ c.toNat := UInt32.le_iff_toNat_le.mp h.1
        have h2 : c.toNat ≤ 90 := UInt32.le_iff_toNat_le.mp h.2
        rw [e]
        generalize c.toNat = m at h1 h2
        interval_cases m <;> decide
    all_goals decide
  · have : ∀ c ∈ "abcdefghijklmnopqrstuvwxyzABCDEFGHIJKLMNOPQRSTUVWXYZ._ϵε".toList, nameChar c = true := by decide
    exact this c

theorem spells_lex {s : List Char} {ts : List NTok} (h : Spells s ts) : ∀ f, s.length < f → lexNode f s = some ts := by
  induction h with
  | nil =>
    rintro (_ | f) hf
    · omega
    · rfl
  | blank _ ih =>
    rintro (_ | f) hf
    · omega
    · simp only [List.length_cons] at hf
      rw [lexNode, if_pos rfl, ih f (by omega)]
  | @tok t s ts hp he _ ih =>
    rintro (_ | f) hf
    · omega
    · rw [List.length_append] at hf
      cases t with
      | num k =>
        obtain ⟨c, u, hk⟩ : ∃ c u, pyStr k = c :: u := List.exists_cons_of_ne_nil (by simp [pyStr])
        have hd : ∀ c ∈ pyStr k, c.isDigit = true := fun c hc => Nat.isDigit_of_mem_toDigits (by omega) (by omega) hc
        obtain ⟨h1, h2⟩ := takeWhile_all hd he
        have hc : c.isDigit = true := hd c (by simp [hk])
        have hb : c ≠ ' ' := by rintro rfl; simp at hc
        simp only [NTok.text] at hf ⊢
        rw [hk] at h1 h2 hf ⊢
        rw [List.cons_append] at h1 h2 ⊢
        rw [lexNode, if_neg hb, if_pos hc, h1, h2, ← hk, pyLiteral_pyStr, ih f (by simp at hf; omega)]
      | id w =>
        obtain ⟨c, u, rfl⟩ := List.exists_cons_of_ne_nil hp.1
        obtain ⟨h1, h2⟩ := takeWhile_all (fun c hc => (nameChar_iff c).2 (hp.2 c hc))
          fun c hc => Bool.eq_false_iff.2 fun h => he c hc ((nameChar_iff c).1 h)
        have hc : nameChar c = true := (nameChar_iff c).2 (hp.2 c (by simp))
        have hb : c ≠ ' ' := by rintro rfl; simp [nameChar, asciiLetter] at hc
        have hdg : ¬ c.isDigit = true := by
          intro hd
          simp only [nameChar, asciiLetter, Char.isDigit, Bool.or_eq_true, Bool.and_eq_true, decide_eq_true_eq] at hc hd
          rcases hc with (((hc | rfl) | rfl) | rfl) | rfl
          · have h1 : c.val.toNat ≤ 57 := UInt32.le_iff_toNat_le.mp hd.2
            rcases hc with hc | hc
            · have h2 : 97 ≤ c.val.toNat := UInt32.le_iff_toNat_le.mp hc.1
              omega
            · have h2 : 65 ≤ c.val.toNat := UInt32.le_iff_toNat_le.mp hc.1
              omega
          all_goals simp at hd
        simp only [NTok.text, List.length_cons] at hf ⊢
        rw [List.cons_append] at h1 h2 ⊢
        rw [lexNode, if_neg hb, if_neg hdg, if_pos hc, h1, h2, ih f (by omega)]
        rfl
      | str w =>
        have hp' : ∀ c ∈ w, (fun c => decide (c ≠ '\'')) c = true := by
          intro c hc
          simp only [decide_eq_true_eq]
          rintro rfl
          exact hp hc
        obtain ⟨h1, h2⟩ := takeWhile_all (q := fun c => decide (c ≠ '\'')) (t := '\'' :: s) hp' (by simp)
        simp only [NTok.text, List.length_append, List.length_cons] at hf ⊢
        have e : '\'' :: w ++ ['\''] ++ s = '\'' :: (w ++ '\'' :: s) := by simp
        rw [e, lexNode, if_neg (by decide), if_neg (by decide), if_neg (by decide), if_pos rfl, h1, h2, List.tail_cons, ih f (by omega)]
        rfl
      | op o =>
        cases o with
        | mul =>
          have hs : s.head? ≠ some '*' := fun e => he '*' e rfl
          simp only [NTok.text, List.length_cons, List.length_nil] at hf
          show lexNode (f + 1) ('*' :: s) = _
          rw [lexNode, if_neg (by decide), if_neg (by decide), if_neg (by decide), if_neg (by decide), if_neg (by simp [hs])]
          simp only [Char.reduceEq, if_false, if_true]
          rw [ih f (by omega)]
          rfl
        | pow =>
          simp only [NTok.text, List.length_cons, List.length_nil] at hf
          show lexNode (f + 1) ('*' :: '*' :: s) = _
          rw [lexNode, if_neg (by decide), if_neg (by decide), if_neg (by decide), if_neg (by decide), if_pos (by simp), List.tail_cons, ih f (by omega)]
          rfl
        | add | sub | div | matmul =>
          simp only [NTok.text, List.length_cons, List.length_nil] at hf
          simp only [NTok.text, List.cons_append, List.nil_append]
          rw [lexNode, if_neg (by decide), if_neg (by decide), if_neg (by decide), if_neg (by decide), if_neg (by simp)]
          simp only [Char.reduceEq, if_false, if_true]
          rw [ih f (by omega)]
          rfl
      | lpar | rpar | lbr | rbr | comma | colon =>
        simp only [NTok.text, List.length_cons, List.length_nil] at hf
        simp only [NTok.text, List.cons_append, List.nil_append]
        rw [lexNode, if_neg (by decide), if_neg (by decide), if_neg (by decide), if_neg (by decide), if_neg (by simp)]
        simp only [Char.reduceEq, if_false, if_true]
        rw [ih f (by omega)]
        rfl

/-- C106: a text that spells these tokens is read as a tree exactly if Python's grammar derives the tree from the tokens. -/
theorem C106_reads {s : List Char} {ts : List NTok} (hs : Spells s ts) (a : Node) : nodeOf s = some a ↔ Derives .sum ts a := by
  unfold nodeOf
  rw [spells_lex hs _ (by omega)]
  simp only
  constructor
  · intro h
    split at h
    · rename_i e he
      cases h
      obtain ⟨us, h1, h2⟩ := node_sound _ _ _ _ _ he
      rw [List.append_nil] at h1
      exact h1 ▸ h2
    · cases h
  · intro h
    have := found_whole (found h) (derives_pos h) (rest := []) (next_nil _) (9 * ts.length + 1) le_rfl
    rw [List.append_nil] at this
    rw [this]

/-- C106: the grammar leaves no choice. -/
theorem C106_unambiguous {ts : List NTok} {a b : Node} (h : Derives .sum ts a) (h' : Derives .sum ts b) : a = b := by
  have f := found_whole (found h) (derives_pos h) (rest := []) (next_nil _) (9 * ts.length + 1) le_rfl
  have g := found_whole (found h') (derives_pos h) (rest := []) (next_nil _) (9 * ts.length + 1) le_rfl
  rw [f] at g
  cases g
  rfl

end Lips

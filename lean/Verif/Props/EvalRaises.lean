import Verif.Props.ParseExact
import Verif.Props.DispatchNames

/-!
C81 and C94: which exception an expression raises. The operands are evaluated from left to right, and the exception of the first invariant
that raises is the one the caller sees, unless a division by zero comes before it.
-/

namespace Lips

variable {K : Type*} [Field K] {n : ℕ}

/-- The invariants of an expression from left to right. -/
def Ast.names : Ast EAtom → List (List Char)
  | .atom (.leaf i) => [i]
  | .atom _ => []
  | .pos a => a.names
  | .neg a => a.names
  | .add a b => a.names ++ b.names
  | .sub a b => a.names ++ b.names
  | .mul a b => a.names ++ b.names
  | .div a b => a.names ++ b.names
  | .pow a b => a.names ++ b.names

/-- Arithmetic raises nothing but ZeroDivisionError. -/
def Tame (f : EVal K → EVal K → Except Err (EVal K)) : Prop := ∀ v w e, f v w = .error e → e = .zeroDivision

theorem tame_binop {fi : ℤ → ℤ → Except Err (EVal K)} {fq : ℚ → ℚ → Except Err (EVal K)} {fk : K → K → Except Err (EVal K)}
    (h1 : ∀ a b e, fi a b = .error e → e = .zeroDivision) (h2 : ∀ a b e, fq a b = .error e → e = .zeroDivision)
    (h3 : ∀ a b e, fk a b = .error e → e = .zeroDivision) : Tame (binop fi fq fk) := by
  intro v w e h
  rcases v with a | a | a | _ <;> rcases w with b | b | b | _ <;> simp only [binop] at h <;>
    first
    | exact h1 _ _ _ h
    | exact h2 _ _ _ h
    | cases h
    | (split at h
       · exact h3 _ _ _ h
       · injection h with h; exact h.symm)

theorem tame_add : Tame (vAdd (K := K)) := tame_binop (by simp) (by simp) (by simp)

theorem tame_sub : Tame (vSub (K := K)) := tame_binop (by simp) (by simp) (by simp)

theorem tame_mul : Tame (vMul (K := K)) := tame_binop (by simp) (by simp) (by simp)

theorem tame_div : Tame (vDiv (K := K)) := by
  refine tame_binop ?_ ?_ ?_ <;> intro a b e h <;> split at h <;> first | (injection h with h; exact h.symm) | cases h

theorem tame_pow : Tame (vPow (K := K)) := by
  intro v w e h
  rcases v with a | a | a | _ <;> rcases w with b | b | b | _ <;> simp only [vPow] at h <;> try cases h
  all_goals
    repeat' split at h
    all_goals first | (injection h with h; exact h.symm) | cases h

/-- What the names of an expression say of its evaluation: without an exception of a name nothing but ZeroDivisionError, with one that
exception or a ZeroDivisionError before. -/
def Said (leaf : List Char → Except Err K) (e : Ast EAtom) : Prop :=
  (∀ er, evalNode leaf e = .error er → er = .zeroDivision ∨
    ∃ pre i post, e.names = pre ++ i :: post ∧ leaf i = .error er ∧ ∀ j ∈ pre, ∃ x, leaf j = .ok x) ∧
  (∀ i ∈ e.names, ∀ er, leaf i = .error er → ∃ er', evalNode leaf e = .error er')

theorem said_two {leaf : List Char → Except Err K} {a b e : Ast EAtom} {f : EVal K → EVal K → Except Err (EVal K)} (hf : Tame f)
    (he : evalNode leaf e = lift₂ f (evalNode leaf a) (evalNode leaf b)) (hn : e.names = a.names ++ b.names) (ha : Said leaf a)
    (hb : Said leaf b) : Said leaf e := by
  have hok : ∀ x, evalNode leaf a = .ok x → ∀ j ∈ a.names, ∃ x, leaf j = .ok x := by
    intro x hx j hj
    rcases hl : leaf j with er | y
    · obtain ⟨er', h⟩ := ha.2 j hj er hl
      rw [hx] at h; cases h
    · exact ⟨y, rfl⟩
  refine ⟨?_, ?_⟩
  · intro er
    rw [he, hn]
    rcases h1 : evalNode leaf a with ea | x
    · rw [lift₂]
      intro h
      injection h with h
      subst h
      rcases ha.1 _ h1 with h | ⟨pre, i, post, hp, hi, hq⟩
      · exact .inl h
      · exact .inr ⟨pre, i, post ++ b.names, by rw [hp]; simp, hi, hq⟩
    · rcases h2 : evalNode leaf b with eb | y
      · rw [lift₂]
        intro h
        injection h with h
        subst h
        rcases hb.1 _ h2 with h | ⟨pre, i, post, hp, hi, hq⟩
        · exact .inl h
        · refine .inr ⟨a.names ++ pre, i, post, by rw [hp]; simp, hi, fun j hj => ?_⟩
          rcases List.mem_append.mp hj with hj | hj
          · exact hok x h1 j hj
          · exact hq j hj
      · rw [lift₂]
        exact fun h => .inl (hf _ _ _ h)
  · intro i hi er hl
    rw [he]
    rw [hn] at hi
    rcases h1 : evalNode leaf a with ea | x
    · exact ⟨_, rfl⟩
    · rcases List.mem_append.mp hi with hi | hi
      · obtain ⟨er', h⟩ := ha.2 i hi er hl
        rw [h1] at h; cases h
      · obtain ⟨er', h⟩ := hb.2 i hi er hl
        rw [h]
        exact ⟨_, rfl⟩

theorem said (leaf : List Char → Except Err K) (e : Ast EAtom) : Said leaf e := by
  induction e with
  | atom x =>
    rcases x with k | ⟨a, b⟩ | i
    · exact ⟨fun er h => by simp [evalNode] at h, fun i hi => absurd hi List.not_mem_nil⟩
    · refine ⟨fun er h => ?_, fun i hi => absurd hi List.not_mem_nil⟩
      rw [evalNode] at h
      split at h
      · injection h with h; exact .inl h.symm
      · cases h
    · refine ⟨fun er h => ?_, fun j hj er h => ?_⟩
      · rw [evalNode] at h
        rcases hl : leaf i with e' | x <;> rw [hl] at h
        · injection h with h
          subst h
          exact .inr ⟨[], i, [], rfl, hl, by simp⟩
        · cases h
      · simp only [Ast.names, List.mem_singleton] at hj
        subst hj
        exact ⟨er, by rw [evalNode, h]⟩
  | pos a ih => exact ⟨fun er h => ih.1 er h, fun i hi er h => ih.2 i hi er h⟩
  | neg a ih =>
    refine ⟨fun er h => ?_, fun i hi er h => ?_⟩
    · rw [evalNode] at h
      rcases h1 : evalNode leaf a with e' | x <;> rw [h1] at h
      · injection h with h; subst h; exact ih.1 _ h1
      · cases h
    · obtain ⟨er', h1⟩ := ih.2 i hi er h
      exact ⟨er', by rw [evalNode, h1]⟩
  | add a b iha ihb => exact said_two tame_add (by rw [evalNode]) rfl iha ihb
  | sub a b iha ihb => exact said_two tame_sub (by rw [evalNode]) rfl iha ihb
  | mul a b iha ihb => exact said_two tame_mul (by rw [evalNode]) rfl iha ihb
  | div a b iha ihb => exact said_two tame_div (by rw [evalNode]) rfl iha ihb
  | pow a b iha ihb => exact said_two tame_pow (by rw [evalNode]) rfl iha ihb

/-- **C81**: an expression raises ZeroDivisionError or the exception of the first of its invariants that raises one, and the invariants
to the left of it have values. -/
theorem C81_raises (leaf : List Char → Except Err K) (e : Ast EAtom) (er : Err) (h : evalNode leaf e = .error er) :
    er = .zeroDivision ∨ ∃ pre i post, e.names = pre ++ i :: post ∧ leaf i = .error er ∧ ∀ j ∈ pre, ∃ x, leaf j = .ok x :=
  (said leaf e).1 er h

/-- **C81**: an exception is not lost: if an invariant raises, so does the expression. The first of the invariants that raise says with
which exception, unless there is a division by zero to the left of it. -/
theorem C81_raises_first (leaf : List Char → Except Err K) (e : Ast EAtom) (pre post : List (List Char)) (i : List Char) (er : Err)
    (hn : e.names = pre ++ i :: post) (hi : leaf i = .error er) (hp : ∀ j ∈ pre, ∃ x, leaf j = .ok x) :
    evalNode leaf e = .error er ∨ evalNode leaf e = .error .zeroDivision := by
  obtain ⟨er', h⟩ := (said leaf e).2 i (by rw [hn]; simp) er hi
  rw [h]
  rcases C81_raises leaf e er' h with rfl | ⟨pre', i', post', hn', hi', hp'⟩
  · exact .inr rfl
  · left
    rw [hn] at hn'
    rcases List.append_eq_append_iff.mp hn' with ⟨as, h1, h2⟩ | ⟨bs, h1, h2⟩
    · rcases as with _ | ⟨a, as⟩
      · rw [List.nil_append] at h2
        injection h2 with h2 _
        subst h2
        rw [hi'] at hi
        injection hi with hi
        rw [hi]
      · rw [List.cons_append] at h2
        injection h2 with h2 _
        subst h2
        obtain ⟨x, hx⟩ := hp' i (by rw [h1]; simp)
        rw [hi] at hx; cases hx
    · rcases bs with _ | ⟨b, bs⟩
      · rw [List.nil_append] at h2
        injection h2 with h2 _
        subst h2
        rw [hi'] at hi
        injection hi with hi
        rw [hi]
      · rw [List.cons_append] at h2
        injection h2 with h2 _
        subst h2
        obtain ⟨x, hx⟩ := hp i' (by rw [h1]; simp)
        rw [hi'] at hx; cases hx

/-- **C81**: a literal over zero raises ZeroDivisionError, alone and in front of anything. -/
theorem C81_over_zero (leaf : List Char → Except Err K) (a : ℕ) (b : Ast EAtom) :
    evalNode leaf (.atom (.rat a 0)) = .error .zeroDivision ∧ evalNode leaf (.add (.atom (.rat a 0)) b) = .error .zeroDivision ∧
    evalNode leaf (.mul (.atom (.rat a 0)) b) = .error .zeroDivision := by
  refine ⟨?_, ?_, ?_⟩ <;> simp [evalNode, lift₂]

/-- **C81**: a power of zero with a negative exponent raises ZeroDivisionError. -/
theorem C81_zero_power (leaf : List Char → Except Err K) (i : List Char) (k : ℕ) (hk : 0 < k) (hi : leaf i = .ok 0) :
    evalNode leaf (.pow (.atom (.leaf i)) (.neg (.atom (.num k)))) = .error .zeroDivision := by
  simp [evalNode, lift₂, hi, vNeg, vPow, hk]

/-- **C94**: exceptions of `compute` on an invariant are what the expression meets. -/
theorem C94_leaf_raises (ps : Point K n) (fuel : ℕ) (i : List Char) (er : Err) (h : computeText ps fuel i = some (.error er)) :
    leafNum ps fuel i = .error er := by
  rw [leafNum, h]

/-- **C94**: an expression of invariants of which the first that raises does so with `er`. -/
theorem C94_raises (ps : Point K n) (fuel : ℕ) (e : Ast EAtom) (pre post : List (List Char)) (i : List Char) (er : Err)
    (hn : e.names = pre ++ i :: post) (hi : computeText ps fuel i = some (.error er))
    (hp : ∀ j ∈ pre, ∃ x, computeText ps fuel j = some (.ok (.num x))) :
    evalNode (leafNum ps fuel) e = .error er ∨ evalNode (leafNum ps fuel) e = .error .zeroDivision := by
  refine C81_raises_first _ e pre post i er hn (C94_leaf_raises ps fuel i er hi) fun j hj => ?_
  obtain ⟨x, hx⟩ := hp j hj
  exact ⟨x, by rw [leafNum, hx]⟩

/-! ### Non-vacuity -/

/-- `x + y*z` where `y` raises a ValueError and `z` a KeyError: the former. -/
example (leaf : List Char → Except Err ℚ) (hx : leaf ['x'] = .ok 5) (hy : leaf ['y'] = .error .valueError)
    (_ : leaf ['z'] = .error .keyError) :
    evalText leaf [.leaf ['x'], .ch '+', .leaf ['y'], .ch '*', .leaf ['z']] = .error .valueError := by
  have h : readText [.leaf ['x'], .ch '+', .leaf ['y'], .ch '*', .leaf ['z']] = .ok (.add (.atom (.leaf ['x'])) (.mul (.atom (.leaf ['y'])) (.atom (.leaf ['z'])))) := by decide +kernel
  rw [evalText, h]
  rcases C81_raises_first leaf (.add (.atom (.leaf ['x'])) (.mul (.atom (.leaf ['y'])) (.atom (.leaf ['z'])))) [['x']] [['z']] ['y'] _ rfl hy (by simpa using ⟨5, hx⟩) with h | h
  · exact h
  · simp [evalNode, lift₂, hx, hy] at h

/-- `(1/0)*x`, whatever `x` is. -/
example (leaf : List Char → Except Err ℚ) : evalText leaf (symsOf "1/0*x") = .error .zeroDivision := by
  have h : readText (symsOf "1/0*x") = .ok (.mul (.atom (.rat 1 0)) (.atom (.leaf ['x']))) := by decide +kernel
  rw [evalText, h]
  exact (C81_over_zero leaf 1 _).2.2

/-- `x + s_10*y` where `x` is a number raises an IndexError, whatever `y` is. -/
example (ps : Point ℚ 4) (x y : List Char) (a : ℚ) (hx : computeText ps 3 x = some (.ok (.num a))) :
    evalNode (leafNum ps 3) (.add (.atom (.leaf x)) (.mul (.atom (.leaf "s_10".toList)) (.atom (.leaf y)))) = .error .indexError := by
  have h1 := (C82_two_digit_mandelstam ps 3).1
  rcases C94_raises ps 3 (.add (.atom (.leaf x)) (.mul (.atom (.leaf "s_10".toList)) (.atom (.leaf y)))) [x] [y] "s_10".toList _ rfl
    h1 (by simpa using ⟨a, hx⟩) with h | h
  · exact h
  · have hx' : leafNum ps 3 x = .ok a := by rw [leafNum, hx]
    simp only [evalNode, lift₂, hx', C94_leaf_raises ps 3 _ _ h1] at h
    cases h

end Lips

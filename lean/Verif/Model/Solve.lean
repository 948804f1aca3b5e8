import Verif.Model.Indexing

/-!
Model of the methods that run a solver and check its result: `_set`
(lips/hardcoded_limits/particles_set.py:23-35), `_set_pair`
(lips/hardcoded_limits/particles_set_pair.py:23-40) and `variety` (lips/particles_variety.py:24-73). A
solver is any function that changes the particles and returns or raises; when it raises, the changes
made so far stay. `I` is the type of strings, `compute` any evaluation of strings on points.
-/

namespace Lips

variable {K Γ I : Type*} [Field K] [LinearOrder Γ] {n : ℕ}

/-- What happened, and the particles left behind. -/
abbrev Run (K : Type*) (n : ℕ) (α : Type*) := Except Err α × Point K n

/-- A solver: any behaviour on any point. -/
abbrev Solver (K : Type*) (n : ℕ) (α : Type*) := Point K n → Run K n α

/-- Absolute value, tolerance and evaluation. -/
structure Env (K Γ I : Type*) (n : ℕ) where
  abs : K → Γ
  tol : Γ
  compute : Point K n → I → Except Err K

/-- The momentum and on-shell checks, as used in all three methods: `none` when both succeed. -/
def checkPoint (E : Env K Γ I n) (ps : Point K n) : Option Err :=
  match momentumConservationCheck E.abs E.tol ps, onshellRelationCheck E.abs E.tol ps with
  | .error e, _ => some e
  | _, .error e => some e
  | .ok false, _ => some .exception
  | _, .ok false => some .exception
  | .ok true, .ok true => none

/-- `_set`, particles_set.py:23-35. -/
def setChecked (E : Env K Γ I n) (inner : Solver K n Unit) (s : I) (v : K) (fix : Bool) : Solver K n Unit := fun ps =>
  match inner ps with
  | (.error e, ps') => (.error e, ps')
  | (.ok _, ps') =>
    match E.compute ps' s with
    | .error e => (.error e, ps')
    | .ok x =>
      match (if fix then checkPoint E ps' else none) with
      | some e => (.error e, ps')
      | none => if E.abs (x - v) ≤ E.tol then (.ok (), ps') else (.error .exception, ps')

/-- What `_set_pair_inner` returns: nothing, the text `Not implemented.`, or a list of two strings. -/
inductive PairResult (I : Type*) where
  | nothing
  | notImplemented
  | other (s₁ s₂ : I)

/-- `min(abs(x - v), abs(x + v))`. -/
def signDiff (abs : K → Γ) (x v : K) : Γ := min (abs (x - v)) (abs (x + v))

/-- `_set_pair`, particles_set_pair.py:23-40. -/
def setPairChecked (E : Env K Γ I n) (inner : Solver K n (PairResult I)) (s₁ : I) (v₁ : K) (s₂ : I) (v₂ : K) :
    Solver K n Unit := fun ps =>
  match inner ps with
  | (.error e, ps') => (.error e, ps')
  | (.ok .notImplemented, ps') => (.error .exception, ps')
  | (.ok .nothing, ps') => finish s₁ s₂ ps'
  | (.ok (.other t₁ t₂), ps') => finish t₁ t₂ ps'
where
  /-- Lines 30-40. -/
  finish (t₁ t₂ : I) (ps' : Point K n) : Run K n Unit :=
    match E.compute ps' t₁, E.compute ps' t₂ with
    | .error e, _ => (.error e, ps')
    | _, .error e => (.error e, ps')
    | .ok x, .ok y =>
      match checkPoint E ps' with
      | some e => (.error e, ps')
      | none => if signDiff E.abs x v₁ ≤ E.tol ∧ signDiff E.abs y v₂ ≤ E.tol then (.ok (), ps') else (.error .exception, ps')

/-- The field of the point, for the last test of `variety`: characteristic zero, finite, p-adic. For the
p-adics `E.abs` is only used by the checks and `val x` is the valuation of `x`. -/
inductive FieldKind (K : Type*) where
  | char0
  | finite
  | padic (val : K → ℤ)

/-- The final test on one invariant, particles_variety.py:62-73: `v` is the requested value, `w` the
requested valuation (the same number in characteristic zero). -/
def valueOk [DecidableEq K] (E : Env K Γ I n) : FieldKind K → K → K → ℤ → Bool
  | .char0, x, v, _ => decide (signDiff E.abs x v ≤ E.tol)
  | .finite, x, _, _ => decide (x = 0)
  | .padic val, x, _, w => decide (val x = w)

/-- The tests over all invariants; evaluation may raise. -/
def valuesOk [DecidableEq K] (E : Env K Γ I n) (k : FieldKind K) (ps : Point K n) :
    List (I × K × ℤ) → Except Err Bool
  | [] => .ok true
  | (s, v, w) :: rest =>
    match E.compute ps s, valuesOk E k ps rest with
    | .error e, _ => .error e
    | _, .error e => .error e
    | .ok x, .ok b => .ok (valueOk E k x v w && b)

/-- particles_variety.py:54-73. -/
def varietyFinish [DecidableEq K] (E : Env K Γ I n) (k : FieldKind K) (req : List (I × K × ℤ)) (ps : Point K n) :
    Run K n Unit :=
  match checkPoint E ps with
  | some e => (.error e, ps)
  | none =>
    match valuesOk E k ps req with
    | .error e => (.error e, ps)
    | .ok true => (.ok (), ps)
    | .ok false => (.error .exception, ps)

/-- `for i, iParticle in enumerate(self_backup): self[i + 1] = iParticle`, particles_variety.py:45-46. -/
def restore (backup cur : Point K n) : Point K n :=
  (List.finRange n).foldl (fun ps i => Function.update ps i (backup i)) cur

/-- The hard-coded solver of `variety`, particles_variety.py:37-42: `_set` for one invariant, `_set_pair`
for two, otherwise NotImplementedError. -/
def hardSolver (one : I → K → Solver K n Unit) (two : I → K → I → K → Solver K n Unit) :
    List (I × K × ℤ) → Solver K n Unit
  | [(s, v, _)] => one s v
  | [(s, v, _), (t, u, _)] => two s v t u
  | _ => fun ps => (.error .notImplemented, ps)

/-- `variety`, particles_variety.py:24-73. Simplifications: the requested values are given (in the p-adic
case the code draws them), and every exception is an `Exception`. -/
def variety [DecidableEq K] (E : Env K Γ I n) (k : FieldKind K) (hard singular : Solver K n Unit) (allowed : Bool)
    (req : List (I × K × ℤ)) : Solver K n Unit := fun ps =>
  match hard ps with
  | (.ok _, ps₁) => varietyFinish E k req ps₁
  | (.error _, ps₁) =>
    if allowed then
      match singular (restore ps ps₁) with
      | (.ok _, ps₂) => varietyFinish E k req ps₂
      | (.error e, ps₂) => (.error e, ps₂)
    else varietyFinish E k req ps₁

end Lips

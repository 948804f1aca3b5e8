import Verif.Model.Particle
import Mathlib.Algebra.BigOperators.Fin

/-!
Model of the momentum bookkeeping of `lips/particles.py`: total momentum, masses,
`fix_mom_cons`, and the two checks.

A phase-space point of `n` particles is a function `Fin n → Particle K`; the base-one label
`k` of the code is the index `k - 1`.  (The list operations themselves are modelled in
`Verif.Model.Indexing`.)  Python's `sum` over a list of arrays is the finite sum.
-/

namespace Lips

open Matrix

variable {K : Type*} [Field K] {n : ℕ}

/-- `Particles` as far as external kinematics goes (particles.py:38-60). -/
abbrev Point (K : Type*) (n : ℕ) := Fin n → Particle K

/-- `total_mom`, particles.py:102-105. -/
def totalMom (ps : Point K n) : M2 K := ∑ i, (ps i).r2

/-- Base-one label to position, with the IndexError of `indexing_decorator`
(tools.py:122-140). -/
def label (n k : ℕ) : Except Err (Fin n) :=
  if h : 1 ≤ k ∧ k ≤ n then .ok ⟨k - 1, by omega⟩ else .error .indexError

/-- Row times column of components: `row @ col`. -/
def dot2 (s t : V2 K) : K := s 0 * t 0 + s 1 * t 1

/-- `compute("⟨A|B⟩")`, particles_compute.py:159-161: `A.r_sp_u @ B.r_sp_d`; TypeError when a
spinor is `None`. -/
def angle (a b : Particle K) : Except Err K :=
  match a.r_u, b.r_d with
  | some u, some d => .ok (dot2 u d)
  | _, _ => .error .typeError

/-- `compute("[A|B]")`, particles_compute.py:171-173: `A.l_sp_d @ B.l_sp_u`. -/
def square (a b : Particle K) : Except Err K :=
  match a.l_d, b.l_u with
  | some d, some u => .ok (dot2 d u)
  | _, _ => .error .typeError

/-- `K = sum([self[k].r2_sp for k in range(1, len(self)+1) if k not in [A, B]])`,
particles.py:294. For `n = 2` the Python sum is the integer 0, and `numpy.dot(row, 0)` is a
row of zeros, as it is here. -/
def othersR2 (ps : Point K n) (a b : Fin n) : M2 K := ∑ k with k ≠ a ∧ k ≠ b, (ps k).r2

/-- `K = sum([self[k].four_mom ...])`, particles.py:289; `four_mom` missing raises TypeError,
and so does `K[0]` when the sum is empty (the integer 0 is not subscriptable). -/
def othersMom (ps : Point K n) (a b : Fin n) : Except Err (V4 K) :=
  if ∀ k, k ≠ a ∧ k ≠ b → (ps k).mom.isSome then
    if ∃ k, k ≠ a ∧ k ≠ b then
      .ok (∑ k with k ≠ a ∧ k ≠ b, ((ps k).mom.getD 0))
    else .error .typeError
  else .error .typeError

/-- An assignment through a setter, keeping only success or the exception. -/
def Out.toExcept (o : Out K) : Except Err (Particle K) :=
  match o with
  | ⟨p, none⟩ => .ok p
  | ⟨_, some e⟩ => .error e

open Classical in
/-- `fix_mom_cons`, `axis == 1` branch, particles.py:294-297. The divisor is recomputed before
the second assignment, from left spinors which the first assignment did not change. -/
noncomputable def fixAxis1 (c : Ctx K) (ps : Point K n) (a b : Fin n) :
    Except Err (Point K n) := do
  let k := othersR2 ps a b
  let lb ← match (ps b).l_d with | some s => .ok s | none => .error Err.typeError
  let d ← square (ps a) (ps b)
  if d = 0 then throw .zeroDivision
  let ps₁ := Function.update ps a (← (setRu c (ps a) (fun j => vecMul lb k j / d)).toExcept)
  let la ← match (ps₁ a).l_d with | some s => .ok s | none => .error Err.typeError
  let d₁ ← square (ps₁ a) (ps₁ b)
  if d₁ = 0 then throw .zeroDivision
  return Function.update ps₁ b (← (setRu c (ps₁ b) (fun j => -(vecMul la k j) / d₁)).toExcept)

open Classical in
/-- `fix_mom_cons`, other axes, particles.py:294, 298-300. -/
noncomputable def fixAxis2 (c : Ctx K) (ps : Point K n) (a b : Fin n) :
    Except Err (Point K n) := do
  let k := othersR2 ps a b
  let rb ← match (ps b).r_d with | some s => .ok s | none => .error Err.typeError
  let d ← angle (ps a) (ps b)
  if d = 0 then throw .zeroDivision
  let ps₁ := Function.update ps a (← (setLu c (ps a) (fun j => -(k.mulVec rb j) / d)).toExcept)
  let ra ← match (ps₁ a).r_d with | some s => .ok s | none => .error Err.typeError
  let d₁ ← angle (ps₁ a) (ps₁ b)
  if d₁ = 0 then throw .zeroDivision
  return Function.update ps₁ b (← (setLu c (ps₁ b) (fun j => k.mulVec ra j / d₁)).toExcept)

/-- `numpy.dot(K, numpy.dot(MinkowskiMetric, K))`, particles.py:290. -/
def minkSq (v : V4 K) : K := v ⬝ᵥ (eta.mulVec v)

open Classical in
/-- `fix_mom_cons`, `real_momenta is True` branch, particles.py:288-291. -/
noncomputable def fixReal (c : Ctx K) (ps : Point K n) (a b : Fin n) (axis : Fin 4) :
    Except Err (Point K n) := do
  let k ← othersMom ps a b
  if 2 * (k 0 - k axis) = 0 then throw .zeroDivision
  let va : V4 K := fun μ => if μ = 0 ∨ μ = axis then -(minkSq k) / (2 * (k 0 - k axis)) else 0
  let ps₁ := Function.update ps a (← (setMom c (ps a) va).toExcept)
  let ma ← match (ps₁ a).mom with | some v => .ok v | none => .error Err.typeError
  return Function.update ps₁ b (← (setMom c (ps₁ b) (fun μ => -(ma μ) - k μ)).toExcept)

/-- `fix_mom_cons`, particles.py:282-300.  `draw` is what `random.sample` returns (a pair of
labels, by its contract distinct and in range); an `axis` above 3 raises IndexError in the
real branch.  When exactly one of `A`, `B` is 0 no branch is taken. -/
noncomputable def fixMomCons (c : Ctx K) (ps : Point K n) (A B : ℕ) (real : Bool) (axis : ℕ)
    (draw : ℕ × ℕ) : Except Err (Point K n) :=
  let go (A B : ℕ) : Except Err (Point K n) :=
    if A ≠ 0 ∧ B ≠ 0 ∧ real = true then
      match label n A, label n B with
      | .ok a, .ok b => if h : axis < 4 then fixReal c ps a b ⟨axis, h⟩ else .error .indexError
      | _, _ => .error .indexError
    else if A ≠ 0 ∧ B ≠ 0 then
      match label n A, label n B with
      | .ok a, .ok b => if axis = 1 then fixAxis1 c ps a b else fixAxis2 c ps a b
      | _, _ => .error .indexError
    else .ok ps
  if A = 0 ∧ B = 0 then go draw.1 draw.2 else go A B

/-- Python's `max` of a list; ValueError on the empty one. -/
def pyMax {Γ : Type*} [LinearOrder Γ] : List Γ → Except Err Γ
  | [] => .error .valueError
  | x :: xs => .ok (xs.foldl (fun m y => if y > m then y else m) x)

/-- `flatten(self.total_mom)`. -/
def totalEntries (ps : Point K n) : List K :=
  [totalMom ps 0 0, totalMom ps 0 1, totalMom ps 1 0, totalMom ps 1 1]

/-- `max(map(abs, xs)) > tollerance → False, else True`, the body shared by the two checks.
`abs` and `tol` are the absolute value and tolerance of the field, with values in any linear
order. -/
def withinTol {Γ : Type*} [LinearOrder Γ] (abs : K → Γ) (tol : Γ) (xs : List K) :
    Except Err Bool :=
  match pyMax (xs.map abs) with
  | .error e => .error e
  | .ok m => if m > tol then .ok false else .ok true

/-- `momentum_conservation_check`, particles.py:302-310 (without the printing). -/
def momentumConservationCheck {Γ : Type*} [LinearOrder Γ] (abs : K → Γ) (tol : Γ)
    (ps : Point K n) : Except Err Bool := withinTol abs tol (totalEntries ps)

/-- `onshell_relation_check`, particles.py:312-320 (without the printing). -/
def onshellRelationCheck {Γ : Type*} [LinearOrder Γ] (abs : K → Γ) (tol : Γ)
    (ps : Point K n) : Except Err Bool := withinTol abs tol (List.ofFn fun i => (ps i).m2)

end Lips

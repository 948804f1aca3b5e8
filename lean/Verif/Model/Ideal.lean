import Verif.Model.Components
import Mathlib.Algebra.MvPolynomial.Eval
import Mathlib.RingTheory.Ideal.Span

/-!
Model of the constructor and of the membership test of `LipsIdeal`, lips/algebraic_geometry/covariant_ideal.py:20-69, and of
`_singular_variety`, lips/algebraic_geometry/particles_singular_variety.py:15-37.

Covariants are read already: numbers built from the invariants of particles_compute.py with sums, products and negation; open
strings; Gram determinants of three corners. The symbols are elements `x` of a field of expressions. The text of a polynomial is the
polynomial with integer coefficients that it denotes: `4 *` on lines 36 and 63 clears the halves of a Gram determinant.
`point_on_variety` of the package syngular is an argument. Simplification: divisions, and Gram determinants inside of sums and
products, are left out.
-/

namespace Lips

open Matrix MvPolynomial

/-- A variable of the ring: a particle, and which of `a`, `b`, `c`, `d`. -/
abbrev Comp (n : ℕ) := Fin n × Fin 4

/-- A covariant whose value is a number. -/
inductive Scal (n : ℕ) where
  | int (z : ℤ)
  | two (ang : Bool) (a b : Fin n)
  | string (first : Char) (a : Fin n) (mid : List (Slot n)) (d : Fin n) (last : Char)
  | tr (mid : List (Slot n))
  | tr5 (a b c d : Slot n)
  | mandel (ls : List (Fin n))
  | omega (A B C : List (Fin n))
  | pi (A C : List (Fin n))
  | d5 (l1 l2 l3 l4 l5 : Fin n)
  | add (s t : Scal n)
  | mul (s t : Scal n)
  | neg (s : Scal n)

/-- A covariant. -/
inductive Cov (n : ℕ) where
  | scal (s : Scal n)
  | openBegin (mid : List (Slot n)) (d : Fin n) (last : Char)
  | openEnd (first : Char) (a : Fin n) (mid : List (Slot n))
  | doubleOpen (mid : List (Slot n))
  | delta (A B C : List (Fin n))

/-- Two values combined; the left one is computed first. -/
def both {α β γ : Type*} (f : α → β → γ) : Except Err α → Except Err β → Except Err γ
  | .ok a, .ok b => .ok (f a b)
  | .error e, _ => .error e
  | _, .error e => .error e

section
variable {K : Type*} [Field K] {n : ℕ}

/-- The value at a point, with the functions of Model/Compute. -/
def Scal.value (ps : Point K n) : Scal n → Except Err K
  | .int z => .ok z
  | .two ang a b => if ang then angle (ps a) (ps b) else square (ps a) (ps b)
  | .string first a mid d last => computeNB ps first a mid d last
  | .tr mid => .ok (computeTr ps mid)
  | .tr5 a b c d => computeTr5 ps a b c d
  | .mandel ls => .ok (computeS ps ls)
  | .omega A B C => computeOmega ps A B C
  | .pi A C => computePi ps A C
  | .d5 l1 l2 l3 l4 l5 => .ok (computeD5 ps l1 l2 l3 l4 l5)
  | .add s t => both (· + ·) (s.value ps) (t.value ps)
  | .mul s t => both (· * ·) (s.value ps) (t.value ps)
  | .neg s => (s.value ps).map (- ·)

/-- The entries of the value, `flatten` on lines 38 and 67. -/
def Cov.value (ps : Point K n) : Cov n → Except Err (List K)
  | .scal s => (s.value ps).map fun v => [v]
  | .openBegin mid d last => (computeOpenBegin ps mid d last).map fun v => [v 0, v 1]
  | .openEnd first a mid => (computeOpenEnd ps first a mid).map fun v => [v 0, v 1]
  | .doubleOpen mid =>
    .ok [computeDoubleOpen ps mid 0 0, computeDoubleOpen ps mid 0 1, computeDoubleOpen ps mid 1 0, computeDoubleOpen ps mid 1 1]
  | .delta A B C => .ok [computeDelta ps 1 ![A, B, C]]

open Classical in
/-- An expression read as a polynomial by Singular. Simplification: one that is no polynomial raises. -/
noncomputable def polyOf (x : Comp n → K) (y : K) : Except Err (MvPolynomial (Comp n) ℤ) :=
  if h : ∃ P : MvPolynomial (Comp n) ℤ, aeval x P = y then .ok h.choose else .error .exception

open Classical in
/-- `sympy.Poly(...)` on lines 40, 42 and 44: it raises GeneratorsNeeded on an expression without symbols. -/
noncomputable def polyText (x : Comp n → K) (y : K) : Except Err (MvPolynomial (Comp n) ℤ) :=
  if ∃ z : ℤ, y = z then .error .exception else polyOf x y

/-- A function on the elements of a list, in order. -/
def eachOf {α β : Type*} (f : α → Except Err β) : List α → Except Err (List β)
  | [] => .ok []
  | y :: ys => both (· :: ·) (f y) (eachOf f ys)

/-- `flatten(oParticles.total_mom)`, line 44. -/
def momEntries (qs : Point K n) : List K :=
  [totalMom qs 0 0, totalMom qs 0 1, totalMom qs 1 0, totalMom qs 1 1]

/-- Lines 36-42: the polynomials of one covariant. -/
noncomputable def covGens (x : Comp n → K) (qs : Point K n) (s : Cov n) : Except Err (List (MvPolynomial (Comp n) ℤ)) :=
  match s.value qs with
  | .ok vs => eachOf (polyText x) (vs.map (4 * ·))
  | .error e => .error e

/-- The generators of `LipsIdeal(multiplicity, covariants, momentum_conservation)`, covariant_ideal.py:30-44: `ps` is the point
`Particles(multiplicity)`. -/
noncomputable def lipsGens (c : Ctx K) (x : Comp n → K) (ps : Point K n) (covs : List (Cov n)) (mc : Bool) :
    Except Err (List (MvPolynomial (Comp n) ℤ)) :=
  match makeAnalytical c ps none fun k j => x (k, j) with
  | .error e => .error e
  | .ok qs =>
    both (fun Gs M => Gs.flatten ++ M) (eachOf (covGens x qs) covs) (if mc then eachOf (polyText x) (momEntries qs) else .ok [])

end

section
variable {F K : Type*} [Field F] [Field K] {n : ℕ}

/-- `_singular_variety`, particles_singular_variety.py:15-37. `own` are the generators when some are given (lines 27-28), `solve` is
`point_on_variety` on the ideal and on the ideal divided out by line 31. The directions (lines 20-25) only go to `solve`. -/
noncomputable def singularVariety (cF : Ctx F) (x : Comp n → F) (ps₀ : Point F n) (c : Ctx K)
    (solve : List (MvPolynomial (Comp n) ℤ) → List (MvPolynomial (Comp n) ℤ) → Except Err (Dict K))
    (covs : List (Cov n)) (own : List (MvPolynomial (Comp n) ℤ)) (ps : Point K n) : Except Err (Point K n) :=
  match (if own = [] then lipsGens cF x ps₀ covs true else .ok own), lipsGens cF x ps₀ [] true with
  | .ok G, .ok Z =>
    match solve G Z with
    | .error e => .error e
    | .ok d => updateParticles c ps d
  | .error e, _ => .error e
  | _, .error e => .error e

open Classical in
/-- `covariant in ideal`, covariant_ideal.py:57-69, for an ideal over the rational numbers with generators `G`. -/
noncomputable def lipsContains (c : Ctx F) (x : Comp n → F) (ps : Point F n) (G : List (MvPolynomial (Comp n) ℤ)) (s : Cov n) :
    Except Err Bool :=
  match makeAnalytical c ps none fun k j => x (k, j) with
  | .error e => .error e
  | .ok qs =>
    match s.value qs with
    | .error e => .error e
    | .ok vs => (eachOf (polyOf x) (vs.map (4 * ·))).map fun Ps => decide (∀ P ∈ Ps,
        P.map (Int.castRingHom ℚ) ∈ Ideal.span {Q | ∃ P ∈ G, Q = P.map (Int.castRingHom ℚ)})

end

end Lips

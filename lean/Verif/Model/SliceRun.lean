import Verif.Model.Ideal
import Mathlib.Algebra.Polynomial.Eval.Algebra
import Mathlib.Algebra.Polynomial.AlgebraMap

/-!
Model of the methods `univariate_slice` and `bivariate_slice` as a whole, lips/particles_slices.py:17-99.

`K` is the field of the point, `F` a field of expressions over it with the symbols. The spinors of the random particles are
arguments, and so are `point_on_variety` and `univariate_slice` of the package syngular. Constraints are read already
(Model/Ideal). Simplifications: numbers are exact, the modulus of lines 34, 35, 80 and 81 is the characteristic of the field;
`subs` (Model/Components) has no internal masses.
-/

namespace Lips

open Matrix MvPolynomial

/-- The coefficients, highest degree first: `all_coeffs` on line 36. -/
noncomputable def coeffList {R : Type*} [Semiring R] (Q : Polynomial R) : List R :=
  (List.range (Q.natDegree + 1)).reverse.map Q.coeff

/-- The same for two variables: `as_list` on line 82, flattened. -/
noncomputable def coeffList₂ {R : Type*} [Semiring R] (Q : Polynomial (Polynomial R)) : List R :=
  (coeffList Q).flatMap coeffList

section
variable {K F : Type*} [Field K] [Field F] [Algebra K F] {n : ℕ} {σ : Type*}

/-- The value of a polynomial in `t` and the parameters. -/
noncomputable def readUni (t : F) (x : σ → F) : Polynomial (MvPolynomial σ K) →+* F :=
  Polynomial.eval₂RingHom (aeval x).toRingHom t

/-- The value of a polynomial in `t1`, `t2` and the parameters. -/
noncomputable def readBi (t₁ t₂ : F) (x : σ → F) : Polynomial (Polynomial (MvPolynomial σ K)) →+* F :=
  Polynomial.eval₂RingHom (readUni t₂ x) t₁

open Classical in
/-- Lines 34-36 for one expression: `sympy.poly` raises on an expression without symbols, then the coefficients that are not
zero. Simplification: an expression that is no polynomial raises. -/
noncomputable def exprCoeffs {A R : Type*} [Zero R] (K : Type*) [Field K] [Algebra K F] (ev : A → F) (coeffs : A → List R)
    (y : F) : Except Err (List R) :=
  if ∃ z : K, y = algebraMap K F z then .error .exception
  else if h : ∃ Q, ev Q = y then .ok ((coeffs h.choose).filter (· ≠ 0)) else .error .exception

/-- `self(constraint).expand()`: arrays have no method `expand`. -/
def constraintValue (ps : Point F n) : Cov n → Except Err F
  | .scal s => s.value ps
  | .delta A B C => .ok (computeDelta ps 1 ![A, B, C])
  | _ => .error .attributeError

/-- Lines 35-36 for one constraint. -/
noncomputable def constraintCoeffs {A R : Type*} [Zero R] (K : Type*) [Field K] [Algebra K F] (ev : A → F) (coeffs : A → List R)
    (ps : Point F n) (s : Cov n) : Except Err (List R) :=
  match constraintValue ps s with
  | .error e => .error e
  | .ok y => exprCoeffs K ev coeffs y

/-- Lines 34-36 and 80-82. -/
noncomputable def sliceEquations {A R : Type*} [Zero R] (K : Type*) [Field K] [Algebra K F] (ev : A → F) (coeffs : A → List R)
    (ps : Point F n) (covs : List (Cov n)) : Except Err (List R) :=
  both (fun M C => M.flatten ++ C.flatten) (eachOf (exprCoeffs K ev coeffs) (momEntries ps))
    (eachOf (constraintCoeffs K ev coeffs ps) covs)

open Classical in
/-- Lines 42-46 and 88-92: points are drawn until no parameter is zero. With `seed=None` the second one raises. -/
noncomputable def drawPoint {R : Type*} (solve : List R → Option ℤ → Except Err (σ → K)) (G : List R) (seed : Option ℤ) :
    ℕ → ℕ → Option (Except Err (σ → K))
  | 0, _ => none
  | fuel + 1, counter =>
    match solve G (seed.map (· + counter)) with
    | .error e => some (.error e)
    | .ok v =>
      if ∃ i, v i = 0 then
        if seed = none then some (.error .typeError) else drawPoint solve G seed fuel (counter + 1)
      else some (.ok v)

open Classical in
/-- A component in which the parameters are replaced: `ev` reads polynomials with the symbols, `ev'` with their values. -/
noncomputable def substituted {A : Type*} (ev ev' : A → F) (y : F) : F := if h : ∃ Q, ev Q = y then ev' h.choose else y

/-- A particle with numbers as one with expressions. -/
def Particle.lift (F : Type*) [Field F] [Algebra K F] (p : Particle K) : Particle F where
  r_d := p.r_d.map fun s i => algebraMap K F (s i)
  l_d := p.l_d.map fun s i => algebraMap K F (s i)
  r_u := p.r_u.map fun s i => algebraMap K F (s i)
  l_u := p.l_u.map fun s i => algebraMap K F (s i)
  r2 := p.r2.map (algebraMap K F)
  r2b := p.r2b.map (algebraMap K F)
  mom := p.mom.map fun s i => algebraMap K F (s i)
  mom_d := p.mom_d.map fun s i => algebraMap K F (s i)

/-- A spinor with numbers as one with expressions. -/
def liftV (F : Type*) [Field F] [Algebra K F] (s : V2 K) : V2 F := fun i => algebraMap K F (s i)

/-- Lines 30-47 and 76-93 after the shift: equations, parameters, substitution. -/
noncomputable def sliceFrom {A R : Type*} [Zero R] (cF : Ctx F) (ev : (σ → F) → A → F) (coeffs : A → List R) (x : σ → F)
    (solve : List R → Option ℤ → Except Err (σ → K)) (covs : List (Cov n)) (seed : Option ℤ) (fuel : ℕ) (ps : Point F n) :
    Option (Except Err (Point F n)) :=
  match sliceEquations K (ev x) coeffs ps covs with
  | .error e => some (.error e)
  | .ok G =>
    (drawPoint solve G seed fuel 0).map fun
      | .error e => .error e
      | .ok v => subsPoint cF (substituted (ev x) (ev fun i => algebraMap K F (v i))) ps

/-- What the methods take from outside: symbols for the components, a point and arithmetic for them, `point_on_variety`. -/
structure SliceEnv (S K : Type*) [Field S] [Field K] (n : ℕ) where
  cS : Ctx S
  x : Comp n → S
  ps₀ : Point S n
  c : Ctx K
  solve : List (MvPolynomial (Comp n) ℤ) → List (MvPolynomial (Comp n) ℤ) → Except Err (Dict K)

variable {S : Type*} [Field S]

/-- `univariate_slice` with `algorithm='covariant'`, lines 22-47. `x` are the symbols `x1`, ... on the left and `y1`, ... on
the right, `η` and `ηt` the spinors of the random particle; `indep` says whether `indepSets` is given. -/
noncomputable def univariateSlice (E : SliceEnv S K n) (cF : Ctx F) (t : F) (x : Fin n ⊕ Fin n → F) (η ηt : V2 K)
    (solve : List (MvPolynomial (Fin n ⊕ Fin n) K) → Option ℤ → Except Err (Fin n ⊕ Fin n → K)) (covs : List (Cov n))
    (seed : Option ℤ) (indep : Bool) (fuel : ℕ) (ps : Point K n) : Option (Except Err (Point F n)) :=
  if indep then some (.error .notImplemented)
  else
    match singularVariety E.cS E.x E.ps₀ E.c E.solve covs [] ps with
    | .error e => some (.error e)
    | .ok ps1 =>
      match univariateShift cF (fun k => (ps1 k).lift F) (liftV F η) (liftV F ηt) (fun k => x (.inl k)) (fun k => x (.inr k)) t with
      | .error e => some (.error e)
      | .ok qs => sliceFrom cF (fun x => readUni t x) coeffList x solve covs seed fuel qs

/-- `univariate_slice` with `algorithm='generic'`, lines 49-54; `slice` is `univariate_slice(field)(t)` of syngular. -/
noncomputable def univariateSliceGeneric (E : SliceEnv S K n) (cF : Ctx F)
    (slice : List (MvPolynomial (Comp n) ℤ) → Except Err (Dict F)) (covs : List (Cov n)) (ps : Point K n) :
    Except Err (Point F n) :=
  match lipsGens E.cS E.x E.ps₀ covs true with
  | .error e => .error e
  | .ok G =>
    match slice G with
    | .error e => .error e
    | .ok d => updateParticles cF (fun k => (ps k).lift F) d

/-- `bivariate_slice` with `algorithm='covariant'`, lines 65-93; the blocks of symbols are `x1_`, `y1_`, `x2_`, `y2_`. -/
noncomputable def bivariateSlice (E : SliceEnv S K n) (cF : Ctx F) (t₁ t₂ : F) (x : Fin 4 × Fin n → F) (η₁ ηt₁ η₂ ηt₂ : V2 K)
    (solve : List (MvPolynomial (Fin 4 × Fin n) K) → Option ℤ → Except Err (Fin 4 × Fin n → K)) (covs : List (Cov n))
    (seed : Option ℤ) (indep : Bool) (fuel : ℕ) (ps : Point K n) : Option (Except Err (Point F n)) :=
  if indep then some (.error .notImplemented)
  else
    match singularVariety E.cS E.x E.ps₀ E.c E.solve covs [] ps with
    | .error e => some (.error e)
    | .ok ps1 =>
      match bivariateShift cF (fun k => (ps1 k).lift F) (liftV F η₁) (liftV F ηt₁) (liftV F η₂) (liftV F ηt₂)
          (fun k => x (0, k)) (fun k => x (1, k)) (fun k => x (2, k)) (fun k => x (3, k)) t₁ t₂ with
      | .error e => some (.error e)
      | .ok qs => sliceFrom cF (fun x => readBi t₁ t₂ x) coeffList₂ x solve covs seed fuel qs

end

end Lips

import Verif.Model.Set
import Verif.Model.Image

/-!
Model of the methods that write and read all spinor components of a point: `make_analytical_d`,
`analytical_subs_d` and `subs` (lips/particles.py:194-271), `update_particles`
(lips/algebraic_geometry/particles_singular_variety.py:68-72), the shifts of
lips/particles_slices.py, and the randomisation methods of lips/particles.py:131-137 and
lips/particle.py:310-321, 454-466.

A symbol is an element of the field `K`, which then is a field of rational functions; a number that is
drawn at random is an argument.
-/

namespace Lips

open Matrix

variable {K : Type*} [Field K] {n : ℕ}

/-! ### Dictionaries of components -/

/-- The name of a component: `f'c{i}'`, or `sympy.symbols('c1:...')[i - 1]`; `i` starts at zero. -/
def symbolName (letter : Char) (i : ℕ) : List Char := letter :: pyStr (i + 1)

/-- A dictionary whose keys are names. Simplification: a symbol and its name are the same key. -/
abbrev Dict (K : Type*) := List Char → Option K

/-- `d[k] = v`. -/
def Dict.insert (d : Dict K) (k : List Char) (v : K) : Dict K := fun k' => if k' = k then some v else d k'

/-- The loop of `update_particles` over the positions `ks`, particles_singular_variety.py:68-72. The right
hand sides are read first: `c` and `d`, later `a` and `b`; a missing name raises KeyError. -/
noncomputable def updateLoop (c : Ctx K) (d : Dict K) : List (Fin n) → Point K n → Except Err (Point K n)
  | [], ps => .ok ps
  | k :: ks, ps =>
    match d (symbolName 'c' k), d (symbolName 'd' k) with
    | some c₀, some d₀ =>
      match d (symbolName 'a' k), d (symbolName 'b' k) with
      | some a₀, some b₀ =>
        match store ps k (setRd c { ps k with l_d := some ![c₀, d₀], l_u := some (lDownUp ![c₀, d₀]) } ![a₀, b₀]) with
        | .ok ps' => updateLoop c d ks ps'
        | .error e => .error e
      | _, _ => .error .keyError
    | _, _ => .error .keyError

/-- `update_particles(oParticles, dictionary)`. -/
noncomputable def updateParticles (c : Ctx K) (ps : Point K n) (d : Dict K) : Except Err (Point K n) :=
  updateLoop c d (List.finRange n) ps

/-- The loop of `analytical_subs_d`, particles.py:230-232; a missing spinor raises TypeError. -/
def subsDictLoop (ps : Point K n) : List (Fin n) → Dict K → Except Err (Dict K)
  | [], d => .ok d
  | k :: ks, d =>
    match (ps k).r_d, (ps k).l_d with
    | some r, some l =>
      subsDictLoop ps ks
        ((((d.insert (symbolName 'a' k) (r 0)).insert (symbolName 'b' k) (r 1)).insert (symbolName 'c' k) (l 0)).insert
          (symbolName 'd' k) (l 1))
    | _, _ => .error .typeError

/-- `analytical_subs_d`, particles.py:224-233. -/
def analyticalSubs (ps : Point K n) : Except Err (Dict K) :=
  subsDictLoop ps (List.finRange n) fun _ => none

/-! ### Symbols in place of components -/

/-- One particle of `make_analytical_d`, particles.py:203-222: `m` are the four entries of `indepVars` and
`s` the four symbols of this particle. -/
def analyticOne (c : Ctx K) (p : Particle K) (m : Fin 4 → ℤ) (s : Fin 4 → K) : Out K :=
  match p.r_d, p.l_d with
  | some r, some l =>
    let r' : V2 K := ![if m 0 = 0 then s 0 else r 0, if m 1 = 0 then s 1 else r 1]
    let l' : V2 K := ![if m 2 = 0 then s 2 else l 0, if m 3 = 0 then s 3 else l 1]
    rebuildFromSpinors c { p with r_d := some r', l_d := some l', r_u := some (rDownUp r'), l_u := some (lDownUp l') }
  | _, _ => ⟨p, some .typeError⟩

/-- The entries of `indepVars` of the particle at position `k`; IndexError when the list is too short. -/
def maskOf (mask : List ℤ) (k : ℕ) : Option (Fin 4 → ℤ) :=
  match mask[k * 4 + 0]?, mask[k * 4 + 1]?, mask[k * 4 + 2]?, mask[k * 4 + 3]? with
  | some a, some b, some c, some d => some ![a, b, c, d]
  | _, _, _, _ => none

/-- The loop of `make_analytical_d`, particles.py:202-222. -/
def analyticLoop (c : Ctx K) (mask : List ℤ) (s : Fin n → Fin 4 → K) : List (Fin n) → Point K n → Except Err (Point K n)
  | [], ps => .ok ps
  | k :: ks, ps =>
    match maskOf mask k with
    | none => .error .indexError
    | some m =>
      match store ps k (analyticOne c (ps k) m (s k)) with
      | .ok ps' => analyticLoop c mask s ks ps'
      | .error e => .error e

/-- `make_analytical_d`, particles.py:194-222; `s k` are the symbols `a`, `b`, `c`, `d` numbered `k + 1`,
`mask = none` is the default. -/
def makeAnalytical (c : Ctx K) (ps : Point K n) (mask : Option (List ℤ)) (s : Fin n → Fin 4 → K) :
    Except Err (Point K n) :=
  analyticLoop c (mask.getD (List.replicate (4 * n) 0)) s (List.finRange n) ps

/-- The loop of `subs`, particles.py:237-271: `f` is what becomes of a component, the substituted expression
in the field when it is symbolic and itself when it is a number. Simplification: internal masses (lines
268-277) are left out. -/
def subsLoop (c : Ctx K) (f : K → K) : List (Fin n) → Point K n → Except Err (Point K n)
  | [], ps => .ok ps
  | k :: ks, ps =>
    match (ps k).r_d with
    | none => .error .typeError
    | some r =>
      match store ps k (setRd c (ps k) ![f (r 0), f (r 1)]) with
      | .error e => .error e
      | .ok ps' =>
        match (ps' k).l_d with
        | none => .error .typeError
        | some l =>
          match store ps' k (setLd c (ps' k) ![f (l 0), f (l 1)]) with
          | .error e => .error e
          | .ok ps'' => subsLoop c f ks ps''

/-- `subs`, particles.py:235-271. -/
def subsPoint (c : Ctx K) (f : K → K) (ps : Point K n) : Except Err (Point K n) :=
  subsLoop c f (List.finRange n) ps

/-! ### Slices -/

/-- The loop over the particles, particles_slices.py:30-32 and 76-78: `dr k` and `dl k` are added to the
spinors of particle `k`. -/
def shiftLoop (c : Ctx K) (dr dl : Fin n → V2 K) : List (Fin n) → Point K n → Except Err (Point K n)
  | [], ps => .ok ps
  | k :: ks, ps =>
    match (ps k).r_d with
    | none => .error .typeError
    | some r =>
      match store ps k (setRd c (ps k) (r + dr k)) with
      | .error e => .error e
      | .ok ps' =>
        match (ps' k).l_d with
        | none => .error .typeError
        | some l =>
          match store ps' k (setLd c (ps' k) (l + dl k)) with
          | .error e => .error e
          | .ok ps'' => shiftLoop c dr dl ks ps''

/-- The shift of `univariate_slice`, particles_slices.py:30-32. -/
def univariateShift (c : Ctx K) (ps : Point K n) (η ηt : V2 K) (x y : Fin n → K) (t : K) : Except Err (Point K n) :=
  shiftLoop c (fun k => (t * x k) • η) (fun k => (t * y k) • ηt) (List.finRange n) ps

/-- The shift of `bivariate_slice`, particles_slices.py:76-78. -/
def bivariateShift (c : Ctx K) (ps : Point K n) (η₁ ηt₁ η₂ ηt₂ : V2 K) (x₁ y₁ x₂ _y₂ : Fin n → K) (t₁ t₂ : K) :
    Except Err (Point K n) :=
  shiftLoop c (fun k => (t₁ * x₁ k) • η₁ + (t₂ * x₂ k) • η₂) (fun k => (t₁ * y₁ k) • ηt₁ + (t₂ * x₂ k) • ηt₂)
    (List.finRange n) ps

/-! ### Random points -/

/-- The first loop of `randomise_twistor`, particles.py:132-133, with `randomise_twist`, particle.py:454-456:
`lam k` and `mu k` are the drawn halves of the twistor. -/
def twistLoop (c : Ctx K) (lam : Fin n → V2 K) : List (Fin n) → Point K n → Except Err (Point K n)
  | [], ps => .ok ps
  | k :: ks, ps =>
    match store ps k (setRd c (ps k) (lam k)) with
    | .ok ps' => twistLoop c lam ks ps'
    | .error e => .error e

open Classical in
/-- `comp_twist_x`, particle.py:458-460, for spinors `lam`, `lam'` and `mu`, `mu'` of `self` and `other`; dividing by
zero raises. -/
noncomputable def twistX (lam mu lam' mu' : V2 K) : Except Err (M2 K) :=
  let b := dot2 (rDownUp lam') lam
  if b = 0 then .error .zeroDivision else .ok (b⁻¹ • (outer mu (rDownUp lam') - outer mu' (rDownUp lam)))

/-- The second loop, particles.py:134-135: all the `_twist_x`, or the first exception. -/
noncomputable def twistXs (lam mu : Fin (n + 1) → V2 K) : List (Fin (n + 1)) → Except Err (Fin (n + 1) → M2 K)
  | [] => .ok fun _ => 0
  | k :: ks =>
    match twistX (lam k) (mu k) (lam (k + 1)) (mu (k + 1)) with
    | .error e => .error e
    | .ok x =>
      match twistXs lam mu ks with
      | .error e => .error e
      | .ok xs => .ok (Function.update xs k x)

/-- The third loop, particles.py:136-137, with `twist_x_to_mom`, particle.py:462-466. Writing into a missing
four momentum raises TypeError. -/
noncomputable def twistMomLoop (c : Ctx K) (x : Fin (n + 1) → M2 K) :
    List (Fin (n + 1)) → Point K (n + 1) → Except Err (Point K (n + 1))
  | [], ps => .ok ps
  | k :: ks, ps =>
    match c.imag, (ps k).mom with
    | some i, some _ =>
      match store ps k (setMom c (ps k) (r2bToMom i (x k - x (k + 1)))) with
      | .ok ps' => twistMomLoop c x ks ps'
      | .error e => .error e
    | _, _ => .error .typeError

/-- `randomise_twistor`, particles.py:131-137, for the drawn twistors. -/
noncomputable def randomiseTwistor (c : Ctx K) (ps : Point K (n + 1)) (lam mu : Fin (n + 1) → V2 K) :
    Except Err (Point K (n + 1)) :=
  match twistLoop c lam (List.finRange (n + 1)) ps with
  | .error e => .error e
  | .ok ps' =>
    match twistXs lam mu (List.finRange (n + 1)) with
    | .error e => .error e
    | .ok x => twistMomLoop c x (List.finRange (n + 1)) ps'

/-- The test of particle.py:317 on a drawn three momentum; `notPos z` is `z.real <= 0 and z.imag == 0`. -/
def excludedDraw (notPos : K → Prop) (p : Fin 3 → K) : Prop := p 0 = 0 ∧ p 1 = 0 ∧ notPos (p 2)

open Classical in
/-- `randomise_mpc`, particle.py:310-321, on a sequence of draws; `none` when all are excluded (the loop goes
on drawing). A missing square root raises ValueError. -/
noncomputable def randomiseMpc (c : Ctx K) (notPos : K → Prop) (p : Particle K) (draws : List (Fin 3 → K)) : Option (Out K) :=
  match draws.find? fun q => ¬excludedDraw notPos q with
  | none => none
  | some q =>
    match c.sqrt (q 0 * q 0 + q 1 * q 1 + q 2 * q 2) with
    | none => some ⟨p, some .valueError⟩
    | some e => some (setMom c p ![e, q 0, q 1, q 2])

end Lips

import Verif.Model.Basic

/-!
Model of `lips/particle.py`.
-/

namespace Lips

open Matrix

variable {K : Type*} [Field K]

/-- State of a `Particle` (particle.py:25-52): the eight private slots.  Spinor slots
and four momentum may be `None`. Simplification: the `field` attribute is the
context `Ctx` passed to the operations; `spin_index` (only set by
`Particles.cluster`) is modelled in `Verif.Model.Cluster`. -/
structure Particle (K : Type*) where
  r_d : Option (V2 K)
  l_d : Option (V2 K)
  r_u : Option (V2 K)
  l_u : Option (V2 K)
  r2 : M2 K
  r2b : M2 K
  mom : Option (V4 K)
  mom_d : Option (V4 K)

/-- Result of an operation: the state of the object afterwards, and the exception
that escaped, if any. -/
structure Out (K : Type*) where
  st : Particle K
  err : Option Err

/-! ### Conversions (particle.py:394-450) -/

/-- `_r_sp_d_to_r_sp_u`, particle.py:430-432: `(LeviCivita @ r_sp_d).T`. -/
def rDownUp (s : V2 K) : V2 K := eps.mulVec s

/-- `_l_sp_d_to_l_sp_u`, particle.py:434-436: `(l_sp_d @ LeviCivita.T).T`. -/
def lDownUp (s : V2 K) : V2 K := vecMul s epsᵀ

/-- `_r_sp_u_to_r_sp_d`, particle.py:438-439: `(r_sp_u @ LeviCivita).T`. -/
def rUpDown (s : V2 K) : V2 K := vecMul s eps

/-- `_l_sp_u_to_l_sp_d`, particle.py:441-442: `(LeviCivita.T @ l_sp_u).T`. -/
def lUpDown (s : V2 K) : V2 K := epsᵀ.mulVec s

/-- `_r2_sp_to_r2_sp_b` and `_r2_sp_b_to_r2_sp`, particle.py:394-398. -/
def flip2 (m : M2 K) : M2 K := (eps * (m * epsᵀ))ᵀ

/-- `_r2_sp_to_four_momentum`, particle.py:400-403. -/
def r2ToMom (i : K) (m : M2 K) : V4 K := fun μ => trace (pauliBar i μ * m) / 2

/-- `_r2_sp_b_to_four_momentum`, particle.py:405-408. -/
def r2bToMom (i : K) (m : M2 K) : V4 K := fun μ => trace (pauli i μ * m) / 2

/-- `_four_mom_to_four_mom_d` and `_four_mom_d_to_four_mom`, particle.py:410-414. -/
def momFlip (v : V4 K) : V4 K := eta.mulVec v

/-- `_four_mom_d_to_r2_sp`, particle.py:416-417 (`tensordot` over the Lorentz index). -/
def momdToR2 (i : K) (v : V4 K) : M2 K := ∑ μ, v μ • pauli i μ

/-- `_four_mom_d_to_r2_sp_b`, particle.py:419-420. -/
def momdToR2b (i : K) (v : V4 K) : M2 K := ∑ μ, v μ • pauliBar i μ

/-- `numpy.dot(column, row)`, used in `_r1_sp_to_r2_sp` and `_r1_sp_to_r2_sp_b`,
particle.py:422-428. -/
def outer (s t : V2 K) : M2 K := vecMulVec s t

/-! ### The try/except blocks -/

/-- `try: _r2_sp_b_to_four_momentum(); _four_mom_to_four_mom_d() except ...: None`,
particle.py:133-138 and five more places. -/
def momFromR2b (c : Ctx K) (p : Particle K) : Particle K :=
  match c.imag with
  | none => { p with mom := none, mom_d := none }
  | some i => { p with mom := some (r2bToMom i p.r2b), mom_d := some (momFlip (r2bToMom i p.r2b)) }

/-- Same with `_r2_sp_to_four_momentum`, particle.py:210-215. -/
def momFromR2 (c : Ctx K) (p : Particle K) : Particle K :=
  match c.imag with
  | none => { p with mom := none, mom_d := none }
  | some i => { p with mom := some (r2ToMom i p.r2), mom_d := some (momFlip (r2ToMom i p.r2)) }

/-- Outcome of `_set_r_sp_d` / `_set_l_sp_d`: a value, an error caught by the
surrounding `except`, or an error that escapes. -/
inductive Derived (K : Type*) where
  | val (s : V2 K)
  | caught
  | escaped (e : Err)

/-- `_set_r_sp_d`, particle.py:364-374. -/
def deriveR (c : Ctx K) (pPlus pT : K) : Derived K :=
  match c.conv with
  | .symmetric =>
    if c.small pPlus then .caught          -- ValueError, line 366
    else match c.sqrt pPlus with
      | none => .caught
      | some s => .val ![s, pT / s]
  | .asymmetric => .val ![pPlus, pT]

open Classical in
/-- `_set_l_sp_d`, particle.py:382-392. In the asymmetric convention the division by
`P0_plus_P3` raises `ZeroDivisionError`, which none of the callers catches. -/
noncomputable def deriveL (c : Ctx K) (pPlus pTbar : K) : Derived K :=
  match c.conv with
  | .symmetric =>
    if c.small pPlus then .caught
    else match c.sqrt pPlus with
      | none => .caught
      | some s => .val ![s, pTbar / s]
  | .asymmetric =>
    if pPlus = 0 then .escaped .zeroDivision else .val ![1, pTbar / pPlus]

/-- The common `try/except` tail of the setters `r2_sp`, `r2_sp_b`, `four_mom`,
`four_mom_d` (particle.py:217-226, 245-254, 268-277, 291-300): right spinor first,
then left spinor, all four slots cleared on a caught error. -/
noncomputable def deriveSpinors (c : Ctx K) (p : Particle K) (pPlus pT pTbar : K) : Out K :=
  let cleared : Particle K := { p with r_d := none, r_u := none, l_d := none, l_u := none }
  match deriveR c pPlus pT with
  | .caught => ⟨cleared, none⟩
  | .escaped e => ⟨p, some e⟩
  | .val r =>
    let p := { p with r_d := some r, r_u := some (rDownUp r) }
    match deriveL c pPlus pTbar with
    | .caught => ⟨cleared, none⟩
    | .escaped e => ⟨p, some e⟩
    | .val l => ⟨{ p with l_d := some l, l_u := some (lDownUp l) }, none⟩

/-- `_r1_sp_to_r2_sp(); _r1_sp_to_r2_sp_b(); try four momentum`, particle.py:130-138:
with a missing spinor `numpy.dot(None, ..)` raises an uncaught TypeError and the
rest of the object is left as it was. -/
def rebuildFromSpinors (c : Ctx K) (p : Particle K) : Out K :=
  match p.r_d, p.l_d, p.r_u, p.l_u with
  | some r, some l, some ru, some lu =>
    ⟨momFromR2b c { p with r2 := outer lu ru, r2b := outer r l }, none⟩
  | _, _, _, _ => ⟨p, some .typeError⟩

/-! ### Setters -/

/-- `r_sp_d` setter, particle.py:125-138. -/
def setRd (c : Ctx K) (p : Particle K) (s : V2 K) : Out K :=
  rebuildFromSpinors c { p with r_d := some s, r_u := some (rDownUp s) }

/-- `l_sp_d` setter, particle.py:145-158. -/
def setLd (c : Ctx K) (p : Particle K) (s : V2 K) : Out K :=
  rebuildFromSpinors c { p with l_d := some s, l_u := some (lDownUp s) }

/-- `r_sp_u` setter, particle.py:165-178. -/
def setRu (c : Ctx K) (p : Particle K) (s : V2 K) : Out K :=
  rebuildFromSpinors c { p with r_u := some s, r_d := some (rUpDown s) }

/-- `l_sp_u` setter, particle.py:185-198. -/
def setLu (c : Ctx K) (p : Particle K) (s : V2 K) : Out K :=
  rebuildFromSpinors c { p with l_u := some s, l_d := some (lUpDown s) }

/-- `r2_sp` setter, particle.py:205-226 with `_r2_sp_to_r_sp_d` (358-359) and
`_r2_sp_to_l_sp_d` (376-377). -/
noncomputable def setR2 (c : Ctx K) (p : Particle K) (m : M2 K) : Out K :=
  deriveSpinors c (momFromR2 c { p with r2 := m, r2b := flip2 m })
    (m 1 1) (-(m 1 0)) (-(m 0 1))

/-- `r2_sp_b` setter, particle.py:233-254. -/
noncomputable def setR2b (c : Ctx K) (p : Particle K) (m : M2 K) : Out K :=
  deriveSpinors c (momFromR2b c { p with r2b := m, r2 := flip2 m })
    (flip2 m 1 1) (-(flip2 m 1 0)) (-(flip2 m 0 1))

/-- The part common to the `four_mom` and `four_mom_d` setters once both are stored:
particle.py:265-277 / 288-300.  Without `1j` the `tensordot` with the Pauli matrices
raises outside of any `try`. -/
noncomputable def fromMom (c : Ctx K) (p : Particle K) (v vd : V4 K) : Out K :=
  let p := { p with mom := some v, mom_d := some vd }
  match c.imag with
  | none => ⟨p, some .typeError⟩
  | some i =>
    deriveSpinors c { p with r2 := momdToR2 i vd, r2b := momdToR2b i vd }
      (v 0 + v 3) (v 1 + v 2 * i) (v 1 - v 2 * i)

/-- `four_mom` setter, particle.py:261-277. -/
noncomputable def setMom (c : Ctx K) (p : Particle K) (v : V4 K) : Out K :=
  fromMom c p v (momFlip v)

/-- `four_mom_d` setter, particle.py:284-300. -/
noncomputable def setMomd (c : Ctx K) (p : Particle K) (vd : V4 K) : Out K :=
  fromMom c p (momFlip vd) vd

/-- `angles_for_squares` without `spin_index`, particle.py:330-350: spinors swapped if
both present (`_sps_d_to_sps_u` rederives the upper ones), bispinors transposed,
four momentum recomputed. -/
def anglesForSquares (c : Ctx K) (p : Particle K) : Particle K :=
  let p := match p.l_d, p.r_d with
    | some l, some r =>
      { p with l_d := some r, r_d := some l, l_u := some (lDownUp r), r_u := some (rDownUp l) }
    | _, _ => p
  momFromR2b c { p with r2 := p.r2ᵀ, r2b := p.r2bᵀ }

/-- `lsq` and `m2`, particle.py:470-481. -/
def Particle.m2 (p : Particle K) : K := trace (p.r2 * p.r2b) / 2

/-- `ldot`, tools.py:115-116 and particles_compute.py:46-48. -/
def ldot (p q : Particle K) : K := trace (p.r2 * q.r2b) / 2

/-- The operations a user can apply to a particle. -/
inductive Op (K : Type*) where
  | rd (s : V2 K) | ld (s : V2 K) | ru (s : V2 K) | lu (s : V2 K)
  | r2 (m : M2 K) | r2b (m : M2 K) | mom (v : V4 K) | momd (v : V4 K)
  | swap

/-- One operation. -/
noncomputable def applyOp (c : Ctx K) (p : Particle K) : Op K → Out K
  | .rd s => setRd c p s
  | .ld s => setLd c p s
  | .ru s => setRu c p s
  | .lu s => setLu c p s
  | .r2 m => setR2 c p m
  | .r2b m => setR2b c p m
  | .mom v => setMom c p v
  | .momd v => setMomd c p v
  | .swap => ⟨anglesForSquares c p, none⟩

/-- A history of operations, all of which return without raising;
`none` as soon as one raises. -/
noncomputable def runOps (c : Ctx K) : Particle K → List (Op K) → Option (Particle K)
  | p, [] => some p
  | p, o :: os =>
    match applyOp c p o with
    | ⟨p', none⟩ => runOps c p' os
    | ⟨_, some _⟩ => none

/-! ### Constructor and arithmetic -/

/-- A freshly allocated object before any attribute is set (particle.py:40). The slots
that a constructor branch does not write are never read before being written; they
are given arbitrary default contents. -/
def blank : Particle K := ⟨none, none, none, none, 0, 0, none, none⟩

/-- `Particle(kinematics)` with a rank-two spinor, particle.py:45-46. -/
noncomputable def ofR2 (c : Ctx K) (m : M2 K) : Out K := setR2 c blank m

/-- `Particle(kinematics)` with a four momentum, particle.py:43-44. -/
noncomputable def ofMom (c : Ctx K) (v : V4 K) : Out K := setMom c blank v

/-- `Particle((r_sp_d, l_sp_d))`, particle.py:47-50; also `randomise_spinors_in_field`
(323-328) with the drawn components as arguments, and `to_field` (54-58) with the
converted components as arguments. -/
def ofSpinors (c : Ctx K) (r l : V2 K) : Out K :=
  setLd c { (blank : Particle K) with r_d := some r, r_u := some (rDownUp r) } l

/-- `__add__` / `__radd__` of two particles, particle.py:72-84. -/
noncomputable def pAdd (c : Ctx K) (p q : Particle K) : Out K := ofR2 c (p.r2 + q.r2)
/-- `__sub__`, particle.py:86-91. -/
noncomputable def pSub (c : Ctx K) (p q : Particle K) : Out K := ofR2 c (p.r2 - q.r2)
/-- `__neg__`, particle.py:67-70: a random particle `rnd` whose `r2_sp` is then assigned. -/
noncomputable def pNeg (c : Ctx K) (rnd p : Particle K) : Out K := setR2 c rnd ((-1 : K) • p.r2)
/-- `__mul__` and `__rmul__`, particle.py:93-99. -/
noncomputable def pMul (c : Ctx K) (p : Particle K) (k : K) : Out K := ofR2 c (k • p.r2)
open Classical in
/-- `__truediv__`, particle.py:105-107: numpy divides each entry; a zero divisor raises. -/
noncomputable def pDiv (c : Ctx K) (p : Particle K) (k : K) : Out K :=
  if k = 0 then ⟨p, some .zeroDivision⟩ else ofR2 c (Matrix.of fun i j => p.r2 i j / k)

/-- Python's `sum(list of particles)`: starts from the integer `0`, `0 + p` goes to
`__radd__`, which returns a shallow copy of `p` (particle.py:81-82); then `__add__`.
`none` when some step raises; `some none` is the integer `0` (empty list). -/
noncomputable def pSumFrom (c : Ctx K) : Particle K → List (Particle K) → Option (Particle K)
  | acc, [] => some acc
  | acc, q :: qs =>
    match pAdd c acc q with
    | ⟨s, none⟩ => pSumFrom c s qs
    | ⟨_, some _⟩ => none

/-- See `pSumFrom`. -/
noncomputable def pSum (c : Ctx K) : List (Particle K) → Option (Option (Particle K))
  | [] => some none
  | p :: ps => (pSumFrom c p ps).map some

/-- `__eq__` on particles, particle.py:60-63: entrywise equality of `r2_sp`. -/
def pEq (p q : Particle K) : Prop := p.r2 = q.r2

/-- The tuple that `__hash__` hashes, particle.py:112-116. -/
inductive HashKey (K : Type*) where
  | spinors (r0 r1 l0 l1 : K)
  | bispinor (m00 m01 m10 m11 : K)

/-- What `__hash__` hashes, particle.py:112-116: the four spinor components if the mass
is small, the four bispinor entries otherwise.  `None.flatten()` raises
AttributeError (`none`). The hash value itself is an arbitrary function of this key. -/
def hashKey (c : Ctx K) (p : Particle K) : Option (HashKey K) :=
  if c.small p.m2 then
    match p.r_d, p.l_d with
    | some r, some l => some (.spinors (r 0) (r 1) (l 0) (l 1))
    | _, _ => none
  else some (.bispinor (p.r2 0 0) (p.r2 0 1) (p.r2 1 0) (p.r2 1 1))

end Lips

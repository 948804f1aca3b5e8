import Verif.Model.Compute
import Verif.Model.Text

/-!
Model of `Particles.cluster` (lips/particles.py:164-192).
-/

namespace Lips

open Matrix

variable {K : Type*} [Field K] {n m : ℕ}

/-- `sum([self[i] for i in corner_as_integers])`, particles.py:173. `none`: an addition raises, or
the corner is empty (the code then stores the integer 0 in place of a particle). Simplification:
labels are positions of the point, an IndexError for other labels is not modelled. -/
noncomputable def clusterLeg (c : Ctx K) (ps : Point K n) (corner : List (Fin n)) :
    Option (Particle K) :=
  match pSum c (corner.map ps) with
  | some (some q) => some q
  | _ => none

open Classical in
/-- The particles of `cluster`, particles.py:173-174; no momentum is changed afterwards because of
`fix_mom_cons=False`. -/
noncomputable def cluster (c : Ctx K) (ps : Point K n) (corner : Fin m → List (Fin n)) :
    Option (Point K m) :=
  if ∀ k, (clusterLeg c ps (corner k)).isSome then
    some fun k => (clusterLeg c ps (corner k)).getD blank
  else none

/-! ### Massive fermions -/

/-- The spinors of a massive fermion: two states. `r_d` has the spinor index first, `l_d` the
state index first, `r_u` the state index first, `l_u` the spinor index first, as the arrays in the
code. -/
structure Fermion (K : Type*) where
  r_d : M2 K
  l_d : M2 K
  r_u : M2 K
  l_u : M2 K

/-- `_sps_d_to_sps_u` on two-state arrays, particle.py:430-436, 448-450. -/
def fermionUp (r l : M2 K) : Fermion K := ⟨r, l, (eps * r)ᵀ, (l * epsᵀ)ᵀ⟩

/-- The position of the spin index. -/
inductive IndexPos where
  | u | d
  deriving DecidableEq, Repr

/-- particles.py:178-191 for legs with spinors `|a⟩ = ra`, `[a| = la` and `|b⟩ = rb`, `[b| = lb`,
all states (`index_value` is not an integer). Any index position other than `u` and `d` raises. -/
def fermionOf (pos : IndexPos) (ra la rb lb : V2 K) : Fermion K :=
  let r : M2 K := Matrix.of fun al i => ![ra al, rb al] i
  let l : M2 K := Matrix.of ![la, lb]
  match pos with
  | .u => fermionUp r (-eps * l)
  | .d => fermionUp (r * -eps) l

/-- particles.py:188-191: an integer `index_value` `i + 1` selects one state: the columns of `r_d`
and `l_u`, the rows of `l_d` and `r_u`. The raised spinors are computed from the selected state. -/
def fermionState (f : Fermion K) (i : Fin 2) : V2 K × V2 K × V2 K × V2 K :=
  let r : V2 K := fun al => f.r_d al i
  let l : V2 K := f.l_d i
  (r, l, eps.mulVec r, vecMul l epsᵀ)

/-- `massive_fermions` on leg `k`, particles.py:176-191: the corner must have two labels
(AssertionError) whose particles have spinors (`numpy.block` of None does not give a spinor). -/
def clusterFermion (ps : Point K n) (corner : List (Fin n)) (pos : IndexPos) :
    Except Err (Fermion K) :=
  match corner with
  | [a, b] =>
    match (ps a).r_d, (ps a).l_d, (ps b).r_d, (ps b).l_d with
    | some ra, some la, some rb, some lb => .ok (fermionOf pos ra la rb lb)
    | _, _, _, _ => .error .typeError
  | _ => .error .assertion

/-- The spinor part of `angles_for_squares` for a particle with a spin index,
particle.py:332-341. -/
def fermionSwap (pos : IndexPos) (f : Fermion K) : Fermion K :=
  match pos with
  | .u => fermionUp f.l_dᵀ (-f.r_dᵀ)
  | .d => fermionUp (-f.l_dᵀ) f.r_dᵀ

/-! ### Internal masses given as strings -/

/-- The value of an internal mass attribute. -/
inductive MassVal (K : Type*) where
  | num (x : K)
  | str (s : List Char)

/-- `"".join(map(str, entry))` for a corner of labels. -/
def cornerText (entry : List ℕ) : List Char := entry.flatMap pyStr

/-- `drule1 | drule2`, particles.py:169-171. -/
def clusterRules (corners : List (List ℕ)) : List (List Char × List Char) :=
  let d1 := dictOf [] (corners.mapIdx fun i e => ('s' :: cornerText e, 's' :: pyStr (i + 1)))
  let d2 := dictOf [] (corners.mapIdx fun i e =>
    ('s' :: '_' :: cornerText e, 's' :: '_' :: pyStr (i + 1)))
  dictOf d1 d2

/-- particles.py:171: string values are rewritten, others kept. -/
def clusterMass (corners : List (List ℕ)) (v : MassVal K) : Except Err (MassVal K) :=
  match v with
  | .num x => .ok (.num x)
  | .str s =>
    match subsDict s (clusterRules corners) with
    | .ok t => .ok (.str t)
    | .error e => .error e

/-- `pSijk`, tools.py:32, and `list(map(int, ...))`, particles_compute.py:155: the labels are the
single digits. -/
def readS (t : List Char) : Option (List ℕ) :=
  match t with
  | 's' :: '_' :: ds | 'S' :: '_' :: ds | 's' :: ds | 'S' :: ds =>
    if isDigits ds then some (ds.map fun c => c.toNat - 48) else none
  | _ => none

/-- `compute("s_ijk")` on text, particles_compute.py:153-157. `none` if the text is not of that
form. -/
def computeSText (ps : Point K n) (t : List Char) : Option (Except Err K) :=
  match readS t with
  | none => none
  | some ls =>
    match ls.mapM (label n) with
    | .ok fs => some (.ok (computeS ps fs))
    | .error e => some (.error e)

/-- The `pMVar` branch, particles_compute.py:269-273, for a mass whose value is a number or the
text of a Mandelstam variable. -/
def computeMass (ps : Point K n) (v : MassVal K) : Option (Except Err K) :=
  match v with
  | .num x => some (.ok x)
  | .str s => computeSText ps s

end Lips

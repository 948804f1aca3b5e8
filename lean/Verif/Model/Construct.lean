import Verif.Model.FixMom

/-!
Model of the construction of phase-space points: the external kinematics of `Particles.__init__` (lips/particles.py:44-63) and
`Particles.randomise_all` (lips/particles.py:125-129).

Simplifications: at least one particle (an empty sum is the integer 0, whose treatment by `flatten` is outside the package). The
random draws are arguments: the spinors of `randomise_spinors_in_field` (lips/particle.py:323-328) and the pair of labels of
`random.sample`. The reference vector and the internal masses are in other files.
-/

namespace Lips

variable {K : Type*} [Field K] {n : ℕ}

/-- `fix_mom_cons()` with its draw, particles.py:284-286: two of fewer than two labels raise ValueError. -/
noncomputable def fixRandom (c : Ctx K) (ps : Point K n) (real : Bool) (draw : ℕ × ℕ) : Except Err (Point K n) :=
  if n < 2 then .error .valueError else fixMomCons c ps 0 0 real 1 draw

/-- Lines 62-63: `if fix_mom_cons is True and max(map(abs, flatten(self.total_mom))) > field.tollerance`. -/
noncomputable def construct {Γ : Type*} [LinearOrder Γ] (c : Ctx K) (abs : K → Γ) (tol : Γ) (fix real : Bool) (ps : Point K n) (draw : ℕ × ℕ) :
    Except Err (Point K n) :=
  if fix then
    match pyMax ((totalEntries ps).map abs) with
    | .error e => .error e
    | .ok m => if m > tol then fixRandom c ps real draw else .ok ps
  else .ok ps

/-- The particles drawn one after the other, lines 51-53, from spinors drawn in the field. -/
noncomputable def randomParticles (c : Ctx K) (r l : Fin n → V2 K) : Point K n := fun k => (ofSpinors c (r k) (l k)).st

/-- `Particles(n, field=field)`. -/
noncomputable def newPoint {Γ : Type*} [LinearOrder Γ] (c : Ctx K) (abs : K → Γ) (tol : Γ) (fix real : Bool) (r l : Fin n → V2 K) (draw : ℕ × ℕ) :
    Except Err (Point K n) := construct c abs tol fix real (randomParticles c r l) draw

/-- `randomise_all`, particles.py:125-129, whatever the point was. -/
noncomputable def randomiseAll (c : Ctx K) (_ps : Point K n) (real : Bool) (r l : Fin n → V2 K) (draw : ℕ × ℕ) : Except Err (Point K n) :=
  fixRandom c (randomParticles c r l) real draw

end Lips

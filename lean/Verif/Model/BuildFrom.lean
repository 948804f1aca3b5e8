import Verif.Model.Construct

/-!
Model of `Particles([...])` of particles that belong to another phase-space point (lips/particles.py:54-63): the particles are appended to the new
list as they are, without copying (55-56), so that what `fix_mom_cons` assigns to particles of the new point (62-63, 282-300) it assigns to those of the
other point.

Simplifications: no particle is listed twice, and what an exception leaves behind is not modelled.
-/

namespace Lips

variable {K : Type*} [Field K] {n m : ℕ}

/-- What the other point looks like afterwards: `pick j` is the position there of particle `j` of the new point. -/
def giveBack (ps : Point K n) (pick : Fin m → Fin n) (qs : Point K m) : Point K n := fun i =>
  match (List.finRange m).find? (fun j => pick j = i) with
  | some j => qs j
  | none => ps i

/-- `Particles([oPs[i], ...], fix_mom_cons=fix, real_momenta=real)`: the new point, and the other one afterwards. -/
noncomputable def buildFrom {Γ : Type*} [LinearOrder Γ] (c : Ctx K) (abs : K → Γ) (tol : Γ) (fix real : Bool) (ps : Point K n) (pick : Fin m → Fin n)
    (draw : ℕ × ℕ) : Except Err (Point K m × Point K n) :=
  match construct c abs tol fix real (fun j => ps (pick j)) draw with
  | .error e => .error e
  | .ok qs => .ok (qs, giveBack ps pick qs)

end Lips

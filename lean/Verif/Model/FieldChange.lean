import Verif.Model.Front

/-!
Model of the conversion of phase-space points to another field: `Particle.to_field` (lips/particle.py:54-58),
`Particles.to_field` (lips/particles.py:76-79), `padic_to_finite_field` and `finite_field_to_padic`
(lips/algebraic_geometry/particles_singular_variety.py:50-65).

The conversion of a number, `field(x)`, `ModP(x)` or `PAdic(x, ...)`, is an arbitrary function that may raise. Not modelled: the state of a
particle after an exception, `oRefVec` and internal masses, which stay in the old field.
-/

namespace Lips

variable {K L : Type*} [Field K] [Field L] {n : ℕ}

/-- `numpy.vectorize(field)(spinor)`, particle.py:55, 57, and the four calls of particles_singular_variety.py:53, 55: the components are
converted in their order. `None` raises TypeError. -/
def convertSpinor (cv : K → Except Err L) : Option (V2 K) → Except Err (V2 L)
  | none => .error .typeError
  | some v =>
    match cv (v 0) with
    | .error e => .error e
    | .ok x =>
      match cv (v 1) with
      | .error e => .error e
      | .ok y => .ok ![x, y]

/-- `Particle.to_field`, particle.py:54-58: right spinor first, then the setter of the left one. All slots are rewritten. -/
def toField (cv : K → Except Err L) (c : Ctx L) (p : Particle K) : Except Err (Particle L) :=
  match convertSpinor cv p.r_d with
  | .error e => .error e
  | .ok r =>
    match convertSpinor cv p.l_d with
    | .error e => .error e
    | .ok l => (setLd c { (blank : Particle L) with r_d := some r, r_u := some (rDownUp r) } l).toExcept

/-- The loop body of `padic_to_finite_field` and of `finite_field_to_padic`, particles_singular_variety.py:53-55 and 61-65: left spinor first,
then the setter of the right one. -/
def reduceParticle (cv : K → Except Err L) (c : Ctx L) (p : Particle K) : Except Err (Particle L) :=
  match convertSpinor cv p.l_d with
  | .error e => .error e
  | .ok l =>
    match convertSpinor cv p.r_d with
    | .error e => .error e
    | .ok r => (setRd c { (blank : Particle L) with l_d := some l, l_u := some (lDownUp l) } r).toExcept

/-- `for oP in self: f(oP)`. -/
def eachParticle {α β : Type*} (f : α → Except Err β) : (n : ℕ) → (Fin n → α) → Except Err (Fin n → β)
  | 0, _ => .ok Fin.elim0
  | n + 1, ps =>
    match f (ps 0) with
    | .error e => .error e
    | .ok q =>
      match eachParticle f n (fun k => ps k.succ) with
      | .error e => .error e
      | .ok qs => .ok (Fin.cons q qs)

/-- `Particles.to_field`, particles.py:76-79. -/
def pointToField (cv : K → Except Err L) (c : Ctx L) (ps : Point K n) : Except Err (Point L n) := eachParticle (toField cv c) n ps

/-- `padic_to_finite_field`, particles_singular_variety.py:50-56, and `finite_field_to_padic`, 59-65. -/
def reducePoint (cv : K → Except Err L) (c : Ctx L) (ps : Point K n) : Except Err (Point L n) := eachParticle (reduceParticle cv c) n ps

end Lips

import Verif.Model.Particle
import Mathlib.LinearAlgebra.Matrix.Adjugate

/-! Specification of a consistent particle, in textbook component formulas. -/

namespace Lips

open Matrix

variable {K : Type*} [Field K]

/-- Lowering/raising a spinor index, as the textbook formula on components. -/
def SpecRaise (down up : V2 K) : Prop := up 0 = down 1 ∧ up 1 = -down 0

/-- The four momentum `v` described by the upper bispinor `m`: `m = v_μ σ^μ`. -/
def SpecSlash (i : K) (v : V4 K) (m : M2 K) : Prop :=
  m 0 0 = v 0 - v 3 ∧ m 0 1 = -v 1 + i * v 2 ∧ m 1 0 = -v 1 - i * v 2 ∧ m 1 1 = v 0 + v 3

/-- Lowering a Lorentz index. -/
def SpecLower (v vd : V4 K) : Prop := vd 0 = v 0 ∧ vd 1 = -v 1 ∧ vd 2 = -v 2 ∧ vd 3 = -v 3

/-- The momentum representations agree with each other: the lower bispinor is the
adjugate of the upper one, and the four momenta (present exactly if the field knows
`1j`) are its components. -/
structure MomConsistent (c : Ctx K) (p : Particle K) : Prop where
  bar : p.r2b = adjugate p.r2
  mom_none : c.imag = none → p.mom = none ∧ p.mom_d = none
  mom_some : ∀ i, c.imag = some i →
    ∃ v vd, p.mom = some v ∧ p.mom_d = some vd ∧ SpecLower v vd ∧ SpecSlash i v p.r2

/-- The spinor slots agree with each other. -/
structure SpinConsistent (p : Particle K) : Prop where
  both : p.r_d = none ↔ p.l_d = none
  r_none : p.r_d = none ↔ p.r_u = none
  l_none : p.l_d = none ↔ p.l_u = none
  r_up : ∀ s u, p.r_d = some s → p.r_u = some u → SpecRaise s u
  l_up : ∀ s u, p.l_d = some s → p.l_u = some u → SpecRaise s u

/-- For a massless momentum the spinors, if set, reproduce it. -/
def SpinorsReproduce (p : Particle K) : Prop :=
  ∀ r l, p.r_d = some r → p.l_d = some l → p.r2.det = 0 → ∀ a b, p.r2b a b = r a * l b

/-- All representations of a particle describe the same momentum. -/
structure Consistent (c : Ctx K) (p : Particle K) : Prop where
  mom : MomConsistent c p
  spin : SpinConsistent p
  spinors : SpinorsReproduce p

end Lips

import Verif.Spec.Particle
import Verif.Props.FixMom
import Verif.Model.Compute

/-! Specification side of the invariants: brackets in spinor components, expansion of
spinor strings, Minkowski squares. -/

namespace Lips

open Matrix

variable {K : Type*} [Field K] {n : ℕ}

/-- Particle `p` is consistent and has spinors `|p⟩ = r`, `[p| = l`. -/
structure HasSpinors (c : Ctx K) (p : Particle K) (r l : V2 K) : Prop where
  cons : Consistent c p
  r_d : p.r_d = some r
  l_d : p.l_d = some l

/-- Particle `p` is consistent and massless with spinors `|p⟩ = r`, `[p| = l`. -/
structure IsMassless (c : Ctx K) (p : Particle K) (r l : V2 K) : Prop extends
    HasSpinors c p r l where
  massless : Massless p

/-- The sign written in front of a label. -/
def sgn (b : Bool) : K := if b then 1 else -1

/-- Expansion of a spinor string into brackets: one label is chosen in each slot, the factors
alternate between angle (`true`) and square (`false`) brackets. -/
def specString (ang sq : Fin n → Fin n → K) : Bool → Fin n → List (Slot n) → Fin n → K
  | true, a, [], d => ang a d
  | false, a, [], d => sq a d
  | true, a, s :: ss, d => (s.map fun t => sgn t.1 * ang a t.2 * specString ang sq false t.2 ss d).sum
  | false, a, s :: ss, d => (s.map fun t => sgn t.1 * sq a t.2 * specString ang sq true t.2 ss d).sum

/-- Minkowski product of two bispinors: half of the polarised determinant. -/
def SpecDot (m m' : M2 K) : K :=
  (m 0 0 * m' 1 1 + m 1 1 * m' 0 0 - m 0 1 * m' 1 0 - m 1 0 * m' 0 1) / 2

/-- Minkowski square of a bispinor. -/
def SpecSq (m : M2 K) : K := m 0 0 * m 1 1 - m 0 1 * m 1 0

end Lips

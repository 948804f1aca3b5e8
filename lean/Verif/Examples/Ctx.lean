import Verif.Model.Particle
import Mathlib.Algebra.Field.ZMod
import Mathlib.Tactic.NormNum.Prime

/-! A concrete field with `1j` for the non-vacuity examples: the integers modulo 13, where
`5 * 5 = -1`, with square roots found by search. -/

namespace Lips

instance : Fact (Nat.Prime 13) := ⟨by norm_num⟩

/-- Numbers modulo 13. -/
abbrev F13 := ZMod 13

instance : NeZero (2 : F13) := ⟨by decide⟩

/-- Context over `F13` in the given convention. -/
def f13 (conv : Convention) : Ctx F13 where
  conv := conv
  small x := x = 0
  small_zero := by simp
  sqrt x := ((List.range 13).map (fun n : ℕ => (n : F13))).find? (fun y => y * y = x)
  sqrt_sq := by
    intro x y h
    have := List.find?_some h
    simpa using this
  imag := some 5
  imag_sq := by intro i h; cases h; decide

end Lips

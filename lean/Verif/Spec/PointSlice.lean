import Verif.Model.PointSlice

/-!
Which positions a slice takes.
-/

namespace Lips

/-- A bound counted from the end if negative. -/
def fromEnd (len : ℕ) (k : ℤ) : ℤ := if k < 0 then k + len else k

/-- The positions, from zero, of a slice of a list of length `len` with nonzero step: from the first bound (the beginning, if the bound is before
it) in steps up to, but not including, the second bound; with a negative step downwards, from the end if the first bound is behind it. -/
def Taken (len : ℕ) (lo hi : Option ℤ) (step : ℤ) (p : ℕ) : Prop :=
  p < len ∧
    if 0 < step then
      let a : ℤ := match lo with | some k => max 0 (fromEnd len k) | none => 0
      a ≤ p ∧ (∀ k, hi = some k → (p : ℤ) < fromEnd len k) ∧ step ∣ p - a
    else
      let a : ℤ := match lo with | some k => min ((len : ℤ) - 1) (fromEnd len k) | none => (len : ℤ) - 1
      p ≤ a ∧ (∀ k, hi = some k → fromEnd len k < p) ∧ step ∣ a - p

end Lips

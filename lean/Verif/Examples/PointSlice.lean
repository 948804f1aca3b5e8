import Verif.Props.PointSlice

/-!
Slices of a list of six.
-/

namespace Lips

/-- Six things. -/
def six : List ℕ := [11, 12, 13, 14, 15, 16]

example : sliceGet six ⟨some 1, some 3, none⟩ = .ok [12, 13] := by decide +kernel
example : sliceGet six ⟨some (-2), none, none⟩ = .ok [15, 16] := by decide +kernel
example : sliceGet six ⟨none, none, some (-2)⟩ = .ok [16, 14, 12] := by decide +kernel
example : sliceGet six ⟨some 9, some (-9), some (-3)⟩ = .ok [16, 13] := by decide +kernel
example : sliceGet six ⟨none, none, some 0⟩ = .error .valueError := by decide +kernel
example : sliceSet six ⟨some 1, some 3, none⟩ [1, 2, 3] = .ok [11, 1, 2, 3, 14, 15, 16] := by decide +kernel
example : sliceSet six ⟨some 4, some 2, none⟩ [1] = .ok [11, 12, 13, 14, 1, 15, 16] := by decide +kernel
example : sliceSet six ⟨none, none, some 2⟩ [1, 2, 3] = .ok [1, 12, 2, 14, 3, 16] := by decide +kernel
example : sliceSet six ⟨none, none, some 2⟩ [1, 2] = .error .valueError := by decide +kernel
example : sliceDel six ⟨some 5, none, some (-2)⟩ = .ok [11, 13, 15] := by decide +kernel

/-- The hypotheses of the negation are met: `ps[2:4][1]` is the third particle. -/
example : ∃ r, sliceGet six ⟨some ((2 : ℕ) : ℤ), some ((4 : ℕ) : ℤ), none⟩ = .ok r ∧ pyGet r 1 = .ok 13 ∧ pyGet r 1 ≠ pyGet six (2 : ℕ) :=
  C130_not_base_one six 2 4 (by omega) (x := 12) (y := 13) (by decide +kernel) (by decide +kernel) (by omega)

/-- A point with an internal mass. -/
def massivePoint : PointRec ℕ ℕ ℕ := ⟨six, 7, 5, [(['m', 't'], 3)]⟩

example : ∃ q, massivePoint.slice ⟨none, some 4, none⟩ = .ok q ∧ q.parts = [11, 12, 13, 14] ∧ q.masses ≠ massivePoint.masses :=
  ⟨_, rfl, by decide +kernel, (C130_point massivePoint _ ⟨none, some 4, none⟩ rfl).2.2.2 (by simp [massivePoint])⟩

end Lips

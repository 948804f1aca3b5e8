import Verif.Model.Image
import Mathlib.Logic.Equiv.Fin.Basic
import Mathlib.Algebra.Group.End
import Mathlib.Data.List.FinRange
import Mathlib.Data.List.OfFn

/-! Specification side of images and symmetries: permutations of `Fin n`. -/

namespace Lips

/-- The one-digit-per-label spelling of a permutation: the `i`-th character is the label that
particle `i` is sent to (labels start at one). -/
def permString {n : ℕ} (σ : Equiv.Perm (Fin n)) : List Char :=
  (List.finRange n).map fun i => Nat.digitChar ((σ i : ℕ) + 1)

/-- The list of labels of a permutation. -/
def permLabels {n : ℕ} (σ : Equiv.Perm (Fin n)) : List ℕ :=
  (List.finRange n).map fun i => (σ i : ℕ) + 1

/-- Particle `i` of `ps` moved to position `σ i`. -/
def moved {α : Type*} {n : ℕ} (ps : Fin n → α) (σ : Equiv.Perm (Fin n)) : Fin n → α :=
  fun k => ps (σ.symm k)

end Lips

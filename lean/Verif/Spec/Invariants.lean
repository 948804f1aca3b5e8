import Mathlib.Data.Finset.Sort
import Mathlib.Order.Interval.Finset.Nat
import Verif.Model.Basic

/-! Specification side of the generators of lips/invariants.py. -/

namespace Lips

/-- The label `k` steps after `a` on the circle of labels `1, ..., n` (for `k ≤ n`). -/
def cyc (n a k : ℕ) : ℕ := if a + k ≤ n then a + k else a + k - n

/-- The labels from `a` on, `len` of them, going around the circle. -/
def arcSet (n a len : ℕ) : Finset ℕ := (Finset.range len).image (cyc n a)

/-- A cyclic interval of the labels `1, ..., n`. -/
def IsCyclicInterval (n : ℕ) (S : Finset ℕ) : Prop :=
  ∃ a len, 1 ≤ a ∧ a ≤ n ∧ len ≤ n ∧ S = arcSet n a len

/-- All labels. -/
def allLabels (n : ℕ) : Finset ℕ := Finset.Icc 1 n

/-- The labels of a set in increasing order, written as one digit each. -/
def setDigits (S : Finset ℕ) : List Char := (S.sort (· ≤ ·)).map Nat.digitChar

/-- `s_` followed by the labels. -/
def sName (S : Finset ℕ) : List Char := ['s', '_'] ++ setDigits S

/-- `tr5_` followed by the labels. -/
def tr5Name (S : Finset ℕ) : List Char := ['t', 'r', '5', '_'] ++ setDigits S

/-- A partition of the labels into three consecutive arcs of at least two labels, as a set of sets. -/
def IsArcPartition (n : ℕ) (P : Finset (Finset ℕ)) : Prop :=
  ∃ a p q r, 1 ≤ a ∧ a ≤ n ∧ 2 ≤ p ∧ 2 ≤ q ∧ 2 ≤ r ∧ p + q + r = n ∧
    P = {arcSet n a p, arcSet n (cyc n a p) q, arcSet n (cyc n a (p + q)) r}

/-- The number of steps from `a` to `b`, going around the circle. -/
def stepsTo (n a b : ℕ) : ℕ := if a ≤ b then b - a else b + n - a

/-- The three arcs starting at the labels of a triple, each ending before the next start. -/
def arcsOf (n : ℕ) (t : ℕ × ℕ × ℕ) : Finset (Finset ℕ) :=
  {arcSet n t.1 (stepsTo n t.1 t.2.1), arcSet n t.2.1 (stepsTo n t.2.1 t.2.2),
    arcSet n t.2.2 (stepsTo n t.2.2 t.1)}

end Lips

import Verif.Spec.Leaves
import Mathlib.Data.Nat.Digits.Defs

/-! What counting gives for the written invariants: how many angle ends minus square ends are a label, and the mass dimension. -/

namespace Lips

/-- One if the digits are the label. -/
def labelIs (k : ℕ) (ds : List Char) : ℤ := if Nat.ofDigitChars 10 ds 0 = k then 1 else 0

/-- Angle ends that are label `k` minus square ends that are. -/
def Leaf.phase (k : ℕ) : Leaf → ℤ
  | .two sq _ a b => (if sq then -1 else 1) * (labelIs k a + labelIs k b)
  | .str o a _ b c => (if o = '[' then -1 else 1) * labelIs k [a] + (if c = ']' then -1 else 1) * labelIs k [b]
  | _ => 0

/-- The mass dimension. -/
def Leaf.dim : Leaf → ℤ
  | .two .. => 1
  | .mandel .. => 2
  | .omega _ => 4
  | .pi _ => 2
  | .tr5l _ | .tr5s .. => 4
  | .trace _ ss => ss.length + 1
  | .delta _ cs => 2 * cs.length
  | .str _ _ ss _ _ => ss.length + 1

end Lips

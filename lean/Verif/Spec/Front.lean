import Verif.Model.Image

/-! Specification side of the text of invariants: how the documented forms are written. -/

namespace Lips

/-- Text of a signed sum of labels, `1-2+3`; the sign of the first label is not written. -/
def slotBody : List (Bool × ℕ) → List Char
  | [] => []
  | t :: ts => pyStr t.2 ++ ts.flatMap fun u => (if u.1 then '+' else '-') :: pyStr u.2

/-- Text of a slot, with or without parentheses around it. -/
def slotText (s : Bool × List (Bool × ℕ)) : List Char :=
  if s.1 then '(' :: (slotBody s.2 ++ [')']) else slotBody s.2

/-- A slot that can be written: at least one label, the first one without sign. -/
def Writable (s : Bool × List (Bool × ℕ)) : Prop := ∃ k ts, s.2 = (true, k) :: ts

/-- `first a|slot|...|slot|d last`. -/
def stringText (first : Char) (a : ℕ) (slots : List (Bool × List (Bool × ℕ))) (d : ℕ) (last : Char) :
    List Char :=
  first :: (['|'].intercalate (pyStr a :: (slots.map slotText ++ [pyStr d])) ++ [last])

/-- `first a|b last`. -/
def twoText (first : Char) (a b : ℕ) (last : Char) : List Char :=
  first :: (pyStr a ++ '|' :: pyStr b ++ [last])

/-- `first a last`. -/
def oneText (first : Char) (a : ℕ) (last : Char) : List Char := first :: (pyStr a ++ [last])

/-- A label written with one digit. -/
def digitOf (k : ℕ) : Char := Nat.digitChar k

/-- Value of the signed sum that a text with parentheses stands for, as in ordinary arithmetic: a
sign in front of a parenthesis applies to everything inside. -/
inductive SignedSum : Type
  | label (k : ℕ)
  | plus (a b : SignedSum)
  | minus (a b : SignedSum)

/-- The sum itself, in any additive group. -/
def SignedSum.value {M : Type*} [AddCommGroup M] (f : ℕ → M) : SignedSum → M
  | .label k => f k
  | .plus a b => a.value f + b.value f
  | .minus a b => a.value f - b.value f

/-- The text of a sum: the right operand is put in parentheses unless it is a label. -/
def SignedSum.text : SignedSum → List Char
  | .label k => pyStr k
  | .plus a (.label k) => a.text ++ '+' :: pyStr k
  | .minus a (.label k) => a.text ++ '-' :: pyStr k
  | .plus a b => a.text ++ '+' :: '(' :: (b.text ++ [')'])
  | .minus a b => a.text ++ '-' :: '(' :: (b.text ++ [')'])

end Lips

import Mathlib.Data.Rat.Defs
import Mathlib.Algebra.Field.Rat

/-!
How numbers are written in Python (`e` before the exponent) and in Mathematica (`*^`), and which statements of Mathematica a phase-space
point is written as. Only decimals are covered, no infinities.
-/

namespace Lips

/-- One or more digits. -/
def DigitsText (t : List Char) : Prop := t ≠ [] ∧ ∀ c ∈ t, c.isDigit = true

/-- Digits, with a point or without, and their value. -/
inductive Mantissa : List Char → ℚ → Prop
  | int {w : List Char} : DigitsText w → Mantissa w (Nat.ofDigitChars 10 w 0 : ℕ)
  | dec {w f : List Char} : DigitsText w → (∀ c ∈ f, c.isDigit = true) →
      Mantissa (w ++ '.' :: f) ((Nat.ofDigitChars 10 (w ++ f) 0 : ℕ) / 10 ^ f.length)

/-- A decimal without sign; `mark` stands before the exponent. -/
inductive Unsigned (mark : List Char) : List Char → ℚ → Prop
  | plain {t : List Char} {q : ℚ} : Mantissa t q → Unsigned mark t q
  | up {t d : List Char} {q : ℚ} : Mantissa t q → DigitsText d → Unsigned mark (t ++ mark ++ d) (q * 10 ^ Nat.ofDigitChars 10 d 0)
  | plus {t d : List Char} {q : ℚ} : Mantissa t q → DigitsText d → Unsigned mark (t ++ mark ++ '+' :: d) (q * 10 ^ Nat.ofDigitChars 10 d 0)
  | down {t d : List Char} {q : ℚ} : Mantissa t q → DigitsText d → Unsigned mark (t ++ mark ++ '-' :: d) (q / 10 ^ Nat.ofDigitChars 10 d 0)

/-- A decimal with a minus sign or without. -/
inductive Signed (mark : List Char) : List Char → ℚ → Prop
  | pos {t : List Char} {q : ℚ} : Unsigned mark t q → Signed mark t q
  | neg {t : List Char} {q : ℚ} : Unsigned mark t q → Signed mark ('-' :: t) (-q)

/-- Python's and Mathematica's marks. -/
def pyMark : List Char := ['e']
def mMark : List Char := ['*', '^']

/-- A complex number as Python writes it, `(x+yj)` or `yj`: the real and the imaginary part. -/
inductive PyComplex : List Char → ℚ × ℚ → Prop
  | plus {x y : List Char} {a b : ℚ} : Signed pyMark x a → Unsigned pyMark y b → PyComplex ('(' :: (x ++ '+' :: (y ++ ['j', ')']))) (a, b)
  | minus {x y : List Char} {a b : ℚ} : Signed pyMark x a → Unsigned pyMark y b → PyComplex ('(' :: (x ++ '-' :: (y ++ ['j', ')']))) (a, -b)
  | imag {y : List Char} {b : ℚ} : Signed pyMark y b → PyComplex (y ++ ['j']) (0, b)

/-- A complex number in Mathematica. -/
inductive MComplex : List Char → ℚ × ℚ → Prop
  | plus {x y : List Char} {a b : ℚ} : Signed mMark x a → Signed mMark y b → MComplex (x ++ '+' :: (y ++ ['I'])) (a, b)
  | minus {x y : List Char} {a b : ℚ} : Signed mMark x a → Unsigned mMark y b → MComplex (x ++ '-' :: (y ++ ['I'])) (a, -b)
  | imag {y : List Char} {b : ℚ} : Signed mMark y b → MComplex (y ++ ['I']) (0, b)
  | paren {t : List Char} {z : ℚ × ℚ} : MComplex t z → MComplex ('(' :: (t ++ [')'])) z

/-- `Subscript[name, i,j] = number;` and a new line. -/
inductive Assigns (name i : List Char) (j : Char) : List Char → ℚ × ℚ → Prop
  | mk {t : List Char} {z : ℚ × ℚ} : MComplex t z → Assigns name i j (name ++ i ++ [',', j, ']', ' ', '=', ' '] ++ t ++ [';', '\n']) z

/-- The two statements of a spinor. -/
inductive AssignsSpinor (name : List Char) (str : ℕ → List Char) (i : ℕ) : List Char → (ℚ × ℚ) × (ℚ × ℚ) → Prop
  | mk {s t : List Char} {z w : ℚ × ℚ} : Assigns name (str i) '1' s z → Assigns name (str i) '2' t w → AssignsSpinor name str i (s ++ t) (z, w)

/-- `DeclareSpinorMomentum[i, {SetPrecision[z0, dps], .., SetPrecision[z3, dps] }]` and a new line. -/
inductive DeclaresMom (str : ℕ → List Char) (dps i : ℕ) : List Char → (ℚ × ℚ) × (ℚ × ℚ) × (ℚ × ℚ) × (ℚ × ℚ) → Prop
  | mk {t0 t1 t2 t3 : List Char} {z0 z1 z2 z3 : ℚ × ℚ} : MComplex t0 z0 → MComplex t1 z1 → MComplex t2 z2 → MComplex t3 z3 →
      DeclaresMom str dps i ("DeclareSpinorMomentum[".toList ++ str i ++ ", {SetPrecision[".toList ++ t0 ++ ", ".toList ++ str dps ++
        "], SetPrecision[".toList ++ t1 ++ ", ".toList ++ str dps ++ "], SetPrecision[".toList ++ t2 ++ ", ".toList ++ str dps ++
        "], SetPrecision[".toList ++ t3 ++ ", ".toList ++ str dps ++ "] }]\n".toList) (z0, z1, z2, z3)

/-- `DeclareSpinorMomentum[Sp[i], {{a}, {b}}, {{c, d}}]` and a new line. -/
inductive DeclaresSpinors (str : ℕ → List Char) (i : ℕ) : List Char → (ℚ × ℚ) × (ℚ × ℚ) × (ℚ × ℚ) × (ℚ × ℚ) → Prop
  | mk {t0 t1 t2 t3 : List Char} {z0 z1 z2 z3 : ℚ × ℚ} : MComplex t0 z0 → MComplex t1 z1 → MComplex t2 z2 → MComplex t3 z3 →
      DeclaresSpinors str i ("DeclareSpinorMomentum[Sp[".toList ++ str i ++ "], {{".toList ++ t0 ++ "}, {".toList ++ t1 ++ "}}, {{".toList ++ t2 ++
        ", ".toList ++ t3 ++ "}}]\n".toList) (z0, z1, z2, z3)

/-- A sequence of statements, one for each value. -/
inductive Statements {α : Type*} (S : ℕ → List Char → α → Prop) : ℕ → List Char → List α → Prop
  | nil {i : ℕ} : Statements S i [] []
  | cons {i : ℕ} {s t : List Char} {a : α} {as : List α} : S i s a → Statements S (i + 1) t as → Statements S i (s ++ t) (a :: as)

end Lips

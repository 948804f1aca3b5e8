import Mathlib.Algebra.Field.Basic
import Mathlib.LinearAlgebra.Matrix.Notation
import Mathlib.LinearAlgebra.Matrix.Trace

/-!
Constants of `lips/tools.py` and the numeric context of a field.
-/

namespace Lips

/-- A one-index spinor (two components). Whether it is a row or a column is fixed
by the accessor it is read from, as in `lips/particle.py`. -/
abbrev V2 (K : Type*) := Fin 2 → K
/-- A rank-two spinor (2x2 array). -/
abbrev M2 (K : Type*) := Matrix (Fin 2) (Fin 2) K
/-- A four momentum. -/
abbrev V4 (K : Type*) := Fin 4 → K

section Constants
variable {K : Type*} [Field K]

/-- `LeviCivita`, tools.py:19. -/
def eps : M2 K := !![0, 1; -1, 0]

/-- The diagonal of `MinkowskiMetric`, tools.py:20. -/
def etaDiag : V4 K := ![1, -1, -1, -1]

/-- `MinkowskiMetric`, tools.py:20. -/
def eta : Matrix (Fin 4) (Fin 4) K := Matrix.diagonal etaDiag

/-- `Pauli`, tools.py:21-25; `i` plays `1j`. -/
def pauli (i : K) : Fin 4 → M2 K :=
  ![!![1, 0; 0, 1], !![0, 1; 1, 0], !![0, -i; i, 0], !![1, 0; 0, -1]]

/-- `Pauli_bar`, tools.py:26. -/
def pauliBar (i : K) : Fin 4 → M2 K :=
  ![!![1, 0; 0, 1], -!![0, 1; 1, 0], -!![0, -i; i, 0], -!![1, 0; 0, -1]]

end Constants

/-- `lips.spinor_convention`, `lips/__init__.py`. -/
inductive Convention where
  | symmetric
  | asymmetric
  deriving DecidableEq, Repr

/-- What the code needs from `Field(...)` (syngular): the tolerance test
`abs(x) <= field.tollerance`, the square root, and multiplication by `1j`
(`imag = none` stands for a field on which arithmetic with `1j` raises one of the
caught errors, e.g. a finite field).  `sqrt x = none` stands for a caught error.
Simplification: arithmetic is exact. -/
structure Ctx (K : Type*) [Field K] where
  conv : Convention
  small : K → Bool
  small_zero : small 0 = true
  sqrt : K → Option K
  sqrt_sq : ∀ x y, sqrt x = some y → y * y = x
  imag : Option K
  imag_sq : ∀ i, imag = some i → i * i = -1

/-- Exceptions that the modelled code lets escape. -/
inductive Err where
  | typeError
  | valueError
  | zeroDivision
  | indexError
  | syntaxError
  | keyError
  | notImplemented
  | exception
  | assertion
  | attributeError
  deriving DecidableEq, Repr

end Lips

import Verif.Model.PairSD0
import Mathlib.Tactic.Ring

/-!
Short forms of the polynomials in `expression_for_e`: the condition on the Mandelstam invariant solved for `a`, put in
the condition on the Gram determinant.
-/

namespace Lips

variable {K : Type*} [Field K]

/-- The condition on the Mandelstam invariant is `a * den = num0 + e * num1`. -/
def SD.den (z : SD K) : K := z.d * z.f * z.g - z.c * z.f * z.h + z.d * z.j * z.k - z.c * z.j * z.l
def SD.num0 (z : SD K) : K :=
  z.b * z.d * z.i * z.k + z.f * z.h * z.i * z.k - z.b * z.c * z.i * z.l - z.f * z.g * z.i * z.l - z.Y
def SD.num1 (z : SD K) : K := z.b * z.d * z.g - z.b * z.c * z.h - z.h * z.j * z.k + z.g * z.j * z.l

/-- The matrix of the second corner. -/
def SD.k00 (z : SD K) : K := z.i * z.k + z.m * z.o
def SD.k01 (z : SD K) : K := z.i * z.l + z.m * z.p
def SD.k10 (z : SD K) : K := z.j * z.k + z.n * z.o
def SD.k11 (z : SD K) : K := z.j * z.l + z.n * z.p

/-- Twice the product of the momenta of the first two corners is `a * pa + e * pe + p0`. -/
def SD.pa (z : SD K) : K := z.c * z.k11 - z.d * z.k10
def SD.pe (z : SD K) : K := z.g * z.k11 - z.h * z.k10
def SD.p0 (z : SD K) : K := (z.b * z.d + z.f * z.h) * z.k00 - (z.b * z.c + z.f * z.g) * z.k01

/-- The same times `den`, with `a` eliminated: `x0 + e * x1`. -/
def SD.x0 (z : SD K) : K := z.num0 * z.pa + z.den * z.p0
def SD.x1 (z : SD K) : K := z.num1 * z.pa + z.den * z.pe

def SD.det (z : SD K) : K := z.k00 * z.k11 - z.k01 * z.k10

end Lips

import Verif.Model.PairSD0

/-!
The polynomial that `expression_for_e`, lips/hardcoded_limits/DoubleCollinearLimit_D_and_S_e.py:4, multiplies by 2 in
its denominator, and by -4 under the square root.
The sum is cut into pieces of 6 terms, in the order of the file.
-/

namespace Lips

variable {K : Type*} [Field K]

/-- Terms 1 to 6. -/
def sdA1 (b c d f g h j k : K) : K :=
  -(b^2 * d^4 * g^2 * j^2 * k^2) + 2 * b^2 * c * d^3 * g * h * j^2 * k^2 - 2 * b * d^3 * f * g^2 * h * j^2 * k^2
    - b^2 * c^2 * d^2 * h^2 * j^2 * k^2 + 4 * b * c * d^2 * f * g * h^2 * j^2 * k^2
    - d^2 * f^2 * g^2 * h^2 * j^2 * k^2

/-- Terms 7 to 12. -/
def sdA2 (b c d f g h j k l : K) : K :=
  -(2 * b * c^2 * d * f * h^3 * j^2 * k^2) + 2 * c * d * f^2 * g * h^3 * j^2 * k^2 - c^2 * f^2 * h^4 * j^2 * k^2
    + 2 * b^2 * c * d^3 * g^2 * j^2 * k * l + 2 * b * d^3 * f * g^3 * j^2 * k * l
    - 4 * b^2 * c^2 * d^2 * g * h * j^2 * k * l

/-- Terms 13 to 18. -/
def sdA3 (b c d f g h j k l : K) : K :=
  -(2 * b * c * d^2 * f * g^2 * h * j^2 * k * l) + 2 * d^2 * f^2 * g^3 * h * j^2 * k * l
    + 2 * b^2 * c^3 * d * h^2 * j^2 * k * l - 2 * b * c^2 * d * f * g * h^2 * j^2 * k * l
    - 4 * c * d * f^2 * g^2 * h^2 * j^2 * k * l + 2 * b * c^3 * f * h^3 * j^2 * k * l

/-- Terms 19 to 24. -/
def sdA4 (b c d f g h j k l : K) : K :=
  2 * c^2 * f^2 * g * h^3 * j^2 * k * l - b^2 * c^2 * d^2 * g^2 * j^2 * l^2 - 2 * b * c * d^2 * f * g^3 * j^2 * l^2
    - d^2 * f^2 * g^4 * j^2 * l^2 + 2 * b^2 * c^3 * d * g * h * j^2 * l^2 + 4 * b * c^2 * d * f * g^2 * h * j^2 * l^2

/-- Terms 25 to 30. -/
def sdA5 (b c d f g h j k l n o : K) : K :=
  2 * c * d * f^2 * g^3 * h * j^2 * l^2 - b^2 * c^4 * h^2 * j^2 * l^2 - 2 * b * c^3 * f * g * h^2 * j^2 * l^2
    - c^2 * f^2 * g^2 * h^2 * j^2 * l^2 - 2 * b^2 * d^4 * g^2 * j * k * n * o
    + 4 * b^2 * c * d^3 * g * h * j * k * n * o

/-- Terms 31 to 36. -/
def sdA6 (b c d f g h j k n o : K) : K :=
  -(4 * b * d^3 * f * g^2 * h * j * k * n * o) - 2 * b^2 * c^2 * d^2 * h^2 * j * k * n * o
    + 8 * b * c * d^2 * f * g * h^2 * j * k * n * o - 2 * d^2 * f^2 * g^2 * h^2 * j * k * n * o
    - 4 * b * c^2 * d * f * h^3 * j * k * n * o + 4 * c * d * f^2 * g * h^3 * j * k * n * o

/-- Terms 37 to 42. -/
def sdA7 (b c d f g h j k l n o : K) : K :=
  -(2 * c^2 * f^2 * h^4 * j * k * n * o) + 2 * b^2 * c * d^3 * g^2 * j * l * n * o
    + 2 * b * d^3 * f * g^3 * j * l * n * o - 4 * b^2 * c^2 * d^2 * g * h * j * l * n * o
    - 2 * b * c * d^2 * f * g^2 * h * j * l * n * o + 2 * d^2 * f^2 * g^3 * h * j * l * n * o

/-- Terms 43 to 48. -/
def sdA8 (b c d f g h j k l n o : K) : K :=
  2 * b^2 * c^3 * d * h^2 * j * l * n * o - 2 * b * c^2 * d * f * g * h^2 * j * l * n * o
    - 4 * c * d * f^2 * g^2 * h^2 * j * l * n * o + 2 * b * c^3 * f * h^3 * j * l * n * o
    + 2 * c^2 * f^2 * g * h^3 * j * l * n * o - 2 * b * d^3 * g^2 * j^2 * k * l * n * o

/-- Terms 49 to 54. -/
def sdA9 (b c d f g h j k l n o : K) : K :=
  4 * b * c * d^2 * g * h * j^2 * k * l * n * o - 2 * d^2 * f * g^2 * h * j^2 * k * l * n * o
    - 2 * b * c^2 * d * h^2 * j^2 * k * l * n * o + 4 * c * d * f * g * h^2 * j^2 * k * l * n * o
    - 2 * c^2 * f * h^3 * j^2 * k * l * n * o + 2 * b * c * d^2 * g^2 * j^2 * l^2 * n * o

/-- Terms 55 to 60. -/
def sdA10 (b c d f g h j l n o : K) : K :=
  2 * d^2 * f * g^3 * j^2 * l^2 * n * o - 4 * b * c^2 * d * g * h * j^2 * l^2 * n * o
    - 4 * c * d * f * g^2 * h * j^2 * l^2 * n * o + 2 * b * c^3 * h^2 * j^2 * l^2 * n * o
    + 2 * c^2 * f * g * h^2 * j^2 * l^2 * n * o - b^2 * d^4 * g^2 * n^2 * o^2

/-- Terms 61 to 66. -/
def sdA11 (b c d f g h n o : K) : K :=
  2 * b^2 * c * d^3 * g * h * n^2 * o^2 - 2 * b * d^3 * f * g^2 * h * n^2 * o^2 - b^2 * c^2 * d^2 * h^2 * n^2 * o^2
    + 4 * b * c * d^2 * f * g * h^2 * n^2 * o^2 - d^2 * f^2 * g^2 * h^2 * n^2 * o^2
    - 2 * b * c^2 * d * f * h^3 * n^2 * o^2

/-- Terms 67 to 72. -/
def sdA12 (b c d f g h j l n o : K) : K :=
  2 * c * d * f^2 * g * h^3 * n^2 * o^2 - c^2 * f^2 * h^4 * n^2 * o^2 - 2 * b * d^3 * g^2 * j * l * n^2 * o^2
    + 4 * b * c * d^2 * g * h * j * l * n^2 * o^2 - 2 * d^2 * f * g^2 * h * j * l * n^2 * o^2
    - 2 * b * c^2 * d * h^2 * j * l * n^2 * o^2

/-- Terms 73 to 78. -/
def sdA13 (b c d f g h j k l n o p : K) : K :=
  4 * c * d * f * g * h^2 * j * l * n^2 * o^2 - 2 * c^2 * f * h^3 * j * l * n^2 * o^2
    - d^2 * g^2 * j^2 * l^2 * n^2 * o^2 + 2 * c * d * g * h * j^2 * l^2 * n^2 * o^2
    - c^2 * h^2 * j^2 * l^2 * n^2 * o^2 + 2 * b^2 * c * d^3 * g^2 * j * k * n * p

/-- Terms 79 to 84. -/
def sdA14 (b c d f g h j k n p : K) : K :=
  2 * b * d^3 * f * g^3 * j * k * n * p - 4 * b^2 * c^2 * d^2 * g * h * j * k * n * p
    - 2 * b * c * d^2 * f * g^2 * h * j * k * n * p + 2 * d^2 * f^2 * g^3 * h * j * k * n * p
    + 2 * b^2 * c^3 * d * h^2 * j * k * n * p - 2 * b * c^2 * d * f * g * h^2 * j * k * n * p

/-- Terms 85 to 90. -/
def sdA15 (b c d f g h j k n p : K) : K :=
  -(4 * c * d * f^2 * g^2 * h^2 * j * k * n * p) + 2 * b * c^3 * f * h^3 * j * k * n * p
    + 2 * c^2 * f^2 * g * h^3 * j * k * n * p + 2 * b * d^3 * g^2 * j^2 * k^2 * n * p
    - 4 * b * c * d^2 * g * h * j^2 * k^2 * n * p + 2 * d^2 * f * g^2 * h * j^2 * k^2 * n * p

/-- Terms 91 to 96. -/
def sdA16 (b c d f g h j k l n p : K) : K :=
  2 * b * c^2 * d * h^2 * j^2 * k^2 * n * p - 4 * c * d * f * g * h^2 * j^2 * k^2 * n * p
    + 2 * c^2 * f * h^3 * j^2 * k^2 * n * p - 2 * b^2 * c^2 * d^2 * g^2 * j * l * n * p
    - 4 * b * c * d^2 * f * g^3 * j * l * n * p - 2 * d^2 * f^2 * g^4 * j * l * n * p

/-- Terms 97 to 102. -/
def sdA17 (b c d f g h j l n p : K) : K :=
  4 * b^2 * c^3 * d * g * h * j * l * n * p + 8 * b * c^2 * d * f * g^2 * h * j * l * n * p
    + 4 * c * d * f^2 * g^3 * h * j * l * n * p - 2 * b^2 * c^4 * h^2 * j * l * n * p
    - 4 * b * c^3 * f * g * h^2 * j * l * n * p - 2 * c^2 * f^2 * g^2 * h^2 * j * l * n * p

/-- Terms 103 to 108. -/
def sdA18 (b c d f g h j k l n p : K) : K :=
  -(2 * b * c * d^2 * g^2 * j^2 * k * l * n * p) - 2 * d^2 * f * g^3 * j^2 * k * l * n * p
    + 4 * b * c^2 * d * g * h * j^2 * k * l * n * p + 4 * c * d * f * g^2 * h * j^2 * k * l * n * p
    - 2 * b * c^3 * h^2 * j^2 * k * l * n * p - 2 * c^2 * f * g * h^2 * j^2 * k * l * n * p

/-- Terms 109 to 114. -/
def sdA19 (b c d f g h n o p : K) : K :=
  2 * b^2 * c * d^3 * g^2 * n^2 * o * p + 2 * b * d^3 * f * g^3 * n^2 * o * p
    - 4 * b^2 * c^2 * d^2 * g * h * n^2 * o * p - 2 * b * c * d^2 * f * g^2 * h * n^2 * o * p
    + 2 * d^2 * f^2 * g^3 * h * n^2 * o * p + 2 * b^2 * c^3 * d * h^2 * n^2 * o * p

/-- Terms 115 to 120. -/
def sdA20 (b c d f g h j k n o p : K) : K :=
  -(2 * b * c^2 * d * f * g * h^2 * n^2 * o * p) - 4 * c * d * f^2 * g^2 * h^2 * n^2 * o * p
    + 2 * b * c^3 * f * h^3 * n^2 * o * p + 2 * c^2 * f^2 * g * h^3 * n^2 * o * p
    + 2 * b * d^3 * g^2 * j * k * n^2 * o * p - 4 * b * c * d^2 * g * h * j * k * n^2 * o * p

/-- Terms 121 to 126. -/
def sdA21 (b c d f g h j k l n o p : K) : K :=
  2 * d^2 * f * g^2 * h * j * k * n^2 * o * p + 2 * b * c^2 * d * h^2 * j * k * n^2 * o * p
    - 4 * c * d * f * g * h^2 * j * k * n^2 * o * p + 2 * c^2 * f * h^3 * j * k * n^2 * o * p
    + 2 * b * c * d^2 * g^2 * j * l * n^2 * o * p + 2 * d^2 * f * g^3 * j * l * n^2 * o * p

/-- Terms 127 to 132. -/
def sdA22 (b c d f g h j k l n o p : K) : K :=
  -(4 * b * c^2 * d * g * h * j * l * n^2 * o * p) - 4 * c * d * f * g^2 * h * j * l * n^2 * o * p
    + 2 * b * c^3 * h^2 * j * l * n^2 * o * p + 2 * c^2 * f * g * h^2 * j * l * n^2 * o * p
    + 2 * d^2 * g^2 * j^2 * k * l * n^2 * o * p - 4 * c * d * g * h * j^2 * k * l * n^2 * o * p

/-- Terms 133 to 138. -/
def sdA23 (b c d f g h j k l n o p : K) : K :=
  2 * c^2 * h^2 * j^2 * k * l * n^2 * o * p - b^2 * c^2 * d^2 * g^2 * n^2 * p^2
    - 2 * b * c * d^2 * f * g^3 * n^2 * p^2 - d^2 * f^2 * g^4 * n^2 * p^2 + 2 * b^2 * c^3 * d * g * h * n^2 * p^2
    + 4 * b * c^2 * d * f * g^2 * h * n^2 * p^2

/-- Terms 139 to 144. -/
def sdA24 (b c d f g h j k n p : K) : K :=
  2 * c * d * f^2 * g^3 * h * n^2 * p^2 - b^2 * c^4 * h^2 * n^2 * p^2 - 2 * b * c^3 * f * g * h^2 * n^2 * p^2
    - c^2 * f^2 * g^2 * h^2 * n^2 * p^2 - 2 * b * c * d^2 * g^2 * j * k * n^2 * p^2
    - 2 * d^2 * f * g^3 * j * k * n^2 * p^2

/-- Terms 145 to 150. -/
def sdA25 (b c d f g h j k n p : K) : K :=
  4 * b * c^2 * d * g * h * j * k * n^2 * p^2 + 4 * c * d * f * g^2 * h * j * k * n^2 * p^2
    - 2 * b * c^3 * h^2 * j * k * n^2 * p^2 - 2 * c^2 * f * g * h^2 * j * k * n^2 * p^2
    - d^2 * g^2 * j^2 * k^2 * n^2 * p^2 + 2 * c * d * g * h * j^2 * k^2 * n^2 * p^2

/-- Terms 151 to 151. -/
def sdA26 (c h j k n p : K) : K :=
  -(c^2 * h^2 * j^2 * k^2 * n^2 * p^2)

/-- The sum of the pieces. -/
def sdA (z : SD K) : K :=
  sdA1 z.b z.c z.d z.f z.g z.h z.j z.k + sdA2 z.b z.c z.d z.f z.g z.h z.j z.k z.l +
    sdA3 z.b z.c z.d z.f z.g z.h z.j z.k z.l + sdA4 z.b z.c z.d z.f z.g z.h z.j z.k z.l +
    sdA5 z.b z.c z.d z.f z.g z.h z.j z.k z.l z.n z.o + sdA6 z.b z.c z.d z.f z.g z.h z.j z.k z.n z.o +
    sdA7 z.b z.c z.d z.f z.g z.h z.j z.k z.l z.n z.o + sdA8 z.b z.c z.d z.f z.g z.h z.j z.k z.l z.n z.o +
    sdA9 z.b z.c z.d z.f z.g z.h z.j z.k z.l z.n z.o + sdA10 z.b z.c z.d z.f z.g z.h z.j z.l z.n z.o +
    sdA11 z.b z.c z.d z.f z.g z.h z.n z.o + sdA12 z.b z.c z.d z.f z.g z.h z.j z.l z.n z.o +
    sdA13 z.b z.c z.d z.f z.g z.h z.j z.k z.l z.n z.o z.p + sdA14 z.b z.c z.d z.f z.g z.h z.j z.k z.n z.p +
    sdA15 z.b z.c z.d z.f z.g z.h z.j z.k z.n z.p + sdA16 z.b z.c z.d z.f z.g z.h z.j z.k z.l z.n z.p +
    sdA17 z.b z.c z.d z.f z.g z.h z.j z.l z.n z.p + sdA18 z.b z.c z.d z.f z.g z.h z.j z.k z.l z.n z.p +
    sdA19 z.b z.c z.d z.f z.g z.h z.n z.o z.p + sdA20 z.b z.c z.d z.f z.g z.h z.j z.k z.n z.o z.p +
    sdA21 z.b z.c z.d z.f z.g z.h z.j z.k z.l z.n z.o z.p + sdA22 z.b z.c z.d z.f z.g z.h z.j z.k z.l z.n z.o z.p +
    sdA23 z.b z.c z.d z.f z.g z.h z.j z.k z.l z.n z.o z.p + sdA24 z.b z.c z.d z.f z.g z.h z.j z.k z.n z.p +
    sdA25 z.b z.c z.d z.f z.g z.h z.j z.k z.n z.p + sdA26 z.c z.h z.j z.k z.n z.p

end Lips

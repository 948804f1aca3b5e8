import Verif.Model.PairSD0

/-!
The polynomial that `expression_for_e`, lips/hardcoded_limits/DoubleCollinearLimit_D_and_S_e.py:4, squares under the
square root. Before the square root the file has the same terms in the same order with the other signs.
The sum is cut into pieces of 6 terms, in the order of the file.
-/

namespace Lips

variable {K : Type*} [Field K]

/-- Terms 1 to 6. -/
def sdB1 (b c d f g h i j k : K) : K :=
  2 * b^2 * d^4 * f * g^2 * i * j * k^2 - 4 * b^2 * c * d^3 * f * g * h * i * j * k^2
    + 4 * b * d^3 * f^2 * g^2 * h * i * j * k^2 + 2 * b^2 * c^2 * d^2 * f * h^2 * i * j * k^2
    - 8 * b * c * d^2 * f^2 * g * h^2 * i * j * k^2 + 2 * d^2 * f^3 * g^2 * h^2 * i * j * k^2

/-- Terms 7 to 12. -/
def sdB2 (b c d f g h i j k l : K) : K :=
  4 * b * c^2 * d * f^2 * h^3 * i * j * k^2 - 4 * c * d * f^3 * g * h^3 * i * j * k^2
    + 2 * c^2 * f^3 * h^4 * i * j * k^2 - 4 * b^2 * c * d^3 * f * g^2 * i * j * k * l
    - 4 * b * d^3 * f^2 * g^3 * i * j * k * l + 8 * b^2 * c^2 * d^2 * f * g * h * i * j * k * l

/-- Terms 13 to 18. -/
def sdB3 (b c d f g h i j k l : K) : K :=
  4 * b * c * d^2 * f^2 * g^2 * h * i * j * k * l - 4 * d^2 * f^3 * g^3 * h * i * j * k * l
    - 4 * b^2 * c^3 * d * f * h^2 * i * j * k * l + 4 * b * c^2 * d * f^2 * g * h^2 * i * j * k * l
    + 8 * c * d * f^3 * g^2 * h^2 * i * j * k * l - 4 * b * c^3 * f^2 * h^3 * i * j * k * l

/-- Terms 19 to 24. -/
def sdB4 (b c d f g h i j k l : K) : K :=
  -(4 * c^2 * f^3 * g * h^3 * i * j * k * l) + 2 * b^2 * c^2 * d^2 * f * g^2 * i * j * l^2
    + 4 * b * c * d^2 * f^2 * g^3 * i * j * l^2 + 2 * d^2 * f^3 * g^4 * i * j * l^2
    - 4 * b^2 * c^3 * d * f * g * h * i * j * l^2 - 8 * b * c^2 * d * f^2 * g^2 * h * i * j * l^2

/-- Terms 25 to 30. -/
def sdB5 (b c d f g h i j k l m o : K) : K :=
  -(4 * c * d * f^3 * g^3 * h * i * j * l^2) + 2 * b^2 * c^4 * f * h^2 * i * j * l^2
    + 4 * b * c^3 * f^2 * g * h^2 * i * j * l^2 + 2 * c^2 * f^3 * g^2 * h^2 * i * j * l^2
    + 2 * b^2 * d^4 * f * g^2 * j * k * m * o - 4 * b^2 * c * d^3 * f * g * h * j * k * m * o

/-- Terms 31 to 36. -/
def sdB6 (b c d f g h j k m o : K) : K :=
  4 * b * d^3 * f^2 * g^2 * h * j * k * m * o + 2 * b^2 * c^2 * d^2 * f * h^2 * j * k * m * o
    - 8 * b * c * d^2 * f^2 * g * h^2 * j * k * m * o + 2 * d^2 * f^3 * g^2 * h^2 * j * k * m * o
    + 4 * b * c^2 * d * f^2 * h^3 * j * k * m * o - 4 * c * d * f^3 * g * h^3 * j * k * m * o

/-- Terms 37 to 42. -/
def sdB7 (b c d f g h j k m o : K) : K :=
  2 * c^2 * f^3 * h^4 * j * k * m * o + 2 * b^2 * d^4 * g * j^2 * k^2 * m * o
    - 2 * b^2 * c * d^3 * h * j^2 * k^2 * m * o + 4 * b * d^3 * f * g * h * j^2 * k^2 * m * o
    - 4 * b * c * d^2 * f * h^2 * j^2 * k^2 * m * o + 2 * d^2 * f^2 * g * h^2 * j^2 * k^2 * m * o

/-- Terms 43 to 48. -/
def sdB8 (b c d f g h j k l m o : K) : K :=
  -(2 * c * d * f^2 * h^3 * j^2 * k^2 * m * o) - 2 * b^2 * c * d^3 * f * g^2 * j * l * m * o
    - 2 * b * d^3 * f^2 * g^3 * j * l * m * o + 4 * b^2 * c^2 * d^2 * f * g * h * j * l * m * o
    + 2 * b * c * d^2 * f^2 * g^2 * h * j * l * m * o - 2 * d^2 * f^3 * g^3 * h * j * l * m * o

/-- Terms 49 to 54. -/
def sdB9 (b c d f g h j k l m o : K) : K :=
  -(2 * b^2 * c^3 * d * f * h^2 * j * l * m * o) + 2 * b * c^2 * d * f^2 * g * h^2 * j * l * m * o
    + 4 * c * d * f^3 * g^2 * h^2 * j * l * m * o - 2 * b * c^3 * f^2 * h^3 * j * l * m * o
    - 2 * c^2 * f^3 * g * h^3 * j * l * m * o - 4 * b^2 * c * d^3 * g * j^2 * k * l * m * o

/-- Terms 55 to 60. -/
def sdB10 (b c d f g h j k l m o : K) : K :=
  2 * b * d^3 * f * g^2 * j^2 * k * l * m * o + 4 * b^2 * c^2 * d^2 * h * j^2 * k * l * m * o
    - 12 * b * c * d^2 * f * g * h * j^2 * k * l * m * o + 2 * d^2 * f^2 * g^2 * h * j^2 * k * l * m * o
    + 10 * b * c^2 * d * f * h^2 * j^2 * k * l * m * o - 8 * c * d * f^2 * g * h^2 * j^2 * k * l * m * o

/-- Terms 61 to 66. -/
def sdB11 (b c d f g h j k l m o : K) : K :=
  6 * c^2 * f^2 * h^3 * j^2 * k * l * m * o + 4 * b * d^3 * g * j^3 * k^2 * l * m * o
    - 4 * b * c * d^2 * h * j^3 * k^2 * l * m * o + 4 * d^2 * f * g * h * j^3 * k^2 * l * m * o
    - 4 * c * d * f * h^2 * j^3 * k^2 * l * m * o + 2 * b^2 * c^2 * d^2 * g * j^2 * l^2 * m * o

/-- Terms 67 to 72. -/
def sdB12 (b c d f g h j l m o : K) : K :=
  -(2 * b * c * d^2 * f * g^2 * j^2 * l^2 * m * o) - 4 * d^2 * f^2 * g^3 * j^2 * l^2 * m * o
    - 2 * b^2 * c^3 * d * h * j^2 * l^2 * m * o + 8 * b * c^2 * d * f * g * h * j^2 * l^2 * m * o
    + 10 * c * d * f^2 * g^2 * h * j^2 * l^2 * m * o - 6 * b * c^3 * f * h^2 * j^2 * l^2 * m * o

/-- Terms 73 to 78. -/
def sdB13 (b c d f g h j k l m o : K) : K :=
  -(6 * c^2 * f^2 * g * h^2 * j^2 * l^2 * m * o) - 8 * b * c * d^2 * g * j^3 * k * l^2 * m * o
    - 4 * d^2 * f * g^2 * j^3 * k * l^2 * m * o + 8 * b * c^2 * d * h * j^3 * k * l^2 * m * o
    + 4 * c^2 * f * h^2 * j^3 * k * l^2 * m * o + 4 * b * c^2 * d * g * j^3 * l^3 * m * o

/-- Terms 79 to 84. -/
def sdB14 (b c d f g h i j k l m n o : K) : K :=
  4 * c * d * f * g^2 * j^3 * l^3 * m * o - 4 * b * c^3 * h * j^3 * l^3 * m * o
    - 4 * c^2 * f * g * h * j^3 * l^3 * m * o + 2 * b^2 * d^4 * f * g^2 * i * k * n * o
    - 4 * b^2 * c * d^3 * f * g * h * i * k * n * o + 4 * b * d^3 * f^2 * g^2 * h * i * k * n * o

/-- Terms 85 to 90. -/
def sdB15 (b c d f g h i k n o : K) : K :=
  2 * b^2 * c^2 * d^2 * f * h^2 * i * k * n * o - 8 * b * c * d^2 * f^2 * g * h^2 * i * k * n * o
    + 2 * d^2 * f^3 * g^2 * h^2 * i * k * n * o + 4 * b * c^2 * d * f^2 * h^3 * i * k * n * o
    - 4 * c * d * f^3 * g * h^3 * i * k * n * o + 2 * c^2 * f^3 * h^4 * i * k * n * o

/-- Terms 91 to 96. -/
def sdB16 (b c d f g h i j k n o : K) : K :=
  -(2 * b^2 * d^4 * g * i * j * k^2 * n * o) + 2 * b^2 * c * d^3 * h * i * j * k^2 * n * o
    - 4 * b * d^3 * f * g * h * i * j * k^2 * n * o + 4 * b * c * d^2 * f * h^2 * i * j * k^2 * n * o
    - 2 * d^2 * f^2 * g * h^2 * i * j * k^2 * n * o + 2 * c * d * f^2 * h^3 * i * j * k^2 * n * o

/-- Terms 97 to 102. -/
def sdB17 (b c d f g h i l n o : K) : K :=
  -(2 * b^2 * c * d^3 * f * g^2 * i * l * n * o) - 2 * b * d^3 * f^2 * g^3 * i * l * n * o
    + 4 * b^2 * c^2 * d^2 * f * g * h * i * l * n * o + 2 * b * c * d^2 * f^2 * g^2 * h * i * l * n * o
    - 2 * d^2 * f^3 * g^3 * h * i * l * n * o - 2 * b^2 * c^3 * d * f * h^2 * i * l * n * o

/-- Terms 103 to 108. -/
def sdB18 (b c d f g h i j k l n o : K) : K :=
  2 * b * c^2 * d * f^2 * g * h^2 * i * l * n * o + 4 * c * d * f^3 * g^2 * h^2 * i * l * n * o
    - 2 * b * c^3 * f^2 * h^3 * i * l * n * o - 2 * c^2 * f^3 * g * h^3 * i * l * n * o
    + 4 * b^2 * c * d^3 * g * i * j * k * l * n * o + 2 * b * d^3 * f * g^2 * i * j * k * l * n * o

/-- Terms 109 to 114. -/
def sdB19 (b c d f g h i j k l n o : K) : K :=
  -(4 * b^2 * c^2 * d^2 * h * i * j * k * l * n * o) + 4 * b * c * d^2 * f * g * h * i * j * k * l * n * o
    + 2 * d^2 * f^2 * g^2 * h * i * j * k * l * n * o - 6 * b * c^2 * d * f * h^2 * i * j * k * l * n * o
    - 2 * c^2 * f^2 * h^3 * i * j * k * l * n * o - 4 * b * d^3 * g * i * j^2 * k^2 * l * n * o

/-- Terms 115 to 120. -/
def sdB20 (b c d f g h i j k l n o : K) : K :=
  4 * b * c * d^2 * h * i * j^2 * k^2 * l * n * o - 4 * d^2 * f * g * h * i * j^2 * k^2 * l * n * o
    + 4 * c * d * f * h^2 * i * j^2 * k^2 * l * n * o - 2 * b^2 * c^2 * d^2 * g * i * j * l^2 * n * o
    - 2 * b * c * d^2 * f * g^2 * i * j * l^2 * n * o + 2 * b^2 * c^3 * d * h * i * j * l^2 * n * o

/-- Terms 121 to 126. -/
def sdB21 (b c d f g h i j k l n o : K) : K :=
  -(2 * c * d * f^2 * g^2 * h * i * j * l^2 * n * o) + 2 * b * c^3 * f * h^2 * i * j * l^2 * n * o
    + 2 * c^2 * f^2 * g * h^2 * i * j * l^2 * n * o + 8 * b * c * d^2 * g * i * j^2 * k * l^2 * n * o
    + 4 * d^2 * f * g^2 * i * j^2 * k * l^2 * n * o - 8 * b * c^2 * d * h * i * j^2 * k * l^2 * n * o

/-- Terms 127 to 132. -/
def sdB22 (b c d f g h i j k l m n o : K) : K :=
  -(4 * c^2 * f * h^2 * i * j^2 * k * l^2 * n * o) - 4 * b * c^2 * d * g * i * j^2 * l^3 * n * o
    - 4 * c * d * f * g^2 * i * j^2 * l^3 * n * o + 4 * b * c^3 * h * i * j^2 * l^3 * n * o
    + 4 * c^2 * f * g * h * i * j^2 * l^3 * n * o + 2 * b^2 * d^4 * f * g^2 * m * n * o^2

/-- Terms 133 to 138. -/
def sdB23 (b c d f g h m n o : K) : K :=
  -(4 * b^2 * c * d^3 * f * g * h * m * n * o^2) + 4 * b * d^3 * f^2 * g^2 * h * m * n * o^2
    + 2 * b^2 * c^2 * d^2 * f * h^2 * m * n * o^2 - 8 * b * c * d^2 * f^2 * g * h^2 * m * n * o^2
    + 2 * d^2 * f^3 * g^2 * h^2 * m * n * o^2 + 4 * b * c^2 * d * f^2 * h^3 * m * n * o^2

/-- Terms 139 to 144. -/
def sdB24 (b c d f g h j k m n o : K) : K :=
  -(4 * c * d * f^3 * g * h^3 * m * n * o^2) + 2 * c^2 * f^3 * h^4 * m * n * o^2
    + 2 * b^2 * d^4 * g * j * k * m * n * o^2 - 2 * b^2 * c * d^3 * h * j * k * m * n * o^2
    + 4 * b * d^3 * f * g * h * j * k * m * n * o^2 - 4 * b * c * d^2 * f * h^2 * j * k * m * n * o^2

/-- Terms 145 to 150. -/
def sdB25 (b c d f g h j k l m n o : K) : K :=
  2 * d^2 * f^2 * g * h^2 * j * k * m * n * o^2 - 2 * c * d * f^2 * h^3 * j * k * m * n * o^2
    - 2 * b^2 * c * d^3 * g * j * l * m * n * o^2 + 2 * b * d^3 * f * g^2 * j * l * m * n * o^2
    + 2 * b^2 * c^2 * d^2 * h * j * l * m * n * o^2 - 8 * b * c * d^2 * f * g * h * j * l * m * n * o^2

/-- Terms 151 to 156. -/
def sdB26 (b c d f g h j k l m n o : K) : K :=
  2 * d^2 * f^2 * g^2 * h * j * l * m * n * o^2 + 6 * b * c^2 * d * f * h^2 * j * l * m * n * o^2
    - 6 * c * d * f^2 * g * h^2 * j * l * m * n * o^2 + 4 * c^2 * f^2 * h^3 * j * l * m * n * o^2
    + 2 * b * d^3 * g * j^2 * k * l * m * n * o^2 - 2 * b * c * d^2 * h * j^2 * k * l * m * n * o^2

/-- Terms 157 to 162. -/
def sdB27 (b c d f g h j k l m n o : K) : K :=
  2 * d^2 * f * g * h * j^2 * k * l * m * n * o^2 - 2 * c * d * f * h^2 * j^2 * k * l * m * n * o^2
    - 2 * b * c * d^2 * g * j^2 * l^2 * m * n * o^2 + 2 * b * c^2 * d * h * j^2 * l^2 * m * n * o^2
    - 2 * c * d * f * g * h * j^2 * l^2 * m * n * o^2 + 2 * c^2 * f * h^2 * j^2 * l^2 * m * n * o^2

/-- Terms 163 to 168. -/
def sdB28 (b c d f g h i k n o : K) : K :=
  -(2 * b^2 * d^4 * g * i * k * n^2 * o^2) + 2 * b^2 * c * d^3 * h * i * k * n^2 * o^2
    - 4 * b * d^3 * f * g * h * i * k * n^2 * o^2 + 4 * b * c * d^2 * f * h^2 * i * k * n^2 * o^2
    - 2 * d^2 * f^2 * g * h^2 * i * k * n^2 * o^2 + 2 * c * d * f^2 * h^3 * i * k * n^2 * o^2

/-- Terms 169 to 174. -/
def sdB29 (b c d f g h i l n o : K) : K :=
  2 * b^2 * c * d^3 * g * i * l * n^2 * o^2 + 2 * b * d^3 * f * g^2 * i * l * n^2 * o^2
    - 2 * b^2 * c^2 * d^2 * h * i * l * n^2 * o^2 + 2 * d^2 * f^2 * g^2 * h * i * l * n^2 * o^2
    - 2 * b * c^2 * d * f * h^2 * i * l * n^2 * o^2 - 2 * c * d * f^2 * g * h^2 * i * l * n^2 * o^2

/-- Terms 175 to 180. -/
def sdB30 (b c d f g h i j k l n o : K) : K :=
  -(2 * b * d^3 * g * i * j * k * l * n^2 * o^2) + 2 * b * c * d^2 * h * i * j * k * l * n^2 * o^2
    - 2 * d^2 * f * g * h * i * j * k * l * n^2 * o^2 + 2 * c * d * f * h^2 * i * j * k * l * n^2 * o^2
    + 2 * b * c * d^2 * g * i * j * l^2 * n^2 * o^2 + 2 * d^2 * f * g^2 * i * j * l^2 * n^2 * o^2

/-- Terms 181 to 186. -/
def sdB31 (b c d f g h i j k l m n o p : K) : K :=
  -(2 * b * c^2 * d * h * i * j * l^2 * n^2 * o^2) - 2 * c * d * f * g * h * i * j * l^2 * n^2 * o^2
    - 2 * b^2 * c * d^3 * f * g^2 * j * k * m * p - 2 * b * d^3 * f^2 * g^3 * j * k * m * p
    + 4 * b^2 * c^2 * d^2 * f * g * h * j * k * m * p + 2 * b * c * d^2 * f^2 * g^2 * h * j * k * m * p

/-- Terms 187 to 192. -/
def sdB32 (b c d f g h j k m p : K) : K :=
  -(2 * d^2 * f^3 * g^3 * h * j * k * m * p) - 2 * b^2 * c^3 * d * f * h^2 * j * k * m * p
    + 2 * b * c^2 * d * f^2 * g * h^2 * j * k * m * p + 4 * c * d * f^3 * g^2 * h^2 * j * k * m * p
    - 2 * b * c^3 * f^2 * h^3 * j * k * m * p - 2 * c^2 * f^3 * g * h^3 * j * k * m * p

/-- Terms 193 to 198. -/
def sdB33 (b c d f g h j k m p : K) : K :=
  -(2 * b^2 * c * d^3 * g * j^2 * k^2 * m * p) - 6 * b * d^3 * f * g^2 * j^2 * k^2 * m * p
    + 2 * b^2 * c^2 * d^2 * h * j^2 * k^2 * m * p + 8 * b * c * d^2 * f * g * h * j^2 * k^2 * m * p
    - 6 * d^2 * f^2 * g^2 * h * j^2 * k^2 * m * p - 2 * b * c^2 * d * f * h^2 * j^2 * k^2 * m * p

/-- Terms 199 to 204. -/
def sdB34 (b c d f g h j k m p : K) : K :=
  10 * c * d * f^2 * g * h^2 * j^2 * k^2 * m * p - 4 * c^2 * f^2 * h^3 * j^2 * k^2 * m * p
    - 4 * b * d^3 * g * j^3 * k^3 * m * p + 4 * b * c * d^2 * h * j^3 * k^3 * m * p
    - 4 * d^2 * f * g * h * j^3 * k^3 * m * p + 4 * c * d * f * h^2 * j^3 * k^3 * m * p

/-- Terms 205 to 210. -/
def sdB35 (b c d f g h j l m p : K) : K :=
  2 * b^2 * c^2 * d^2 * f * g^2 * j * l * m * p + 4 * b * c * d^2 * f^2 * g^3 * j * l * m * p
    + 2 * d^2 * f^3 * g^4 * j * l * m * p - 4 * b^2 * c^3 * d * f * g * h * j * l * m * p
    - 8 * b * c^2 * d * f^2 * g^2 * h * j * l * m * p - 4 * c * d * f^3 * g^3 * h * j * l * m * p

/-- Terms 211 to 216. -/
def sdB36 (b c d f g h j k l m p : K) : K :=
  2 * b^2 * c^4 * f * h^2 * j * l * m * p + 4 * b * c^3 * f^2 * g * h^2 * j * l * m * p
    + 2 * c^2 * f^3 * g^2 * h^2 * j * l * m * p + 4 * b^2 * c^2 * d^2 * g * j^2 * k * l * m * p
    + 10 * b * c * d^2 * f * g^2 * j^2 * k * l * m * p + 6 * d^2 * f^2 * g^3 * j^2 * k * l * m * p

/-- Terms 217 to 222. -/
def sdB37 (b c d f g h j k l m p : K) : K :=
  -(4 * b^2 * c^3 * d * h * j^2 * k * l * m * p) - 12 * b * c^2 * d * f * g * h * j^2 * k * l * m * p
    - 8 * c * d * f^2 * g^2 * h * j^2 * k * l * m * p + 2 * b * c^3 * f * h^2 * j^2 * k * l * m * p
    + 2 * c^2 * f^2 * g * h^2 * j^2 * k * l * m * p + 8 * b * c * d^2 * g * j^3 * k^2 * l * m * p

/-- Terms 223 to 228. -/
def sdB38 (b c d f g h j k l m p : K) : K :=
  4 * d^2 * f * g^2 * j^3 * k^2 * l * m * p - 8 * b * c^2 * d * h * j^3 * k^2 * l * m * p
    - 4 * c^2 * f * h^2 * j^3 * k^2 * l * m * p - 2 * b^2 * c^3 * d * g * j^2 * l^2 * m * p
    - 4 * b * c^2 * d * f * g^2 * j^2 * l^2 * m * p - 2 * c * d * f^2 * g^3 * j^2 * l^2 * m * p

/-- Terms 229 to 234. -/
def sdB39 (b c d f g h j k l m p : K) : K :=
  2 * b^2 * c^4 * h * j^2 * l^2 * m * p + 4 * b * c^3 * f * g * h * j^2 * l^2 * m * p
    + 2 * c^2 * f^2 * g^2 * h * j^2 * l^2 * m * p - 4 * b * c^2 * d * g * j^3 * k * l^2 * m * p
    - 4 * c * d * f * g^2 * j^3 * k * l^2 * m * p + 4 * b * c^3 * h * j^3 * k * l^2 * m * p

/-- Terms 235 to 240. -/
def sdB40 (b c d f g h i j k l m n p : K) : K :=
  4 * c^2 * f * g * h * j^3 * k * l^2 * m * p - 2 * b^2 * c * d^3 * f * g^2 * i * k * n * p
    - 2 * b * d^3 * f^2 * g^3 * i * k * n * p + 4 * b^2 * c^2 * d^2 * f * g * h * i * k * n * p
    + 2 * b * c * d^2 * f^2 * g^2 * h * i * k * n * p - 2 * d^2 * f^3 * g^3 * h * i * k * n * p

/-- Terms 241 to 246. -/
def sdB41 (b c d f g h i j k n p : K) : K :=
  -(2 * b^2 * c^3 * d * f * h^2 * i * k * n * p) + 2 * b * c^2 * d * f^2 * g * h^2 * i * k * n * p
    + 4 * c * d * f^3 * g^2 * h^2 * i * k * n * p - 2 * b * c^3 * f^2 * h^3 * i * k * n * p
    - 2 * c^2 * f^3 * g * h^3 * i * k * n * p + 2 * b^2 * c * d^3 * g * i * j * k^2 * n * p

/-- Terms 247 to 252. -/
def sdB42 (b c d f g h i j k n p : K) : K :=
  2 * b * d^3 * f * g^2 * i * j * k^2 * n * p - 2 * b^2 * c^2 * d^2 * h * i * j * k^2 * n * p
    + 2 * d^2 * f^2 * g^2 * h * i * j * k^2 * n * p - 2 * b * c^2 * d * f * h^2 * i * j * k^2 * n * p
    - 2 * c * d * f^2 * g * h^2 * i * j * k^2 * n * p + 4 * b * d^3 * g * i * j^2 * k^3 * n * p

/-- Terms 253 to 258. -/
def sdB43 (b c d f g h i j k l n p : K) : K :=
  -(4 * b * c * d^2 * h * i * j^2 * k^3 * n * p) + 4 * d^2 * f * g * h * i * j^2 * k^3 * n * p
    - 4 * c * d * f * h^2 * i * j^2 * k^3 * n * p + 2 * b^2 * c^2 * d^2 * f * g^2 * i * l * n * p
    + 4 * b * c * d^2 * f^2 * g^3 * i * l * n * p + 2 * d^2 * f^3 * g^4 * i * l * n * p

/-- Terms 259 to 264. -/
def sdB44 (b c d f g h i l n p : K) : K :=
  -(4 * b^2 * c^3 * d * f * g * h * i * l * n * p) - 8 * b * c^2 * d * f^2 * g^2 * h * i * l * n * p
    - 4 * c * d * f^3 * g^3 * h * i * l * n * p + 2 * b^2 * c^4 * f * h^2 * i * l * n * p
    + 4 * b * c^3 * f^2 * g * h^2 * i * l * n * p + 2 * c^2 * f^3 * g^2 * h^2 * i * l * n * p

/-- Terms 265 to 270. -/
def sdB45 (b c d f g h i j k l n p : K) : K :=
  -(4 * b^2 * c^2 * d^2 * g * i * j * k * l * n * p) - 6 * b * c * d^2 * f * g^2 * i * j * k * l * n * p
    - 2 * d^2 * f^2 * g^3 * i * j * k * l * n * p + 4 * b^2 * c^3 * d * h * i * j * k * l * n * p
    + 4 * b * c^2 * d * f * g * h * i * j * k * l * n * p + 2 * b * c^3 * f * h^2 * i * j * k * l * n * p

/-- Terms 271 to 276. -/
def sdB46 (b c d f g h i j k l n p : K) : K :=
  2 * c^2 * f^2 * g * h^2 * i * j * k * l * n * p - 8 * b * c * d^2 * g * i * j^2 * k^2 * l * n * p
    - 4 * d^2 * f * g^2 * i * j^2 * k^2 * l * n * p + 8 * b * c^2 * d * h * i * j^2 * k^2 * l * n * p
    + 4 * c^2 * f * h^2 * i * j^2 * k^2 * l * n * p + 2 * b^2 * c^3 * d * g * i * j * l^2 * n * p

/-- Terms 277 to 282. -/
def sdB47 (b c d f g h i j k l n p : K) : K :=
  4 * b * c^2 * d * f * g^2 * i * j * l^2 * n * p + 2 * c * d * f^2 * g^3 * i * j * l^2 * n * p
    - 2 * b^2 * c^4 * h * i * j * l^2 * n * p - 4 * b * c^3 * f * g * h * i * j * l^2 * n * p
    - 2 * c^2 * f^2 * g^2 * h * i * j * l^2 * n * p + 4 * b * c^2 * d * g * i * j^2 * k * l^2 * n * p

/-- Terms 283 to 288. -/
def sdB48 (b c d f g h i j k l m n o p : K) : K :=
  4 * c * d * f * g^2 * i * j^2 * k * l^2 * n * p - 4 * b * c^3 * h * i * j^2 * k * l^2 * n * p
    - 4 * c^2 * f * g * h * i * j^2 * k * l^2 * n * p - 4 * b^2 * c * d^3 * f * g^2 * m * n * o * p
    - 4 * b * d^3 * f^2 * g^3 * m * n * o * p + 8 * b^2 * c^2 * d^2 * f * g * h * m * n * o * p

/-- Terms 289 to 294. -/
def sdB49 (b c d f g h m n o p : K) : K :=
  4 * b * c * d^2 * f^2 * g^2 * h * m * n * o * p - 4 * d^2 * f^3 * g^3 * h * m * n * o * p
    - 4 * b^2 * c^3 * d * f * h^2 * m * n * o * p + 4 * b * c^2 * d * f^2 * g * h^2 * m * n * o * p
    + 8 * c * d * f^3 * g^2 * h^2 * m * n * o * p - 4 * b * c^3 * f^2 * h^3 * m * n * o * p

/-- Terms 295 to 300. -/
def sdB50 (b c d f g h j k m n o p : K) : K :=
  -(4 * c^2 * f^3 * g * h^3 * m * n * o * p) - 4 * b^2 * c * d^3 * g * j * k * m * n * o * p
    - 6 * b * d^3 * f * g^2 * j * k * m * n * o * p + 4 * b^2 * c^2 * d^2 * h * j * k * m * n * o * p
    + 4 * b * c * d^2 * f * g * h * j * k * m * n * o * p - 6 * d^2 * f^2 * g^2 * h * j * k * m * n * o * p

/-- Terms 301 to 306. -/
def sdB51 (b c d f g h j k m n o p : K) : K :=
  2 * b * c^2 * d * f * h^2 * j * k * m * n * o * p + 8 * c * d * f^2 * g * h^2 * j * k * m * n * o * p
    - 2 * c^2 * f^2 * h^3 * j * k * m * n * o * p - 2 * b * d^3 * g * j^2 * k^2 * m * n * o * p
    + 2 * b * c * d^2 * h * j^2 * k^2 * m * n * o * p - 2 * d^2 * f * g * h * j^2 * k^2 * m * n * o * p

/-- Terms 307 to 312. -/
def sdB52 (b c d f g h j k l m n o p : K) : K :=
  2 * c * d * f * h^2 * j^2 * k^2 * m * n * o * p + 4 * b^2 * c^2 * d^2 * g * j * l * m * n * o * p
    + 2 * b * c * d^2 * f * g^2 * j * l * m * n * o * p - 2 * d^2 * f^2 * g^3 * j * l * m * n * o * p
    - 4 * b^2 * c^3 * d * h * j * l * m * n * o * p + 4 * b * c^2 * d * f * g * h * j * l * m * n * o * p

/-- Terms 313 to 318. -/
def sdB53 (b c d f g h j k l m n o p : K) : K :=
  8 * c * d * f^2 * g^2 * h * j * l * m * n * o * p - 6 * b * c^3 * f * h^2 * j * l * m * n * o * p
    - 6 * c^2 * f^2 * g * h^2 * j * l * m * n * o * p - 2 * d^2 * f * g^2 * j^2 * k * l * m * n * o * p
    + 4 * c * d * f * g * h * j^2 * k * l * m * n * o * p - 2 * c^2 * f * h^2 * j^2 * k * l * m * n * o * p

/-- Terms 319 to 324. -/
def sdB54 (b c d f g h i j k l m n o p : K) : K :=
  2 * b * c^2 * d * g * j^2 * l^2 * m * n * o * p + 2 * c * d * f * g^2 * j^2 * l^2 * m * n * o * p
    - 2 * b * c^3 * h * j^2 * l^2 * m * n * o * p - 2 * c^2 * f * g * h * j^2 * l^2 * m * n * o * p
    + 4 * b^2 * c * d^3 * g * i * k * n^2 * o * p + 2 * b * d^3 * f * g^2 * i * k * n^2 * o * p

/-- Terms 325 to 330. -/
def sdB55 (b c d f g h i j k n o p : K) : K :=
  -(4 * b^2 * c^2 * d^2 * h * i * k * n^2 * o * p) + 4 * b * c * d^2 * f * g * h * i * k * n^2 * o * p
    + 2 * d^2 * f^2 * g^2 * h * i * k * n^2 * o * p - 6 * b * c^2 * d * f * h^2 * i * k * n^2 * o * p
    - 2 * c^2 * f^2 * h^3 * i * k * n^2 * o * p + 2 * b * d^3 * g * i * j * k^2 * n^2 * o * p

/-- Terms 331 to 336. -/
def sdB56 (b c d f g h i j k l n o p : K) : K :=
  -(2 * b * c * d^2 * h * i * j * k^2 * n^2 * o * p) + 2 * d^2 * f * g * h * i * j * k^2 * n^2 * o * p
    - 2 * c * d * f * h^2 * i * j * k^2 * n^2 * o * p - 4 * b^2 * c^2 * d^2 * g * i * l * n^2 * o * p
    - 6 * b * c * d^2 * f * g^2 * i * l * n^2 * o * p - 2 * d^2 * f^2 * g^3 * i * l * n^2 * o * p

/-- Terms 337 to 342. -/
def sdB57 (b c d f g h i j k l n o p : K) : K :=
  4 * b^2 * c^3 * d * h * i * l * n^2 * o * p + 4 * b * c^2 * d * f * g * h * i * l * n^2 * o * p
    + 2 * b * c^3 * f * h^2 * i * l * n^2 * o * p + 2 * c^2 * f^2 * g * h^2 * i * l * n^2 * o * p
    - 2 * d^2 * f * g^2 * i * j * k * l * n^2 * o * p + 4 * c * d * f * g * h * i * j * k * l * n^2 * o * p

/-- Terms 343 to 348. -/
def sdB58 (b c d f g h i j k l m n o p : K) : K :=
  -(2 * c^2 * f * h^2 * i * j * k * l * n^2 * o * p) - 2 * b * c^2 * d * g * i * j * l^2 * n^2 * o * p
    - 2 * c * d * f * g^2 * i * j * l^2 * n^2 * o * p + 2 * b * c^3 * h * i * j * l^2 * n^2 * o * p
    + 2 * c^2 * f * g * h * i * j * l^2 * n^2 * o * p + 2 * b^2 * c^2 * d^2 * f * g^2 * m * n * p^2

/-- Terms 349 to 354. -/
def sdB59 (b c d f g h m n p : K) : K :=
  4 * b * c * d^2 * f^2 * g^3 * m * n * p^2 + 2 * d^2 * f^3 * g^4 * m * n * p^2
    - 4 * b^2 * c^3 * d * f * g * h * m * n * p^2 - 8 * b * c^2 * d * f^2 * g^2 * h * m * n * p^2
    - 4 * c * d * f^3 * g^3 * h * m * n * p^2 + 2 * b^2 * c^4 * f * h^2 * m * n * p^2

/-- Terms 355 to 360. -/
def sdB60 (b c d f g h j k m n p : K) : K :=
  4 * b * c^3 * f^2 * g * h^2 * m * n * p^2 + 2 * c^2 * f^3 * g^2 * h^2 * m * n * p^2
    + 2 * b^2 * c^2 * d^2 * g * j * k * m * n * p^2 + 6 * b * c * d^2 * f * g^2 * j * k * m * n * p^2
    + 4 * d^2 * f^2 * g^3 * j * k * m * n * p^2 - 2 * b^2 * c^3 * d * h * j * k * m * n * p^2

/-- Terms 361 to 366. -/
def sdB61 (b c d f g h j k m n p : K) : K :=
  -(8 * b * c^2 * d * f * g * h * j * k * m * n * p^2) - 6 * c * d * f^2 * g^2 * h * j * k * m * n * p^2
    + 2 * b * c^3 * f * h^2 * j * k * m * n * p^2 + 2 * c^2 * f^2 * g * h^2 * j * k * m * n * p^2
    + 2 * b * c * d^2 * g * j^2 * k^2 * m * n * p^2 + 2 * d^2 * f * g^2 * j^2 * k^2 * m * n * p^2

/-- Terms 367 to 372. -/
def sdB62 (b c d f g h j k l m n p : K) : K :=
  -(2 * b * c^2 * d * h * j^2 * k^2 * m * n * p^2) - 2 * c * d * f * g * h * j^2 * k^2 * m * n * p^2
    - 2 * b^2 * c^3 * d * g * j * l * m * n * p^2 - 4 * b * c^2 * d * f * g^2 * j * l * m * n * p^2
    - 2 * c * d * f^2 * g^3 * j * l * m * n * p^2 + 2 * b^2 * c^4 * h * j * l * m * n * p^2

/-- Terms 373 to 378. -/
def sdB63 (b c d f g h j k l m n p : K) : K :=
  4 * b * c^3 * f * g * h * j * l * m * n * p^2 + 2 * c^2 * f^2 * g^2 * h * j * l * m * n * p^2
    - 2 * b * c^2 * d * g * j^2 * k * l * m * n * p^2 - 2 * c * d * f * g^2 * j^2 * k * l * m * n * p^2
    + 2 * b * c^3 * h * j^2 * k * l * m * n * p^2 + 2 * c^2 * f * g * h * j^2 * k * l * m * n * p^2

/-- Terms 379 to 384. -/
def sdB64 (b c d f g h i k n p : K) : K :=
  -(2 * b^2 * c^2 * d^2 * g * i * k * n^2 * p^2) - 2 * b * c * d^2 * f * g^2 * i * k * n^2 * p^2
    + 2 * b^2 * c^3 * d * h * i * k * n^2 * p^2 - 2 * c * d * f^2 * g^2 * h * i * k * n^2 * p^2
    + 2 * b * c^3 * f * h^2 * i * k * n^2 * p^2 + 2 * c^2 * f^2 * g * h^2 * i * k * n^2 * p^2

/-- Terms 385 to 390. -/
def sdB65 (b c d f g h i j k l n p : K) : K :=
  -(2 * b * c * d^2 * g * i * j * k^2 * n^2 * p^2) + 2 * b * c^2 * d * h * i * j * k^2 * n^2 * p^2
    - 2 * c * d * f * g * h * i * j * k^2 * n^2 * p^2 + 2 * c^2 * f * h^2 * i * j * k^2 * n^2 * p^2
    + 2 * b^2 * c^3 * d * g * i * l * n^2 * p^2 + 4 * b * c^2 * d * f * g^2 * i * l * n^2 * p^2

/-- Terms 391 to 396. -/
def sdB66 (b c d f g h i j k l n p : K) : K :=
  2 * c * d * f^2 * g^3 * i * l * n^2 * p^2 - 2 * b^2 * c^4 * h * i * l * n^2 * p^2
    - 4 * b * c^3 * f * g * h * i * l * n^2 * p^2 - 2 * c^2 * f^2 * g^2 * h * i * l * n^2 * p^2
    + 2 * b * c^2 * d * g * i * j * k * l * n^2 * p^2 + 2 * c * d * f * g^2 * i * j * k * l * n^2 * p^2

/-- Terms 397 to 402. -/
def sdB67 (b c d f g h i j k l n p Y : K) : K :=
  -(2 * b * c^3 * h * i * j * k * l * n^2 * p^2) - 2 * c^2 * f * g * h * i * j * k * l * n^2 * p^2
    + 2 * b * d^3 * g * j^2 * k^2 * Y - 2 * b * c * d^2 * h * j^2 * k^2 * Y + 2 * d^2 * f * g * h * j^2 * k^2 * Y
    - 2 * c * d * f * h^2 * j^2 * k^2 * Y

/-- Terms 403 to 408. -/
def sdB68 (b c d f g h j k l Y : K) : K :=
  -(4 * b * c * d^2 * g * j^2 * k * l * Y) - 2 * d^2 * f * g^2 * j^2 * k * l * Y
    + 4 * b * c^2 * d * h * j^2 * k * l * Y + 2 * c^2 * f * h^2 * j^2 * k * l * Y
    + 2 * b * c^2 * d * g * j^2 * l^2 * Y + 2 * c * d * f * g^2 * j^2 * l^2 * Y

/-- Terms 409 to 414. -/
def sdB69 (b c d f g h j k l n o Y : K) : K :=
  -(2 * b * c^3 * h * j^2 * l^2 * Y) - 2 * c^2 * f * g * h * j^2 * l^2 * Y + 4 * b * d^3 * g * j * k * n * o * Y
    - 4 * b * c * d^2 * h * j * k * n * o * Y + 4 * d^2 * f * g * h * j * k * n * o * Y
    - 4 * c * d * f * h^2 * j * k * n * o * Y

/-- Terms 415 to 420. -/
def sdB70 (b c d f g h j k l n o Y : K) : K :=
  -(4 * b * c * d^2 * g * j * l * n * o * Y) - 2 * d^2 * f * g^2 * j * l * n * o * Y
    + 4 * b * c^2 * d * h * j * l * n * o * Y + 2 * c^2 * f * h^2 * j * l * n * o * Y
    + 2 * d^2 * g * j^2 * k * l * n * o * Y - 2 * c * d * h * j^2 * k * l * n * o * Y

/-- Terms 421 to 426. -/
def sdB71 (b c d f g h j l n o Y : K) : K :=
  -(2 * c * d * g * j^2 * l^2 * n * o * Y) + 2 * c^2 * h * j^2 * l^2 * n * o * Y + 2 * b * d^3 * g * n^2 * o^2 * Y
    - 2 * b * c * d^2 * h * n^2 * o^2 * Y + 2 * d^2 * f * g * h * n^2 * o^2 * Y - 2 * c * d * f * h^2 * n^2 * o^2 * Y

/-- Terms 427 to 432. -/
def sdB72 (b c d f g h j k l n o p Y : K) : K :=
  2 * d^2 * g * j * l * n^2 * o^2 * Y - 2 * c * d * h * j * l * n^2 * o^2 * Y
    - 4 * b * c * d^2 * g * j * k * n * p * Y - 2 * d^2 * f * g^2 * j * k * n * p * Y
    + 4 * b * c^2 * d * h * j * k * n * p * Y + 2 * c^2 * f * h^2 * j * k * n * p * Y

/-- Terms 433 to 438. -/
def sdB73 (b c d f g h j k l n p Y : K) : K :=
  -(2 * d^2 * g * j^2 * k^2 * n * p * Y) + 2 * c * d * h * j^2 * k^2 * n * p * Y
    + 4 * b * c^2 * d * g * j * l * n * p * Y + 4 * c * d * f * g^2 * j * l * n * p * Y
    - 4 * b * c^3 * h * j * l * n * p * Y - 4 * c^2 * f * g * h * j * l * n * p * Y

/-- Terms 439 to 444. -/
def sdB74 (b c d f g h j k l n o p Y : K) : K :=
  2 * c * d * g * j^2 * k * l * n * p * Y - 2 * c^2 * h * j^2 * k * l * n * p * Y
    - 4 * b * c * d^2 * g * n^2 * o * p * Y - 2 * d^2 * f * g^2 * n^2 * o * p * Y
    + 4 * b * c^2 * d * h * n^2 * o * p * Y + 2 * c^2 * f * h^2 * n^2 * o * p * Y

/-- Terms 445 to 450. -/
def sdB75 (b c d f g h j k l n o p Y : K) : K :=
  -(2 * d^2 * g * j * k * n^2 * o * p * Y) + 2 * c * d * h * j * k * n^2 * o * p * Y
    - 2 * c * d * g * j * l * n^2 * o * p * Y + 2 * c^2 * h * j * l * n^2 * o * p * Y
    + 2 * b * c^2 * d * g * n^2 * p^2 * Y + 2 * c * d * f * g^2 * n^2 * p^2 * Y

/-- Terms 451 to 454. -/
def sdB76 (b c d f g h j k n p Y : K) : K :=
  -(2 * b * c^3 * h * n^2 * p^2 * Y) - 2 * c^2 * f * g * h * n^2 * p^2 * Y + 2 * c * d * g * j * k * n^2 * p^2 * Y
    - 2 * c^2 * h * j * k * n^2 * p^2 * Y

/-- The sum of the pieces. -/
def sdB (z : SD K) : K :=
  sdB1 z.b z.c z.d z.f z.g z.h z.i z.j z.k + sdB2 z.b z.c z.d z.f z.g z.h z.i z.j z.k z.l +
    sdB3 z.b z.c z.d z.f z.g z.h z.i z.j z.k z.l + sdB4 z.b z.c z.d z.f z.g z.h z.i z.j z.k z.l +
    sdB5 z.b z.c z.d z.f z.g z.h z.i z.j z.k z.l z.m z.o + sdB6 z.b z.c z.d z.f z.g z.h z.j z.k z.m z.o +
    sdB7 z.b z.c z.d z.f z.g z.h z.j z.k z.m z.o + sdB8 z.b z.c z.d z.f z.g z.h z.j z.k z.l z.m z.o +
    sdB9 z.b z.c z.d z.f z.g z.h z.j z.k z.l z.m z.o + sdB10 z.b z.c z.d z.f z.g z.h z.j z.k z.l z.m z.o +
    sdB11 z.b z.c z.d z.f z.g z.h z.j z.k z.l z.m z.o + sdB12 z.b z.c z.d z.f z.g z.h z.j z.l z.m z.o +
    sdB13 z.b z.c z.d z.f z.g z.h z.j z.k z.l z.m z.o + sdB14 z.b z.c z.d z.f z.g z.h z.i z.j z.k z.l z.m z.n z.o +
    sdB15 z.b z.c z.d z.f z.g z.h z.i z.k z.n z.o + sdB16 z.b z.c z.d z.f z.g z.h z.i z.j z.k z.n z.o +
    sdB17 z.b z.c z.d z.f z.g z.h z.i z.l z.n z.o + sdB18 z.b z.c z.d z.f z.g z.h z.i z.j z.k z.l z.n z.o +
    sdB19 z.b z.c z.d z.f z.g z.h z.i z.j z.k z.l z.n z.o + sdB20 z.b z.c z.d z.f z.g z.h z.i z.j z.k z.l z.n z.o +
    sdB21 z.b z.c z.d z.f z.g z.h z.i z.j z.k z.l z.n z.o +
    sdB22 z.b z.c z.d z.f z.g z.h z.i z.j z.k z.l z.m z.n z.o + sdB23 z.b z.c z.d z.f z.g z.h z.m z.n z.o +
    sdB24 z.b z.c z.d z.f z.g z.h z.j z.k z.m z.n z.o + sdB25 z.b z.c z.d z.f z.g z.h z.j z.k z.l z.m z.n z.o +
    sdB26 z.b z.c z.d z.f z.g z.h z.j z.k z.l z.m z.n z.o + sdB27 z.b z.c z.d z.f z.g z.h z.j z.k z.l z.m z.n z.o +
    sdB28 z.b z.c z.d z.f z.g z.h z.i z.k z.n z.o + sdB29 z.b z.c z.d z.f z.g z.h z.i z.l z.n z.o +
    sdB30 z.b z.c z.d z.f z.g z.h z.i z.j z.k z.l z.n z.o +
    sdB31 z.b z.c z.d z.f z.g z.h z.i z.j z.k z.l z.m z.n z.o z.p + sdB32 z.b z.c z.d z.f z.g z.h z.j z.k z.m z.p +
    sdB33 z.b z.c z.d z.f z.g z.h z.j z.k z.m z.p + sdB34 z.b z.c z.d z.f z.g z.h z.j z.k z.m z.p +
    sdB35 z.b z.c z.d z.f z.g z.h z.j z.l z.m z.p + sdB36 z.b z.c z.d z.f z.g z.h z.j z.k z.l z.m z.p +
    sdB37 z.b z.c z.d z.f z.g z.h z.j z.k z.l z.m z.p + sdB38 z.b z.c z.d z.f z.g z.h z.j z.k z.l z.m z.p +
    sdB39 z.b z.c z.d z.f z.g z.h z.j z.k z.l z.m z.p + sdB40 z.b z.c z.d z.f z.g z.h z.i z.j z.k z.l z.m z.n z.p +
    sdB41 z.b z.c z.d z.f z.g z.h z.i z.j z.k z.n z.p + sdB42 z.b z.c z.d z.f z.g z.h z.i z.j z.k z.n z.p +
    sdB43 z.b z.c z.d z.f z.g z.h z.i z.j z.k z.l z.n z.p + sdB44 z.b z.c z.d z.f z.g z.h z.i z.l z.n z.p +
    sdB45 z.b z.c z.d z.f z.g z.h z.i z.j z.k z.l z.n z.p + sdB46 z.b z.c z.d z.f z.g z.h z.i z.j z.k z.l z.n z.p +
    sdB47 z.b z.c z.d z.f z.g z.h z.i z.j z.k z.l z.n z.p +
    sdB48 z.b z.c z.d z.f z.g z.h z.i z.j z.k z.l z.m z.n z.o z.p + sdB49 z.b z.c z.d z.f z.g z.h z.m z.n z.o z.p +
    sdB50 z.b z.c z.d z.f z.g z.h z.j z.k z.m z.n z.o z.p + sdB51 z.b z.c z.d z.f z.g z.h z.j z.k z.m z.n z.o z.p +
    sdB52 z.b z.c z.d z.f z.g z.h z.j z.k z.l z.m z.n z.o z.p +
    sdB53 z.b z.c z.d z.f z.g z.h z.j z.k z.l z.m z.n z.o z.p +
    sdB54 z.b z.c z.d z.f z.g z.h z.i z.j z.k z.l z.m z.n z.o z.p +
    sdB55 z.b z.c z.d z.f z.g z.h z.i z.j z.k z.n z.o z.p +
    sdB56 z.b z.c z.d z.f z.g z.h z.i z.j z.k z.l z.n z.o z.p +
    sdB57 z.b z.c z.d z.f z.g z.h z.i z.j z.k z.l z.n z.o z.p +
    sdB58 z.b z.c z.d z.f z.g z.h z.i z.j z.k z.l z.m z.n z.o z.p + sdB59 z.b z.c z.d z.f z.g z.h z.m z.n z.p +
    sdB60 z.b z.c z.d z.f z.g z.h z.j z.k z.m z.n z.p + sdB61 z.b z.c z.d z.f z.g z.h z.j z.k z.m z.n z.p +
    sdB62 z.b z.c z.d z.f z.g z.h z.j z.k z.l z.m z.n z.p + sdB63 z.b z.c z.d z.f z.g z.h z.j z.k z.l z.m z.n z.p +
    sdB64 z.b z.c z.d z.f z.g z.h z.i z.k z.n z.p + sdB65 z.b z.c z.d z.f z.g z.h z.i z.j z.k z.l z.n z.p +
    sdB66 z.b z.c z.d z.f z.g z.h z.i z.j z.k z.l z.n z.p +
    sdB67 z.b z.c z.d z.f z.g z.h z.i z.j z.k z.l z.n z.p z.Y + sdB68 z.b z.c z.d z.f z.g z.h z.j z.k z.l z.Y +
    sdB69 z.b z.c z.d z.f z.g z.h z.j z.k z.l z.n z.o z.Y + sdB70 z.b z.c z.d z.f z.g z.h z.j z.k z.l z.n z.o z.Y +
    sdB71 z.b z.c z.d z.f z.g z.h z.j z.l z.n z.o z.Y + sdB72 z.b z.c z.d z.f z.g z.h z.j z.k z.l z.n z.o z.p z.Y +
    sdB73 z.b z.c z.d z.f z.g z.h z.j z.k z.l z.n z.p z.Y +
    sdB74 z.b z.c z.d z.f z.g z.h z.j z.k z.l z.n z.o z.p z.Y +
    sdB75 z.b z.c z.d z.f z.g z.h z.j z.k z.l z.n z.o z.p z.Y + sdB76 z.b z.c z.d z.f z.g z.h z.j z.k z.n z.p z.Y

end Lips

import Verif.Model.PairSD0

/-!
The last factor under the square root of `expression_for_e`,
lips/hardcoded_limits/DoubleCollinearLimit_D_and_S_e.py:4.
The sum is cut into pieces of 6 terms, in the order of the file.
-/

namespace Lips

variable {K : Type*} [Field K]

/-- Terms 1 to 6. -/
def sdC1 (b c d f g h i k : K) : K :=
  -(b^2 * d^4 * f^2 * g^2 * i^2 * k^2) + 2 * b^2 * c * d^3 * f^2 * g * h * i^2 * k^2
    - 2 * b * d^3 * f^3 * g^2 * h * i^2 * k^2 - b^2 * c^2 * d^2 * f^2 * h^2 * i^2 * k^2
    + 4 * b * c * d^2 * f^3 * g * h^2 * i^2 * k^2 - d^2 * f^4 * g^2 * h^2 * i^2 * k^2

/-- Terms 7 to 12. -/
def sdC2 (b c d f g h i k l : K) : K :=
  -(2 * b * c^2 * d * f^3 * h^3 * i^2 * k^2) + 2 * c * d * f^4 * g * h^3 * i^2 * k^2 - c^2 * f^4 * h^4 * i^2 * k^2
    + 2 * b^2 * c * d^3 * f^2 * g^2 * i^2 * k * l + 2 * b * d^3 * f^3 * g^3 * i^2 * k * l
    - 4 * b^2 * c^2 * d^2 * f^2 * g * h * i^2 * k * l

/-- Terms 13 to 18. -/
def sdC3 (b c d f g h i k l : K) : K :=
  -(2 * b * c * d^2 * f^3 * g^2 * h * i^2 * k * l) + 2 * d^2 * f^4 * g^3 * h * i^2 * k * l
    + 2 * b^2 * c^3 * d * f^2 * h^2 * i^2 * k * l - 2 * b * c^2 * d * f^3 * g * h^2 * i^2 * k * l
    - 4 * c * d * f^4 * g^2 * h^2 * i^2 * k * l + 2 * b * c^3 * f^3 * h^3 * i^2 * k * l

/-- Terms 19 to 24. -/
def sdC4 (b c d f g h i k l : K) : K :=
  2 * c^2 * f^4 * g * h^3 * i^2 * k * l - b^2 * c^2 * d^2 * f^2 * g^2 * i^2 * l^2
    - 2 * b * c * d^2 * f^3 * g^3 * i^2 * l^2 - d^2 * f^4 * g^4 * i^2 * l^2
    + 2 * b^2 * c^3 * d * f^2 * g * h * i^2 * l^2 + 4 * b * c^2 * d * f^3 * g^2 * h * i^2 * l^2

/-- Terms 25 to 30. -/
def sdC5 (b c d f g h i k l m o : K) : K :=
  2 * c * d * f^4 * g^3 * h * i^2 * l^2 - b^2 * c^4 * f^2 * h^2 * i^2 * l^2 - 2 * b * c^3 * f^3 * g * h^2 * i^2 * l^2
    - c^2 * f^4 * g^2 * h^2 * i^2 * l^2 - 2 * b^2 * d^4 * f^2 * g^2 * i * k * m * o
    + 4 * b^2 * c * d^3 * f^2 * g * h * i * k * m * o

/-- Terms 31 to 36. -/
def sdC6 (b c d f g h i k m o : K) : K :=
  -(4 * b * d^3 * f^3 * g^2 * h * i * k * m * o) - 2 * b^2 * c^2 * d^2 * f^2 * h^2 * i * k * m * o
    + 8 * b * c * d^2 * f^3 * g * h^2 * i * k * m * o - 2 * d^2 * f^4 * g^2 * h^2 * i * k * m * o
    - 4 * b * c^2 * d * f^3 * h^3 * i * k * m * o + 4 * c * d * f^4 * g * h^3 * i * k * m * o

/-- Terms 37 to 42. -/
def sdC7 (b c d f g h i j k m o : K) : K :=
  -(2 * c^2 * f^4 * h^4 * i * k * m * o) - 2 * b^2 * d^4 * f * g * i * j * k^2 * m * o
    + 2 * b^2 * c * d^3 * f * h * i * j * k^2 * m * o - 4 * b * d^3 * f^2 * g * h * i * j * k^2 * m * o
    + 4 * b * c * d^2 * f^2 * h^2 * i * j * k^2 * m * o - 2 * d^2 * f^3 * g * h^2 * i * j * k^2 * m * o

/-- Terms 43 to 48. -/
def sdC8 (b c d f g h i j k l m o : K) : K :=
  2 * c * d * f^3 * h^3 * i * j * k^2 * m * o + 2 * b^2 * c * d^3 * f^2 * g^2 * i * l * m * o
    + 2 * b * d^3 * f^3 * g^3 * i * l * m * o - 4 * b^2 * c^2 * d^2 * f^2 * g * h * i * l * m * o
    - 2 * b * c * d^2 * f^3 * g^2 * h * i * l * m * o + 2 * d^2 * f^4 * g^3 * h * i * l * m * o

/-- Terms 49 to 54. -/
def sdC9 (b c d f g h i j k l m o : K) : K :=
  2 * b^2 * c^3 * d * f^2 * h^2 * i * l * m * o - 2 * b * c^2 * d * f^3 * g * h^2 * i * l * m * o
    - 4 * c * d * f^4 * g^2 * h^2 * i * l * m * o + 2 * b * c^3 * f^3 * h^3 * i * l * m * o
    + 2 * c^2 * f^4 * g * h^3 * i * l * m * o + 4 * b^2 * c * d^3 * f * g * i * j * k * l * m * o

/-- Terms 55 to 60. -/
def sdC10 (b c d f g h i j k l m o : K) : K :=
  -(2 * b * d^3 * f^2 * g^2 * i * j * k * l * m * o) - 4 * b^2 * c^2 * d^2 * f * h * i * j * k * l * m * o
    + 12 * b * c * d^2 * f^2 * g * h * i * j * k * l * m * o - 2 * d^2 * f^3 * g^2 * h * i * j * k * l * m * o
    - 10 * b * c^2 * d * f^2 * h^2 * i * j * k * l * m * o + 8 * c * d * f^3 * g * h^2 * i * j * k * l * m * o

/-- Terms 61 to 66. -/
def sdC11 (b c d f g h i j k l m o : K) : K :=
  -(6 * c^2 * f^3 * h^3 * i * j * k * l * m * o) - 4 * b * d^3 * f * g * i * j^2 * k^2 * l * m * o
    + 4 * b * c * d^2 * f * h * i * j^2 * k^2 * l * m * o - 4 * d^2 * f^2 * g * h * i * j^2 * k^2 * l * m * o
    + 4 * c * d * f^2 * h^2 * i * j^2 * k^2 * l * m * o - 2 * b^2 * c^2 * d^2 * f * g * i * j * l^2 * m * o

/-- Terms 67 to 72. -/
def sdC12 (b c d f g h i j l m o : K) : K :=
  2 * b * c * d^2 * f^2 * g^2 * i * j * l^2 * m * o + 4 * d^2 * f^3 * g^3 * i * j * l^2 * m * o
    + 2 * b^2 * c^3 * d * f * h * i * j * l^2 * m * o - 8 * b * c^2 * d * f^2 * g * h * i * j * l^2 * m * o
    - 10 * c * d * f^3 * g^2 * h * i * j * l^2 * m * o + 6 * b * c^3 * f^2 * h^2 * i * j * l^2 * m * o

/-- Terms 73 to 78. -/
def sdC13 (b c d f g h i j k l m o : K) : K :=
  6 * c^2 * f^3 * g * h^2 * i * j * l^2 * m * o + 8 * b * c * d^2 * f * g * i * j^2 * k * l^2 * m * o
    + 4 * d^2 * f^2 * g^2 * i * j^2 * k * l^2 * m * o - 8 * b * c^2 * d * f * h * i * j^2 * k * l^2 * m * o
    - 4 * c^2 * f^2 * h^2 * i * j^2 * k * l^2 * m * o - 4 * b * c^2 * d * f * g * i * j^2 * l^3 * m * o

/-- Terms 79 to 84. -/
def sdC14 (b c d f g h i j k l m n o : K) : K :=
  -(4 * c * d * f^2 * g^2 * i * j^2 * l^3 * m * o) + 4 * b * c^3 * f * h * i * j^2 * l^3 * m * o
    + 4 * c^2 * f^2 * g * h * i * j^2 * l^3 * m * o + 2 * b^2 * d^4 * f * g * i^2 * k^2 * n * o
    - 2 * b^2 * c * d^3 * f * h * i^2 * k^2 * n * o + 4 * b * d^3 * f^2 * g * h * i^2 * k^2 * n * o

/-- Terms 85 to 90. -/
def sdC15 (b c d f g h i k l n o : K) : K :=
  -(4 * b * c * d^2 * f^2 * h^2 * i^2 * k^2 * n * o) + 2 * d^2 * f^3 * g * h^2 * i^2 * k^2 * n * o
    - 2 * c * d * f^3 * h^3 * i^2 * k^2 * n * o - 4 * b^2 * c * d^3 * f * g * i^2 * k * l * n * o
    + 4 * b^2 * c^2 * d^2 * f * h * i^2 * k * l * n * o - 8 * b * c * d^2 * f^2 * g * h * i^2 * k * l * n * o

/-- Terms 91 to 96. -/
def sdC16 (b c d f g h i j k l n o : K) : K :=
  8 * b * c^2 * d * f^2 * h^2 * i^2 * k * l * n * o - 4 * c * d * f^3 * g * h^2 * i^2 * k * l * n * o
    + 4 * c^2 * f^3 * h^3 * i^2 * k * l * n * o + 4 * b * d^3 * f * g * i^2 * j * k^2 * l * n * o
    - 4 * b * c * d^2 * f * h * i^2 * j * k^2 * l * n * o + 4 * d^2 * f^2 * g * h * i^2 * j * k^2 * l * n * o

/-- Terms 97 to 102. -/
def sdC17 (b c d f g h i j k l n o : K) : K :=
  -(4 * c * d * f^2 * h^2 * i^2 * j * k^2 * l * n * o) + 2 * b^2 * c^2 * d^2 * f * g * i^2 * l^2 * n * o
    - 2 * d^2 * f^3 * g^3 * i^2 * l^2 * n * o - 2 * b^2 * c^3 * d * f * h * i^2 * l^2 * n * o
    + 4 * b * c^2 * d * f^2 * g * h * i^2 * l^2 * n * o + 6 * c * d * f^3 * g^2 * h * i^2 * l^2 * n * o

/-- Terms 103 to 108. -/
def sdC18 (b c d f g h i j k l n o : K) : K :=
  -(4 * b * c^3 * f^2 * h^2 * i^2 * l^2 * n * o) - 4 * c^2 * f^3 * g * h^2 * i^2 * l^2 * n * o
    - 8 * b * c * d^2 * f * g * i^2 * j * k * l^2 * n * o - 4 * d^2 * f^2 * g^2 * i^2 * j * k * l^2 * n * o
    + 8 * b * c^2 * d * f * h * i^2 * j * k * l^2 * n * o + 4 * c^2 * f^2 * h^2 * i^2 * j * k * l^2 * n * o

/-- Terms 109 to 114. -/
def sdC19 (b c d f g h i j l m n o : K) : K :=
  4 * b * c^2 * d * f * g * i^2 * j * l^3 * n * o + 4 * c * d * f^2 * g^2 * i^2 * j * l^3 * n * o
    - 4 * b * c^3 * f * h * i^2 * j * l^3 * n * o - 4 * c^2 * f^2 * g * h * i^2 * j * l^3 * n * o
    - b^2 * d^4 * f^2 * g^2 * m^2 * o^2 + 2 * b^2 * c * d^3 * f^2 * g * h * m^2 * o^2

/-- Terms 115 to 120. -/
def sdC20 (b c d f g h m o : K) : K :=
  -(2 * b * d^3 * f^3 * g^2 * h * m^2 * o^2) - b^2 * c^2 * d^2 * f^2 * h^2 * m^2 * o^2
    + 4 * b * c * d^2 * f^3 * g * h^2 * m^2 * o^2 - d^2 * f^4 * g^2 * h^2 * m^2 * o^2
    - 2 * b * c^2 * d * f^3 * h^3 * m^2 * o^2 + 2 * c * d * f^4 * g * h^3 * m^2 * o^2

/-- Terms 121 to 126. -/
def sdC21 (b c d f g h j k m o : K) : K :=
  -(c^2 * f^4 * h^4 * m^2 * o^2) - 2 * b^2 * d^4 * f * g * j * k * m^2 * o^2
    + 2 * b^2 * c * d^3 * f * h * j * k * m^2 * o^2 - 4 * b * d^3 * f^2 * g * h * j * k * m^2 * o^2
    + 4 * b * c * d^2 * f^2 * h^2 * j * k * m^2 * o^2 - 2 * d^2 * f^3 * g * h^2 * j * k * m^2 * o^2

/-- Terms 127 to 132. -/
def sdC22 (b c d f g h j k l m o : K) : K :=
  2 * c * d * f^3 * h^3 * j * k * m^2 * o^2 - b^2 * d^4 * j^2 * k^2 * m^2 * o^2
    - 2 * b * d^3 * f * h * j^2 * k^2 * m^2 * o^2 - d^2 * f^2 * h^2 * j^2 * k^2 * m^2 * o^2
    + 2 * b^2 * c * d^3 * f * g * j * l * m^2 * o^2 - 2 * b^2 * c^2 * d^2 * f * h * j * l * m^2 * o^2

/-- Terms 133 to 138. -/
def sdC23 (b c d f g h j k l m o : K) : K :=
  4 * b * c * d^2 * f^2 * g * h * j * l * m^2 * o^2 - 4 * b * c^2 * d * f^2 * h^2 * j * l * m^2 * o^2
    + 2 * c * d * f^3 * g * h^2 * j * l * m^2 * o^2 - 2 * c^2 * f^3 * h^3 * j * l * m^2 * o^2
    + 2 * b^2 * c * d^3 * j^2 * k * l * m^2 * o^2 + 4 * b * c * d^2 * f * h * j^2 * k * l * m^2 * o^2

/-- Terms 139 to 144. -/
def sdC24 (b c d f g h i j k l m n o : K) : K :=
  2 * c * d * f^2 * h^2 * j^2 * k * l * m^2 * o^2 - b^2 * c^2 * d^2 * j^2 * l^2 * m^2 * o^2
    - 2 * b * c^2 * d * f * h * j^2 * l^2 * m^2 * o^2 - c^2 * f^2 * h^2 * j^2 * l^2 * m^2 * o^2
    + 2 * b^2 * d^4 * f * g * i * k * m * n * o^2 - 2 * b^2 * c * d^3 * f * h * i * k * m * n * o^2

/-- Terms 145 to 150. -/
def sdC25 (b c d f g h i j k m n o : K) : K :=
  4 * b * d^3 * f^2 * g * h * i * k * m * n * o^2 - 4 * b * c * d^2 * f^2 * h^2 * i * k * m * n * o^2
    + 2 * d^2 * f^3 * g * h^2 * i * k * m * n * o^2 - 2 * c * d * f^3 * h^3 * i * k * m * n * o^2
    + 2 * b^2 * d^4 * i * j * k^2 * m * n * o^2 + 4 * b * d^3 * f * h * i * j * k^2 * m * n * o^2

/-- Terms 151 to 156. -/
def sdC26 (b c d f g h i j k l m n o : K) : K :=
  2 * d^2 * f^2 * h^2 * i * j * k^2 * m * n * o^2 - 2 * b^2 * c * d^3 * f * g * i * l * m * n * o^2
    - 2 * b * d^3 * f^2 * g^2 * i * l * m * n * o^2 + 2 * b^2 * c^2 * d^2 * f * h * i * l * m * n * o^2
    - 2 * d^2 * f^3 * g^2 * h * i * l * m * n * o^2 + 2 * b * c^2 * d * f^2 * h^2 * i * l * m * n * o^2

/-- Terms 157 to 162. -/
def sdC27 (b c d f g h i j k l m n o : K) : K :=
  2 * c * d * f^3 * g * h^2 * i * l * m * n * o^2 - 4 * b^2 * c * d^3 * i * j * k * l * m * n * o^2
    - 2 * b * d^3 * f * g * i * j * k * l * m * n * o^2 - 6 * b * c * d^2 * f * h * i * j * k * l * m * n * o^2
    - 2 * d^2 * f^2 * g * h * i * j * k * l * m * n * o^2 - 2 * c * d * f^2 * h^2 * i * j * k * l * m * n * o^2

/-- Terms 163 to 168. -/
def sdC28 (b c d f g h i j k l m n o : K) : K :=
  2 * b^2 * c^2 * d^2 * i * j * l^2 * m * n * o^2 + 2 * b * c * d^2 * f * g * i * j * l^2 * m * n * o^2
    + 2 * b * c^2 * d * f * h * i * j * l^2 * m * n * o^2 + 2 * c * d * f^2 * g * h * i * j * l^2 * m * n * o^2
    - b^2 * d^4 * i^2 * k^2 * n^2 * o^2 - 2 * b * d^3 * f * h * i^2 * k^2 * n^2 * o^2

/-- Terms 169 to 174. -/
def sdC29 (b c d f g h i k l n o : K) : K :=
  -(d^2 * f^2 * h^2 * i^2 * k^2 * n^2 * o^2) + 2 * b^2 * c * d^3 * i^2 * k * l * n^2 * o^2
    + 2 * b * d^3 * f * g * i^2 * k * l * n^2 * o^2 + 2 * b * c * d^2 * f * h * i^2 * k * l * n^2 * o^2
    + 2 * d^2 * f^2 * g * h * i^2 * k * l * n^2 * o^2 - b^2 * c^2 * d^2 * i^2 * l^2 * n^2 * o^2

/-- Terms 175 to 180. -/
def sdC30 (b c d f g h i k l m n o p : K) : K :=
  -(2 * b * c * d^2 * f * g * i^2 * l^2 * n^2 * o^2) - d^2 * f^2 * g^2 * i^2 * l^2 * n^2 * o^2
    + 2 * b^2 * c * d^3 * f^2 * g^2 * i * k * m * p + 2 * b * d^3 * f^3 * g^3 * i * k * m * p
    - 4 * b^2 * c^2 * d^2 * f^2 * g * h * i * k * m * p - 2 * b * c * d^2 * f^3 * g^2 * h * i * k * m * p

/-- Terms 181 to 186. -/
def sdC31 (b c d f g h i k m p : K) : K :=
  2 * d^2 * f^4 * g^3 * h * i * k * m * p + 2 * b^2 * c^3 * d * f^2 * h^2 * i * k * m * p
    - 2 * b * c^2 * d * f^3 * g * h^2 * i * k * m * p - 4 * c * d * f^4 * g^2 * h^2 * i * k * m * p
    + 2 * b * c^3 * f^3 * h^3 * i * k * m * p + 2 * c^2 * f^4 * g * h^3 * i * k * m * p

/-- Terms 187 to 192. -/
def sdC32 (b c d f g h i j k m p : K) : K :=
  2 * b^2 * c * d^3 * f * g * i * j * k^2 * m * p + 6 * b * d^3 * f^2 * g^2 * i * j * k^2 * m * p
    - 2 * b^2 * c^2 * d^2 * f * h * i * j * k^2 * m * p - 8 * b * c * d^2 * f^2 * g * h * i * j * k^2 * m * p
    + 6 * d^2 * f^3 * g^2 * h * i * j * k^2 * m * p + 2 * b * c^2 * d * f^2 * h^2 * i * j * k^2 * m * p

/-- Terms 193 to 198. -/
def sdC33 (b c d f g h i j k m p : K) : K :=
  -(10 * c * d * f^3 * g * h^2 * i * j * k^2 * m * p) + 4 * c^2 * f^3 * h^3 * i * j * k^2 * m * p
    + 4 * b * d^3 * f * g * i * j^2 * k^3 * m * p - 4 * b * c * d^2 * f * h * i * j^2 * k^3 * m * p
    + 4 * d^2 * f^2 * g * h * i * j^2 * k^3 * m * p - 4 * c * d * f^2 * h^2 * i * j^2 * k^3 * m * p

/-- Terms 199 to 204. -/
def sdC34 (b c d f g h i l m p : K) : K :=
  -(2 * b^2 * c^2 * d^2 * f^2 * g^2 * i * l * m * p) - 4 * b * c * d^2 * f^3 * g^3 * i * l * m * p
    - 2 * d^2 * f^4 * g^4 * i * l * m * p + 4 * b^2 * c^3 * d * f^2 * g * h * i * l * m * p
    + 8 * b * c^2 * d * f^3 * g^2 * h * i * l * m * p + 4 * c * d * f^4 * g^3 * h * i * l * m * p

/-- Terms 205 to 210. -/
def sdC35 (b c d f g h i j k l m p : K) : K :=
  -(2 * b^2 * c^4 * f^2 * h^2 * i * l * m * p) - 4 * b * c^3 * f^3 * g * h^2 * i * l * m * p
    - 2 * c^2 * f^4 * g^2 * h^2 * i * l * m * p - 4 * b^2 * c^2 * d^2 * f * g * i * j * k * l * m * p
    - 10 * b * c * d^2 * f^2 * g^2 * i * j * k * l * m * p - 6 * d^2 * f^3 * g^3 * i * j * k * l * m * p

/-- Terms 211 to 216. -/
def sdC36 (b c d f g h i j k l m p : K) : K :=
  4 * b^2 * c^3 * d * f * h * i * j * k * l * m * p + 12 * b * c^2 * d * f^2 * g * h * i * j * k * l * m * p
    + 8 * c * d * f^3 * g^2 * h * i * j * k * l * m * p - 2 * b * c^3 * f^2 * h^2 * i * j * k * l * m * p
    - 2 * c^2 * f^3 * g * h^2 * i * j * k * l * m * p - 8 * b * c * d^2 * f * g * i * j^2 * k^2 * l * m * p

/-- Terms 217 to 222. -/
def sdC37 (b c d f g h i j k l m p : K) : K :=
  -(4 * d^2 * f^2 * g^2 * i * j^2 * k^2 * l * m * p) + 8 * b * c^2 * d * f * h * i * j^2 * k^2 * l * m * p
    + 4 * c^2 * f^2 * h^2 * i * j^2 * k^2 * l * m * p + 2 * b^2 * c^3 * d * f * g * i * j * l^2 * m * p
    + 4 * b * c^2 * d * f^2 * g^2 * i * j * l^2 * m * p + 2 * c * d * f^3 * g^3 * i * j * l^2 * m * p

/-- Terms 223 to 228. -/
def sdC38 (b c d f g h i j k l m p : K) : K :=
  -(2 * b^2 * c^4 * f * h * i * j * l^2 * m * p) - 4 * b * c^3 * f^2 * g * h * i * j * l^2 * m * p
    - 2 * c^2 * f^3 * g^2 * h * i * j * l^2 * m * p + 4 * b * c^2 * d * f * g * i * j^2 * k * l^2 * m * p
    + 4 * c * d * f^2 * g^2 * i * j^2 * k * l^2 * m * p - 4 * b * c^3 * f * h * i * j^2 * k * l^2 * m * p

/-- Terms 229 to 234. -/
def sdC39 (b c d f g h i j k l m n p : K) : K :=
  -(4 * c^2 * f^2 * g * h * i * j^2 * k * l^2 * m * p) - 2 * b^2 * c * d^3 * f * g * i^2 * k^2 * n * p
    - 4 * b * d^3 * f^2 * g^2 * i^2 * k^2 * n * p + 2 * b^2 * c^2 * d^2 * f * h * i^2 * k^2 * n * p
    + 4 * b * c * d^2 * f^2 * g * h * i^2 * k^2 * n * p - 4 * d^2 * f^3 * g^2 * h * i^2 * k^2 * n * p

/-- Terms 235 to 240. -/
def sdC40 (b c d f g h i j k n p : K) : K :=
  6 * c * d * f^3 * g * h^2 * i^2 * k^2 * n * p - 2 * c^2 * f^3 * h^3 * i^2 * k^2 * n * p
    - 4 * b * d^3 * f * g * i^2 * j * k^3 * n * p + 4 * b * c * d^2 * f * h * i^2 * j * k^3 * n * p
    - 4 * d^2 * f^2 * g * h * i^2 * j * k^3 * n * p + 4 * c * d * f^2 * h^2 * i^2 * j * k^3 * n * p

/-- Terms 241 to 246. -/
def sdC41 (b c d f g h i k l n p : K) : K :=
  4 * b^2 * c^2 * d^2 * f * g * i^2 * k * l * n * p + 8 * b * c * d^2 * f^2 * g^2 * i^2 * k * l * n * p
    + 4 * d^2 * f^3 * g^3 * i^2 * k * l * n * p - 4 * b^2 * c^3 * d * f * h * i^2 * k * l * n * p
    - 8 * b * c^2 * d * f^2 * g * h * i^2 * k * l * n * p - 4 * c * d * f^3 * g^2 * h * i^2 * k * l * n * p

/-- Terms 247 to 252. -/
def sdC42 (b c d f g h i j k l n p : K) : K :=
  8 * b * c * d^2 * f * g * i^2 * j * k^2 * l * n * p + 4 * d^2 * f^2 * g^2 * i^2 * j * k^2 * l * n * p
    - 8 * b * c^2 * d * f * h * i^2 * j * k^2 * l * n * p - 4 * c^2 * f^2 * h^2 * i^2 * j * k^2 * l * n * p
    - 2 * b^2 * c^3 * d * f * g * i^2 * l^2 * n * p - 4 * b * c^2 * d * f^2 * g^2 * i^2 * l^2 * n * p

/-- Terms 253 to 258. -/
def sdC43 (b c d f g h i j k l n p : K) : K :=
  -(2 * c * d * f^3 * g^3 * i^2 * l^2 * n * p) + 2 * b^2 * c^4 * f * h * i^2 * l^2 * n * p
    + 4 * b * c^3 * f^2 * g * h * i^2 * l^2 * n * p + 2 * c^2 * f^3 * g^2 * h * i^2 * l^2 * n * p
    - 4 * b * c^2 * d * f * g * i^2 * j * k * l^2 * n * p - 4 * c * d * f^2 * g^2 * i^2 * j * k * l^2 * n * p

/-- Terms 259 to 264. -/
def sdC44 (b c d f g h i j k l m n o p : K) : K :=
  4 * b * c^3 * f * h * i^2 * j * k * l^2 * n * p + 4 * c^2 * f^2 * g * h * i^2 * j * k * l^2 * n * p
    + 2 * b^2 * c * d^3 * f^2 * g^2 * m^2 * o * p + 2 * b * d^3 * f^3 * g^3 * m^2 * o * p
    - 4 * b^2 * c^2 * d^2 * f^2 * g * h * m^2 * o * p - 2 * b * c * d^2 * f^3 * g^2 * h * m^2 * o * p

/-- Terms 265 to 270. -/
def sdC45 (b c d f g h m o p : K) : K :=
  2 * d^2 * f^4 * g^3 * h * m^2 * o * p + 2 * b^2 * c^3 * d * f^2 * h^2 * m^2 * o * p
    - 2 * b * c^2 * d * f^3 * g * h^2 * m^2 * o * p - 4 * c * d * f^4 * g^2 * h^2 * m^2 * o * p
    + 2 * b * c^3 * f^3 * h^3 * m^2 * o * p + 2 * c^2 * f^4 * g * h^3 * m^2 * o * p

/-- Terms 271 to 276. -/
def sdC46 (b c d f g h j k m o p : K) : K :=
  4 * b^2 * c * d^3 * f * g * j * k * m^2 * o * p + 4 * b * d^3 * f^2 * g^2 * j * k * m^2 * o * p
    - 4 * b^2 * c^2 * d^2 * f * h * j * k * m^2 * o * p + 4 * d^2 * f^3 * g^2 * h * j * k * m^2 * o * p
    - 4 * b * c^2 * d * f^2 * h^2 * j * k * m^2 * o * p - 4 * c * d * f^3 * g * h^2 * j * k * m^2 * o * p

/-- Terms 277 to 282. -/
def sdC47 (b c d f g h j k l m o p : K) : K :=
  2 * b^2 * c * d^3 * j^2 * k^2 * m^2 * o * p + 2 * b * d^3 * f * g * j^2 * k^2 * m^2 * o * p
    + 2 * b * c * d^2 * f * h * j^2 * k^2 * m^2 * o * p + 2 * d^2 * f^2 * g * h * j^2 * k^2 * m^2 * o * p
    - 4 * b^2 * c^2 * d^2 * f * g * j * l * m^2 * o * p - 4 * b * c * d^2 * f^2 * g^2 * j * l * m^2 * o * p

/-- Terms 283 to 288. -/
def sdC48 (b c d f g h j k l m o p : K) : K :=
  4 * b^2 * c^3 * d * f * h * j * l * m^2 * o * p - 4 * c * d * f^3 * g^2 * h * j * l * m^2 * o * p
    + 4 * b * c^3 * f^2 * h^2 * j * l * m^2 * o * p + 4 * c^2 * f^3 * g * h^2 * j * l * m^2 * o * p
    - 4 * b^2 * c^2 * d^2 * j^2 * k * l * m^2 * o * p - 4 * b * c * d^2 * f * g * j^2 * k * l * m^2 * o * p

/-- Terms 289 to 294. -/
def sdC49 (b c d f g h j k l m o p : K) : K :=
  -(4 * b * c^2 * d * f * h * j^2 * k * l * m^2 * o * p) - 4 * c * d * f^2 * g * h * j^2 * k * l * m^2 * o * p
    + 2 * b^2 * c^3 * d * j^2 * l^2 * m^2 * o * p + 2 * b * c^2 * d * f * g * j^2 * l^2 * m^2 * o * p
    + 2 * b * c^3 * f * h * j^2 * l^2 * m^2 * o * p + 2 * c^2 * f^2 * g * h * j^2 * l^2 * m^2 * o * p

/-- Terms 295 to 300. -/
def sdC50 (b c d f g h i k m n o p : K) : K :=
  -(4 * b^2 * c * d^3 * f * g * i * k * m * n * o * p) - 2 * b * d^3 * f^2 * g^2 * i * k * m * n * o * p
    + 4 * b^2 * c^2 * d^2 * f * h * i * k * m * n * o * p - 4 * b * c * d^2 * f^2 * g * h * i * k * m * n * o * p
    - 2 * d^2 * f^3 * g^2 * h * i * k * m * n * o * p + 6 * b * c^2 * d * f^2 * h^2 * i * k * m * n * o * p

/-- Terms 301 to 306. -/
def sdC51 (b c d f g h i j k m n o p : K) : K :=
  2 * c^2 * f^3 * h^3 * i * k * m * n * o * p - 4 * b^2 * c * d^3 * i * j * k^2 * m * n * o * p
    - 2 * b * d^3 * f * g * i * j * k^2 * m * n * o * p - 6 * b * c * d^2 * f * h * i * j * k^2 * m * n * o * p
    - 2 * d^2 * f^2 * g * h * i * j * k^2 * m * n * o * p - 2 * c * d * f^2 * h^2 * i * j * k^2 * m * n * o * p

/-- Terms 307 to 312. -/
def sdC52 (b c d f g h i l m n o p : K) : K :=
  4 * b^2 * c^2 * d^2 * f * g * i * l * m * n * o * p + 6 * b * c * d^2 * f^2 * g^2 * i * l * m * n * o * p
    + 2 * d^2 * f^3 * g^3 * i * l * m * n * o * p - 4 * b^2 * c^3 * d * f * h * i * l * m * n * o * p
    - 4 * b * c^2 * d * f^2 * g * h * i * l * m * n * o * p - 2 * b * c^3 * f^2 * h^2 * i * l * m * n * o * p

/-- Terms 313 to 318. -/
def sdC53 (b c d f g h i j k l m n o p : K) : K :=
  -(2 * c^2 * f^3 * g * h^2 * i * l * m * n * o * p) + 8 * b^2 * c^2 * d^2 * i * j * k * l * m * n * o * p
    + 8 * b * c * d^2 * f * g * i * j * k * l * m * n * o * p + 2 * d^2 * f^2 * g^2 * i * j * k * l * m * n * o * p
    + 8 * b * c^2 * d * f * h * i * j * k * l * m * n * o * p
    + 4 * c * d * f^2 * g * h * i * j * k * l * m * n * o * p

/-- Terms 319 to 324. -/
def sdC54 (b c d f g h i j k l m n o p : K) : K :=
  2 * c^2 * f^2 * h^2 * i * j * k * l * m * n * o * p - 4 * b^2 * c^3 * d * i * j * l^2 * m * n * o * p
    - 6 * b * c^2 * d * f * g * i * j * l^2 * m * n * o * p - 2 * c * d * f^2 * g^2 * i * j * l^2 * m * n * o * p
    - 2 * b * c^3 * f * h * i * j * l^2 * m * n * o * p - 2 * c^2 * f^2 * g * h * i * j * l^2 * m * n * o * p

/-- Terms 325 to 330. -/
def sdC55 (b c d f g h i k l n o p : K) : K :=
  2 * b^2 * c * d^3 * i^2 * k^2 * n^2 * o * p + 4 * b * c * d^2 * f * h * i^2 * k^2 * n^2 * o * p
    + 2 * c * d * f^2 * h^2 * i^2 * k^2 * n^2 * o * p - 4 * b^2 * c^2 * d^2 * i^2 * k * l * n^2 * o * p
    - 4 * b * c * d^2 * f * g * i^2 * k * l * n^2 * o * p - 4 * b * c^2 * d * f * h * i^2 * k * l * n^2 * o * p

/-- Terms 331 to 336. -/
def sdC56 (b c d f g h i k l m n o p : K) : K :=
  -(4 * c * d * f^2 * g * h * i^2 * k * l * n^2 * o * p) + 2 * b^2 * c^3 * d * i^2 * l^2 * n^2 * o * p
    + 4 * b * c^2 * d * f * g * i^2 * l^2 * n^2 * o * p + 2 * c * d * f^2 * g^2 * i^2 * l^2 * n^2 * o * p
    - b^2 * c^2 * d^2 * f^2 * g^2 * m^2 * p^2 - 2 * b * c * d^2 * f^3 * g^3 * m^2 * p^2

/-- Terms 337 to 342. -/
def sdC57 (b c d f g h m p : K) : K :=
  -(d^2 * f^4 * g^4 * m^2 * p^2) + 2 * b^2 * c^3 * d * f^2 * g * h * m^2 * p^2
    + 4 * b * c^2 * d * f^3 * g^2 * h * m^2 * p^2 + 2 * c * d * f^4 * g^3 * h * m^2 * p^2
    - b^2 * c^4 * f^2 * h^2 * m^2 * p^2 - 2 * b * c^3 * f^3 * g * h^2 * m^2 * p^2

/-- Terms 343 to 348. -/
def sdC58 (b c d f g h j k m p : K) : K :=
  -(c^2 * f^4 * g^2 * h^2 * m^2 * p^2) - 2 * b^2 * c^2 * d^2 * f * g * j * k * m^2 * p^2
    - 4 * b * c * d^2 * f^2 * g^2 * j * k * m^2 * p^2 - 2 * d^2 * f^3 * g^3 * j * k * m^2 * p^2
    + 2 * b^2 * c^3 * d * f * h * j * k * m^2 * p^2 + 4 * b * c^2 * d * f^2 * g * h * j * k * m^2 * p^2

/-- Terms 349 to 354. -/
def sdC59 (b c d f g h j k l m p : K) : K :=
  2 * c * d * f^3 * g^2 * h * j * k * m^2 * p^2 - b^2 * c^2 * d^2 * j^2 * k^2 * m^2 * p^2
    - 2 * b * c * d^2 * f * g * j^2 * k^2 * m^2 * p^2 - d^2 * f^2 * g^2 * j^2 * k^2 * m^2 * p^2
    + 2 * b^2 * c^3 * d * f * g * j * l * m^2 * p^2 + 4 * b * c^2 * d * f^2 * g^2 * j * l * m^2 * p^2

/-- Terms 355 to 360. -/
def sdC60 (b c d f g h j k l m p : K) : K :=
  2 * c * d * f^3 * g^3 * j * l * m^2 * p^2 - 2 * b^2 * c^4 * f * h * j * l * m^2 * p^2
    - 4 * b * c^3 * f^2 * g * h * j * l * m^2 * p^2 - 2 * c^2 * f^3 * g^2 * h * j * l * m^2 * p^2
    + 2 * b^2 * c^3 * d * j^2 * k * l * m^2 * p^2 + 4 * b * c^2 * d * f * g * j^2 * k * l * m^2 * p^2

/-- Terms 361 to 366. -/
def sdC61 (b c d f g i j k l m n p : K) : K :=
  2 * c * d * f^2 * g^2 * j^2 * k * l * m^2 * p^2 - b^2 * c^4 * j^2 * l^2 * m^2 * p^2
    - 2 * b * c^3 * f * g * j^2 * l^2 * m^2 * p^2 - c^2 * f^2 * g^2 * j^2 * l^2 * m^2 * p^2
    + 2 * b^2 * c^2 * d^2 * f * g * i * k * m * n * p^2 + 2 * b * c * d^2 * f^2 * g^2 * i * k * m * n * p^2

/-- Terms 367 to 372. -/
def sdC62 (b c d f g h i j k m n p : K) : K :=
  -(2 * b^2 * c^3 * d * f * h * i * k * m * n * p^2) + 2 * c * d * f^3 * g^2 * h * i * k * m * n * p^2
    - 2 * b * c^3 * f^2 * h^2 * i * k * m * n * p^2 - 2 * c^2 * f^3 * g * h^2 * i * k * m * n * p^2
    + 2 * b^2 * c^2 * d^2 * i * j * k^2 * m * n * p^2 + 2 * b * c * d^2 * f * g * i * j * k^2 * m * n * p^2

/-- Terms 373 to 378. -/
def sdC63 (b c d f g h i j k l m n p : K) : K :=
  2 * b * c^2 * d * f * h * i * j * k^2 * m * n * p^2 + 2 * c * d * f^2 * g * h * i * j * k^2 * m * n * p^2
    - 2 * b^2 * c^3 * d * f * g * i * l * m * n * p^2 - 4 * b * c^2 * d * f^2 * g^2 * i * l * m * n * p^2
    - 2 * c * d * f^3 * g^3 * i * l * m * n * p^2 + 2 * b^2 * c^4 * f * h * i * l * m * n * p^2

/-- Terms 379 to 384. -/
def sdC64 (b c d f g h i j k l m n p : K) : K :=
  4 * b * c^3 * f^2 * g * h * i * l * m * n * p^2 + 2 * c^2 * f^3 * g^2 * h * i * l * m * n * p^2
    - 4 * b^2 * c^3 * d * i * j * k * l * m * n * p^2 - 6 * b * c^2 * d * f * g * i * j * k * l * m * n * p^2
    - 2 * c * d * f^2 * g^2 * i * j * k * l * m * n * p^2 - 2 * b * c^3 * f * h * i * j * k * l * m * n * p^2

/-- Terms 385 to 390. -/
def sdC65 (b c d f g h i j k l m n p : K) : K :=
  -(2 * c^2 * f^2 * g * h * i * j * k * l * m * n * p^2) + 2 * b^2 * c^4 * i * j * l^2 * m * n * p^2
    + 4 * b * c^3 * f * g * i * j * l^2 * m * n * p^2 + 2 * c^2 * f^2 * g^2 * i * j * l^2 * m * n * p^2
    - b^2 * c^2 * d^2 * i^2 * k^2 * n^2 * p^2 - 2 * b * c^2 * d * f * h * i^2 * k^2 * n^2 * p^2

/-- Terms 391 to 396. -/
def sdC66 (b c d f g h i k l n p : K) : K :=
  -(c^2 * f^2 * h^2 * i^2 * k^2 * n^2 * p^2) + 2 * b^2 * c^3 * d * i^2 * k * l * n^2 * p^2
    + 2 * b * c^2 * d * f * g * i^2 * k * l * n^2 * p^2 + 2 * b * c^3 * f * h * i^2 * k * l * n^2 * p^2
    + 2 * c^2 * f^2 * g * h * i^2 * k * l * n^2 * p^2 - b^2 * c^4 * i^2 * l^2 * n^2 * p^2

/-- Terms 397 to 402. -/
def sdC67 (b c d f g h i j k l n p X : K) : K :=
  -(2 * b * c^3 * f * g * i^2 * l^2 * n^2 * p^2) - c^2 * f^2 * g^2 * i^2 * l^2 * n^2 * p^2 + 4 * d^2 * f^2 * g^2 * X
    - 8 * c * d * f^2 * g * h * X + 4 * c^2 * f^2 * h^2 * X + 8 * d^2 * f * g * j * k * X

/-- Terms 403 to 408. -/
def sdC68 (c d f g h j k l X : K) : K :=
  -(8 * c * d * f * h * j * k * X) + 4 * d^2 * j^2 * k^2 * X - 8 * c * d * f * g * j * l * X
    + 8 * c^2 * f * h * j * l * X - 8 * c * d * j^2 * k * l * X + 4 * c^2 * j^2 * l^2 * X

/-- Terms 409 to 414. -/
def sdC69 (b c d f g h i j k l Y : K) : K :=
  -(2 * b * d^3 * f * g * i * j * k^2 * Y) + 2 * b * c * d^2 * f * h * i * j * k^2 * Y
    - 2 * d^2 * f^2 * g * h * i * j * k^2 * Y + 2 * c * d * f^2 * h^2 * i * j * k^2 * Y
    + 4 * b * c * d^2 * f * g * i * j * k * l * Y + 2 * d^2 * f^2 * g^2 * i * j * k * l * Y

/-- Terms 415 to 420. -/
def sdC70 (b c d f g h i j k l Y : K) : K :=
  -(4 * b * c^2 * d * f * h * i * j * k * l * Y) - 2 * c^2 * f^2 * h^2 * i * j * k * l * Y
    - 2 * b * c^2 * d * f * g * i * j * l^2 * Y - 2 * c * d * f^2 * g^2 * i * j * l^2 * Y
    + 2 * b * c^3 * f * h * i * j * l^2 * Y + 2 * c^2 * f^2 * g * h * i * j * l^2 * Y

/-- Terms 421 to 426. -/
def sdC71 (b c d f g h j k m o Y : K) : K :=
  -(2 * b * d^3 * f * g * j * k * m * o * Y) + 2 * b * c * d^2 * f * h * j * k * m * o * Y
    - 2 * d^2 * f^2 * g * h * j * k * m * o * Y + 2 * c * d * f^2 * h^2 * j * k * m * o * Y
    - 2 * b * d^3 * j^2 * k^2 * m * o * Y - 2 * d^2 * f * h * j^2 * k^2 * m * o * Y

/-- Terms 427 to 432. -/
def sdC72 (b c d f g h j k l m o Y : K) : K :=
  2 * b * c * d^2 * f * g * j * l * m * o * Y + 4 * d^2 * f^2 * g^2 * j * l * m * o * Y
    - 2 * b * c^2 * d * f * h * j * l * m * o * Y - 6 * c * d * f^2 * g * h * j * l * m * o * Y
    + 2 * c^2 * f^2 * h^2 * j * l * m * o * Y + 4 * b * c * d^2 * j^2 * k * l * m * o * Y

/-- Terms 433 to 438. -/
def sdC73 (b c d f g h i j k l m n o Y : K) : K :=
  4 * d^2 * f * g * j^2 * k * l * m * o * Y - 2 * b * c^2 * d * j^2 * l^2 * m * o * Y
    - 4 * c * d * f * g * j^2 * l^2 * m * o * Y + 2 * c^2 * f * h * j^2 * l^2 * m * o * Y
    - 2 * b * d^3 * f * g * i * k * n * o * Y + 2 * b * c * d^2 * f * h * i * k * n * o * Y

/-- Terms 439 to 444. -/
def sdC74 (b c d f g h i j k l n o Y : K) : K :=
  -(2 * d^2 * f^2 * g * h * i * k * n * o * Y) + 2 * c * d * f^2 * h^2 * i * k * n * o * Y
    + 2 * b * d^3 * i * j * k^2 * n * o * Y + 2 * d^2 * f * h * i * j * k^2 * n * o * Y
    + 2 * b * c * d^2 * f * g * i * l * n * o * Y - 2 * d^2 * f^2 * g^2 * i * l * n * o * Y

/-- Terms 445 to 450. -/
def sdC75 (b c d f g h i j k l n o Y : K) : K :=
  -(2 * b * c^2 * d * f * h * i * l * n * o * Y) + 6 * c * d * f^2 * g * h * i * l * n * o * Y
    - 4 * c^2 * f^2 * h^2 * i * l * n * o * Y - 4 * b * c * d^2 * i * j * k * l * n * o * Y
    - 6 * d^2 * f * g * i * j * k * l * n * o * Y + 2 * c * d * f * h * i * j * k * l * n * o * Y

/-- Terms 451 to 456. -/
def sdC76 (b c d f g h i j l m n o Y : K) : K :=
  2 * b * c^2 * d * i * j * l^2 * n * o * Y + 6 * c * d * f * g * i * j * l^2 * n * o * Y
    - 4 * c^2 * f * h * i * j * l^2 * n * o * Y - 2 * b * d^3 * f * g * m * n * o^2 * Y
    + 2 * b * c * d^2 * f * h * m * n * o^2 * Y - 2 * d^2 * f^2 * g * h * m * n * o^2 * Y

/-- Terms 457 to 462. -/
def sdC77 (b c d f h i j k l m n o Y : K) : K :=
  2 * c * d * f^2 * h^2 * m * n * o^2 * Y - 2 * b * d^3 * j * k * m * n * o^2 * Y
    - 2 * d^2 * f * h * j * k * m * n * o^2 * Y + 2 * b * c * d^2 * j * l * m * n * o^2 * Y
    + 2 * c * d * f * h * j * l * m * n * o^2 * Y + 2 * b * d^3 * i * k * n^2 * o^2 * Y

/-- Terms 463 to 468. -/
def sdC78 (b c d f g h i j k l m n o p Y : K) : K :=
  2 * d^2 * f * h * i * k * n^2 * o^2 * Y - 2 * b * c * d^2 * i * l * n^2 * o^2 * Y
    - 2 * d^2 * f * g * i * l * n^2 * o^2 * Y + 2 * b * c * d^2 * f * g * j * k * m * p * Y
    - 2 * d^2 * f^2 * g^2 * j * k * m * p * Y - 2 * b * c^2 * d * f * h * j * k * m * p * Y

/-- Terms 469 to 474. -/
def sdC79 (b c d f g h j k l m p Y : K) : K :=
  6 * c * d * f^2 * g * h * j * k * m * p * Y - 4 * c^2 * f^2 * h^2 * j * k * m * p * Y
    + 2 * b * c * d^2 * j^2 * k^2 * m * p * Y - 2 * d^2 * f * g * j^2 * k^2 * m * p * Y
    + 4 * c * d * f * h * j^2 * k^2 * m * p * Y - 2 * b * c^2 * d * f * g * j * l * m * p * Y

/-- Terms 475 to 480. -/
def sdC80 (b c d f g h j k l m p Y : K) : K :=
  -(2 * c * d * f^2 * g^2 * j * l * m * p * Y) + 2 * b * c^3 * f * h * j * l * m * p * Y
    + 2 * c^2 * f^2 * g * h * j * l * m * p * Y - 4 * b * c^2 * d * j^2 * k * l * m * p * Y
    - 4 * c^2 * f * h * j^2 * k * l * m * p * Y + 2 * b * c^3 * j^2 * l^2 * m * p * Y

/-- Terms 481 to 486. -/
def sdC81 (b c d f g h i j k l m n p Y : K) : K :=
  2 * c^2 * f * g * j^2 * l^2 * m * p * Y + 2 * b * c * d^2 * f * g * i * k * n * p * Y
    + 4 * d^2 * f^2 * g^2 * i * k * n * p * Y - 2 * b * c^2 * d * f * h * i * k * n * p * Y
    - 6 * c * d * f^2 * g * h * i * k * n * p * Y + 2 * c^2 * f^2 * h^2 * i * k * n * p * Y

/-- Terms 487 to 492. -/
def sdC82 (b c d f g h i j k l n p Y : K) : K :=
  -(2 * b * c * d^2 * i * j * k^2 * n * p * Y) + 4 * d^2 * f * g * i * j * k^2 * n * p * Y
    - 6 * c * d * f * h * i * j * k^2 * n * p * Y - 2 * b * c^2 * d * f * g * i * l * n * p * Y
    - 2 * c * d * f^2 * g^2 * i * l * n * p * Y + 2 * b * c^3 * f * h * i * l * n * p * Y

/-- Terms 493 to 498. -/
def sdC83 (b c d f g h i j k l n p Y : K) : K :=
  2 * c^2 * f^2 * g * h * i * l * n * p * Y + 4 * b * c^2 * d * i * j * k * l * n * p * Y
    - 2 * c * d * f * g * i * j * k * l * n * p * Y + 6 * c^2 * f * h * i * j * k * l * n * p * Y
    - 2 * b * c^3 * i * j * l^2 * n * p * Y - 2 * c^2 * f * g * i * j * l^2 * n * p * Y

/-- Terms 499 to 504. -/
def sdC84 (b c d f g h j k m n o p Y : K) : K :=
  4 * b * c * d^2 * f * g * m * n * o * p * Y + 2 * d^2 * f^2 * g^2 * m * n * o * p * Y
    - 4 * b * c^2 * d * f * h * m * n * o * p * Y - 2 * c^2 * f^2 * h^2 * m * n * o * p * Y
    + 4 * b * c * d^2 * j * k * m * n * o * p * Y + 2 * d^2 * f * g * j * k * m * n * o * p * Y

/-- Terms 505 to 510. -/
def sdC85 (b c d f g h i j k l m n o p Y : K) : K :=
  2 * c * d * f * h * j * k * m * n * o * p * Y - 4 * b * c^2 * d * j * l * m * n * o * p * Y
    - 2 * c * d * f * g * j * l * m * n * o * p * Y - 2 * c^2 * f * h * j * l * m * n * o * p * Y
    - 4 * b * c * d^2 * i * k * n^2 * o * p * Y - 4 * c * d * f * h * i * k * n^2 * o * p * Y

/-- Terms 511 to 516. -/
def sdC86 (b c d f g h i l m n o p Y : K) : K :=
  4 * b * c^2 * d * i * l * n^2 * o * p * Y + 4 * c * d * f * g * i * l * n^2 * o * p * Y
    - 2 * b * c^2 * d * f * g * m * n * p^2 * Y - 2 * c * d * f^2 * g^2 * m * n * p^2 * Y
    + 2 * b * c^3 * f * h * m * n * p^2 * Y + 2 * c^2 * f^2 * g * h * m * n * p^2 * Y

/-- Terms 517 to 522. -/
def sdC87 (b c d f g h i j k l m n p Y : K) : K :=
  -(2 * b * c^2 * d * j * k * m * n * p^2 * Y) - 2 * c * d * f * g * j * k * m * n * p^2 * Y
    + 2 * b * c^3 * j * l * m * n * p^2 * Y + 2 * c^2 * f * g * j * l * m * n * p^2 * Y
    + 2 * b * c^2 * d * i * k * n^2 * p^2 * Y + 2 * c^2 * f * h * i * k * n^2 * p^2 * Y

/-- Terms 523 to 528. -/
def sdC88 (b c d f g i j k l n o p Y : K) : K :=
  -(2 * b * c^3 * i * l * n^2 * p^2 * Y) - 2 * c^2 * f * g * i * l * n^2 * p^2 * Y - d^2 * j^2 * k^2 * Y^2
    + 2 * c * d * j^2 * k * l * Y^2 - c^2 * j^2 * l^2 * Y^2 - 2 * d^2 * j * k * n * o * Y^2

/-- Terms 529 to 534. -/
def sdC89 (c d j k l n o p Y : K) : K :=
  2 * c * d * j * l * n * o * Y^2 - d^2 * n^2 * o^2 * Y^2 + 2 * c * d * j * k * n * p * Y^2
    - 2 * c^2 * j * l * n * p * Y^2 + 2 * c * d * n^2 * o * p * Y^2 - c^2 * n^2 * p^2 * Y^2

/-- The sum of the pieces. -/
def sdC (z : SD K) : K :=
  sdC1 z.b z.c z.d z.f z.g z.h z.i z.k + sdC2 z.b z.c z.d z.f z.g z.h z.i z.k z.l +
    sdC3 z.b z.c z.d z.f z.g z.h z.i z.k z.l + sdC4 z.b z.c z.d z.f z.g z.h z.i z.k z.l +
    sdC5 z.b z.c z.d z.f z.g z.h z.i z.k z.l z.m z.o + sdC6 z.b z.c z.d z.f z.g z.h z.i z.k z.m z.o +
    sdC7 z.b z.c z.d z.f z.g z.h z.i z.j z.k z.m z.o + sdC8 z.b z.c z.d z.f z.g z.h z.i z.j z.k z.l z.m z.o +
    sdC9 z.b z.c z.d z.f z.g z.h z.i z.j z.k z.l z.m z.o + sdC10 z.b z.c z.d z.f z.g z.h z.i z.j z.k z.l z.m z.o +
    sdC11 z.b z.c z.d z.f z.g z.h z.i z.j z.k z.l z.m z.o + sdC12 z.b z.c z.d z.f z.g z.h z.i z.j z.l z.m z.o +
    sdC13 z.b z.c z.d z.f z.g z.h z.i z.j z.k z.l z.m z.o +
    sdC14 z.b z.c z.d z.f z.g z.h z.i z.j z.k z.l z.m z.n z.o + sdC15 z.b z.c z.d z.f z.g z.h z.i z.k z.l z.n z.o +
    sdC16 z.b z.c z.d z.f z.g z.h z.i z.j z.k z.l z.n z.o + sdC17 z.b z.c z.d z.f z.g z.h z.i z.j z.k z.l z.n z.o +
    sdC18 z.b z.c z.d z.f z.g z.h z.i z.j z.k z.l z.n z.o + sdC19 z.b z.c z.d z.f z.g z.h z.i z.j z.l z.m z.n z.o +
    sdC20 z.b z.c z.d z.f z.g z.h z.m z.o + sdC21 z.b z.c z.d z.f z.g z.h z.j z.k z.m z.o +
    sdC22 z.b z.c z.d z.f z.g z.h z.j z.k z.l z.m z.o + sdC23 z.b z.c z.d z.f z.g z.h z.j z.k z.l z.m z.o +
    sdC24 z.b z.c z.d z.f z.g z.h z.i z.j z.k z.l z.m z.n z.o +
    sdC25 z.b z.c z.d z.f z.g z.h z.i z.j z.k z.m z.n z.o +
    sdC26 z.b z.c z.d z.f z.g z.h z.i z.j z.k z.l z.m z.n z.o +
    sdC27 z.b z.c z.d z.f z.g z.h z.i z.j z.k z.l z.m z.n z.o +
    sdC28 z.b z.c z.d z.f z.g z.h z.i z.j z.k z.l z.m z.n z.o + sdC29 z.b z.c z.d z.f z.g z.h z.i z.k z.l z.n z.o +
    sdC30 z.b z.c z.d z.f z.g z.h z.i z.k z.l z.m z.n z.o z.p + sdC31 z.b z.c z.d z.f z.g z.h z.i z.k z.m z.p +
    sdC32 z.b z.c z.d z.f z.g z.h z.i z.j z.k z.m z.p + sdC33 z.b z.c z.d z.f z.g z.h z.i z.j z.k z.m z.p +
    sdC34 z.b z.c z.d z.f z.g z.h z.i z.l z.m z.p + sdC35 z.b z.c z.d z.f z.g z.h z.i z.j z.k z.l z.m z.p +
    sdC36 z.b z.c z.d z.f z.g z.h z.i z.j z.k z.l z.m z.p + sdC37 z.b z.c z.d z.f z.g z.h z.i z.j z.k z.l z.m z.p +
    sdC38 z.b z.c z.d z.f z.g z.h z.i z.j z.k z.l z.m z.p +
    sdC39 z.b z.c z.d z.f z.g z.h z.i z.j z.k z.l z.m z.n z.p + sdC40 z.b z.c z.d z.f z.g z.h z.i z.j z.k z.n z.p +
    sdC41 z.b z.c z.d z.f z.g z.h z.i z.k z.l z.n z.p + sdC42 z.b z.c z.d z.f z.g z.h z.i z.j z.k z.l z.n z.p +
    sdC43 z.b z.c z.d z.f z.g z.h z.i z.j z.k z.l z.n z.p +
    sdC44 z.b z.c z.d z.f z.g z.h z.i z.j z.k z.l z.m z.n z.o z.p + sdC45 z.b z.c z.d z.f z.g z.h z.m z.o z.p +
    sdC46 z.b z.c z.d z.f z.g z.h z.j z.k z.m z.o z.p + sdC47 z.b z.c z.d z.f z.g z.h z.j z.k z.l z.m z.o z.p +
    sdC48 z.b z.c z.d z.f z.g z.h z.j z.k z.l z.m z.o z.p + sdC49 z.b z.c z.d z.f z.g z.h z.j z.k z.l z.m z.o z.p +
    sdC50 z.b z.c z.d z.f z.g z.h z.i z.k z.m z.n z.o z.p +
    sdC51 z.b z.c z.d z.f z.g z.h z.i z.j z.k z.m z.n z.o z.p +
    sdC52 z.b z.c z.d z.f z.g z.h z.i z.l z.m z.n z.o z.p +
    sdC53 z.b z.c z.d z.f z.g z.h z.i z.j z.k z.l z.m z.n z.o z.p +
    sdC54 z.b z.c z.d z.f z.g z.h z.i z.j z.k z.l z.m z.n z.o z.p +
    sdC55 z.b z.c z.d z.f z.g z.h z.i z.k z.l z.n z.o z.p +
    sdC56 z.b z.c z.d z.f z.g z.h z.i z.k z.l z.m z.n z.o z.p + sdC57 z.b z.c z.d z.f z.g z.h z.m z.p +
    sdC58 z.b z.c z.d z.f z.g z.h z.j z.k z.m z.p + sdC59 z.b z.c z.d z.f z.g z.h z.j z.k z.l z.m z.p +
    sdC60 z.b z.c z.d z.f z.g z.h z.j z.k z.l z.m z.p + sdC61 z.b z.c z.d z.f z.g z.i z.j z.k z.l z.m z.n z.p +
    sdC62 z.b z.c z.d z.f z.g z.h z.i z.j z.k z.m z.n z.p +
    sdC63 z.b z.c z.d z.f z.g z.h z.i z.j z.k z.l z.m z.n z.p +
    sdC64 z.b z.c z.d z.f z.g z.h z.i z.j z.k z.l z.m z.n z.p +
    sdC65 z.b z.c z.d z.f z.g z.h z.i z.j z.k z.l z.m z.n z.p + sdC66 z.b z.c z.d z.f z.g z.h z.i z.k z.l z.n z.p +
    sdC67 z.b z.c z.d z.f z.g z.h z.i z.j z.k z.l z.n z.p z.X + sdC68 z.c z.d z.f z.g z.h z.j z.k z.l z.X +
    sdC69 z.b z.c z.d z.f z.g z.h z.i z.j z.k z.l z.Y + sdC70 z.b z.c z.d z.f z.g z.h z.i z.j z.k z.l z.Y +
    sdC71 z.b z.c z.d z.f z.g z.h z.j z.k z.m z.o z.Y + sdC72 z.b z.c z.d z.f z.g z.h z.j z.k z.l z.m z.o z.Y +
    sdC73 z.b z.c z.d z.f z.g z.h z.i z.j z.k z.l z.m z.n z.o z.Y +
    sdC74 z.b z.c z.d z.f z.g z.h z.i z.j z.k z.l z.n z.o z.Y +
    sdC75 z.b z.c z.d z.f z.g z.h z.i z.j z.k z.l z.n z.o z.Y +
    sdC76 z.b z.c z.d z.f z.g z.h z.i z.j z.l z.m z.n z.o z.Y +
    sdC77 z.b z.c z.d z.f z.h z.i z.j z.k z.l z.m z.n z.o z.Y +
    sdC78 z.b z.c z.d z.f z.g z.h z.i z.j z.k z.l z.m z.n z.o z.p z.Y +
    sdC79 z.b z.c z.d z.f z.g z.h z.j z.k z.l z.m z.p z.Y + sdC80 z.b z.c z.d z.f z.g z.h z.j z.k z.l z.m z.p z.Y +
    sdC81 z.b z.c z.d z.f z.g z.h z.i z.j z.k z.l z.m z.n z.p z.Y +
    sdC82 z.b z.c z.d z.f z.g z.h z.i z.j z.k z.l z.n z.p z.Y +
    sdC83 z.b z.c z.d z.f z.g z.h z.i z.j z.k z.l z.n z.p z.Y +
    sdC84 z.b z.c z.d z.f z.g z.h z.j z.k z.m z.n z.o z.p z.Y +
    sdC85 z.b z.c z.d z.f z.g z.h z.i z.j z.k z.l z.m z.n z.o z.p z.Y +
    sdC86 z.b z.c z.d z.f z.g z.h z.i z.l z.m z.n z.o z.p z.Y +
    sdC87 z.b z.c z.d z.f z.g z.h z.i z.j z.k z.l z.m z.n z.p z.Y +
    sdC88 z.b z.c z.d z.f z.g z.i z.j z.k z.l z.n z.o z.p z.Y + sdC89 z.c z.d z.j z.k z.l z.n z.o z.p z.Y

end Lips

import Verif.Model.SetPoly

/-! Model of `_set_tr5` at five points, lips/hardcoded_limits/particles_set.py:478-508, and of its choice
by the number of particles. The polynomials are the text of the code with `**` written `^`; long sums are cut into
pieces of sixteen terms. -/

namespace Lips

variable {K : Type*} [Field K] {n : ℕ}

/-- Terms 1 to 16 of `tr5N1`. -/
def tr5N1_1 (c1 d1 a2 c2 d2 b3 c3 d3 b4 c4 d4 : K) : K :=
  a2 ^ 2 * b3 ^ 2 * b4 * c1 * c2 * c3 * d2 * d3 * d4 - a2 ^ 2 * b3 ^ 2 * b4 * c1 * c2 * c4 * d2 * d3 ^ 2 -
  a2 ^ 2 * b3 ^ 2 * b4 * c1 * c3 ^ 2 * d2 ^ 2 * d4 + a2 ^ 2 * b3 ^ 2 * b4 * c1 * c3 * c4 * d2 ^ 2 * d3 -
  a2 ^ 2 * b3 ^ 2 * b4 * c2 ^ 2 * c3 * d1 * d3 * d4 + a2 ^ 2 * b3 ^ 2 * b4 * c2 ^ 2 * c4 * d1 * d3 ^ 2 +
  a2 ^ 2 * b3 ^ 2 * b4 * c2 * c3 ^ 2 * d1 * d2 * d4 - a2 ^ 2 * b3 ^ 2 * b4 * c2 * c3 * c4 * d1 * d2 * d3 +
  a2 ^ 2 * b3 * b4 ^ 2 * c1 * c2 * c3 * d2 * d4 ^ 2 - a2 ^ 2 * b3 * b4 ^ 2 * c1 * c2 * c4 * d2 * d3 * d4 -
  a2 ^ 2 * b3 * b4 ^ 2 * c1 * c3 * c4 * d2 ^ 2 * d4 + a2 ^ 2 * b3 * b4 ^ 2 * c1 * c4 ^ 2 * d2 ^ 2 * d3 -
  a2 ^ 2 * b3 * b4 ^ 2 * c2 ^ 2 * c3 * d1 * d4 ^ 2 + a2 ^ 2 * b3 * b4 ^ 2 * c2 ^ 2 * c4 * d1 * d3 * d4 +
  a2 ^ 2 * b3 * b4 ^ 2 * c2 * c3 * c4 * d1 * d2 * d4 - a2 ^ 2 * b3 * b4 ^ 2 * c2 * c4 ^ 2 * d1 * d2 * d3

/-- Terms 17 to 32 of `tr5N1`. -/
def tr5N1_2 (c1 d1 a2 b2 c2 d2 a3 b3 c3 d3 b4 c4 d4 : K) : K :=
  -a2 * a3 * b2 * b3 * b4 * c1 * c2 ^ 2 * d3 ^ 2 * d4 + 2 * a2 * a3 * b2 * b3 * b4 * c1 * c2 * c4 * d2 * d3 ^ 2 +
  a2 * a3 * b2 * b3 * b4 * c1 * c3 ^ 2 * d2 ^ 2 * d4 - 2 * a2 * a3 * b2 * b3 * b4 * c1 * c3 * c4 * d2 ^ 2 * d3 +
  2 * a2 * a3 * b2 * b3 * b4 * c2 ^ 2 * c3 * d1 * d3 * d4 - a2 * a3 * b2 * b3 * b4 * c2 ^ 2 * c4 * d1 * d3 ^ 2 -
  2 * a2 * a3 * b2 * b3 * b4 * c2 * c3 ^ 2 * d1 * d2 * d4 + a2 * a3 * b2 * b3 * b4 * c3 ^ 2 * c4 * d1 * d2 ^ 2 -
  a2 * a3 * b2 * b4 ^ 2 * c1 * c2 ^ 2 * d3 * d4 ^ 2 + 2 * a2 * a3 * b2 * b4 ^ 2 * c1 * c2 * c4 * d2 * d3 * d4 -
  a2 * a3 * b2 * b4 ^ 2 * c1 * c4 ^ 2 * d2 ^ 2 * d3 + a2 * a3 * b2 * b4 ^ 2 * c2 ^ 2 * c3 * d1 * d4 ^ 2 -
  2 * a2 * a3 * b2 * b4 ^ 2 * c2 * c3 * c4 * d1 * d2 * d4 + a2 * a3 * b2 * b4 ^ 2 * c3 * c4 ^ 2 * d1 * d2 ^ 2 +
  a2 * a3 * b3 * b4 ^ 2 * c1 * c3 ^ 2 * d2 * d4 ^ 2 - 2 * a2 * a3 * b3 * b4 ^ 2 * c1 * c3 * c4 * d2 * d3 * d4

/-- Terms 33 to 48 of `tr5N1`. -/
def tr5N1_3 (c1 d1 a2 b2 c2 d2 a3 b3 c3 d3 a4 b4 c4 d4 : K) : K :=
  a2 * a3 * b3 * b4 ^ 2 * c1 * c4 ^ 2 * d2 * d3 ^ 2 - a2 * a3 * b3 * b4 ^ 2 * c2 * c3 ^ 2 * d1 * d4 ^ 2 +
  2 * a2 * a3 * b3 * b4 ^ 2 * c2 * c3 * c4 * d1 * d3 * d4 - a2 * a3 * b3 * b4 ^ 2 * c2 * c4 ^ 2 * d1 * d3 ^ 2 +
  a2 * a4 * b2 * b3 ^ 2 * c1 * c2 ^ 2 * d3 ^ 2 * d4 - 2 * a2 * a4 * b2 * b3 ^ 2 * c1 * c2 * c3 * d2 * d3 * d4 +
  a2 * a4 * b2 * b3 ^ 2 * c1 * c3 ^ 2 * d2 ^ 2 * d4 - a2 * a4 * b2 * b3 ^ 2 * c2 ^ 2 * c4 * d1 * d3 ^ 2 +
  2 * a2 * a4 * b2 * b3 ^ 2 * c2 * c3 * c4 * d1 * d2 * d3 - a2 * a4 * b2 * b3 ^ 2 * c3 ^ 2 * c4 * d1 * d2 ^ 2 +
  a2 * a4 * b2 * b3 * b4 * c1 * c2 ^ 2 * d3 * d4 ^ 2 - 2 * a2 * a4 * b2 * b3 * b4 * c1 * c2 * c3 * d2 * d4 ^ 2 +
  2 * a2 * a4 * b2 * b3 * b4 * c1 * c3 * c4 * d2 ^ 2 * d4 - a2 * a4 * b2 * b3 * b4 * c1 * c4 ^ 2 * d2 ^ 2 * d3 +
  a2 * a4 * b2 * b3 * b4 * c2 ^ 2 * c3 * d1 * d4 ^ 2 - 2 * a2 * a4 * b2 * b3 * b4 * c2 ^ 2 * c4 * d1 * d3 * d4

/-- Terms 49 to 64 of `tr5N1`. -/
def tr5N1_4 (c1 d1 a2 b2 c2 d2 a3 b3 c3 d3 a4 b4 c4 d4 : K) : K :=
  2 * a2 * a4 * b2 * b3 * b4 * c2 * c4 ^ 2 * d1 * d2 * d3 - a2 * a4 * b2 * b3 * b4 * c3 * c4 ^ 2 * d1 * d2 ^ 2 -
  a2 * a4 * b3 ^ 2 * b4 * c1 * c3 ^ 2 * d2 * d4 ^ 2 + 2 * a2 * a4 * b3 ^ 2 * b4 * c1 * c3 * c4 * d2 * d3 * d4 -
  a2 * a4 * b3 ^ 2 * b4 * c1 * c4 ^ 2 * d2 * d3 ^ 2 + a2 * a4 * b3 ^ 2 * b4 * c2 * c3 ^ 2 * d1 * d4 ^ 2 -
  2 * a2 * a4 * b3 ^ 2 * b4 * c2 * c3 * c4 * d1 * d3 * d4 + a2 * a4 * b3 ^ 2 * b4 * c2 * c4 ^ 2 * d1 * d3 ^ 2 +
  a3 ^ 2 * b2 ^ 2 * b4 * c1 * c2 ^ 2 * d3 ^ 2 * d4 - a3 ^ 2 * b2 ^ 2 * b4 * c1 * c2 * c3 * d2 * d3 * d4 -
  a3 ^ 2 * b2 ^ 2 * b4 * c1 * c2 * c4 * d2 * d3 ^ 2 + a3 ^ 2 * b2 ^ 2 * b4 * c1 * c3 * c4 * d2 ^ 2 * d3 -
  a3 ^ 2 * b2 ^ 2 * b4 * c2 ^ 2 * c3 * d1 * d3 * d4 + a3 ^ 2 * b2 ^ 2 * b4 * c2 * c3 ^ 2 * d1 * d2 * d4 +
  a3 ^ 2 * b2 ^ 2 * b4 * c2 * c3 * c4 * d1 * d2 * d3 - a3 ^ 2 * b2 ^ 2 * b4 * c3 ^ 2 * c4 * d1 * d2 ^ 2

/-- Terms 65 to 80 of `tr5N1`. -/
def tr5N1_5 (c1 d1 b2 c2 d2 a3 b3 c3 d3 a4 b4 c4 d4 : K) : K :=
  -a3 ^ 2 * b2 * b4 ^ 2 * c1 * c2 * c3 * d3 * d4 ^ 2 + a3 ^ 2 * b2 * b4 ^ 2 * c1 * c2 * c4 * d3 ^ 2 * d4 +
  a3 ^ 2 * b2 * b4 ^ 2 * c1 * c3 * c4 * d2 * d3 * d4 - a3 ^ 2 * b2 * b4 ^ 2 * c1 * c4 ^ 2 * d2 * d3 ^ 2 +
  a3 ^ 2 * b2 * b4 ^ 2 * c2 * c3 ^ 2 * d1 * d4 ^ 2 - a3 ^ 2 * b2 * b4 ^ 2 * c2 * c3 * c4 * d1 * d3 * d4 -
  a3 ^ 2 * b2 * b4 ^ 2 * c3 ^ 2 * c4 * d1 * d2 * d4 + a3 ^ 2 * b2 * b4 ^ 2 * c3 * c4 ^ 2 * d1 * d2 * d3 -
  a3 * a4 * b2 ^ 2 * b3 * c1 * c2 ^ 2 * d3 ^ 2 * d4 + 2 * a3 * a4 * b2 ^ 2 * b3 * c1 * c2 * c3 * d2 * d3 * d4 -
  a3 * a4 * b2 ^ 2 * b3 * c1 * c3 ^ 2 * d2 ^ 2 * d4 + a3 * a4 * b2 ^ 2 * b3 * c2 ^ 2 * c4 * d1 * d3 ^ 2 -
  2 * a3 * a4 * b2 ^ 2 * b3 * c2 * c3 * c4 * d1 * d2 * d3 + a3 * a4 * b2 ^ 2 * b3 * c3 ^ 2 * c4 * d1 * d2 ^ 2 +
  a3 * a4 * b2 ^ 2 * b4 * c1 * c2 ^ 2 * d3 * d4 ^ 2 - 2 * a3 * a4 * b2 ^ 2 * b4 * c1 * c2 * c4 * d2 * d3 * d4

/-- Terms 81 to 96 of `tr5N1`. -/
def tr5N1_6 (c1 d1 b2 c2 d2 a3 b3 c3 d3 a4 b4 c4 d4 : K) : K :=
  a3 * a4 * b2 ^ 2 * b4 * c1 * c4 ^ 2 * d2 ^ 2 * d3 - a3 * a4 * b2 ^ 2 * b4 * c2 ^ 2 * c3 * d1 * d4 ^ 2 +
  2 * a3 * a4 * b2 ^ 2 * b4 * c2 * c3 * c4 * d1 * d2 * d4 - a3 * a4 * b2 ^ 2 * b4 * c3 * c4 ^ 2 * d1 * d2 ^ 2 +
  2 * a3 * a4 * b2 * b3 * b4 * c1 * c2 * c3 * d3 * d4 ^ 2 - 2 * a3 * a4 * b2 * b3 * b4 * c1 * c2 * c4 * d3 ^ 2 * d4 -
  a3 * a4 * b2 * b3 * b4 * c1 * c3 ^ 2 * d2 * d4 ^ 2 + a3 * a4 * b2 * b3 * b4 * c1 * c4 ^ 2 * d2 * d3 ^ 2 -
  a3 * a4 * b2 * b3 * b4 * c2 * c3 ^ 2 * d1 * d4 ^ 2 + a3 * a4 * b2 * b3 * b4 * c2 * c4 ^ 2 * d1 * d3 ^ 2 +
  2 * a3 * a4 * b2 * b3 * b4 * c3 ^ 2 * c4 * d1 * d2 * d4 - 2 * a3 * a4 * b2 * b3 * b4 * c3 * c4 ^ 2 * d1 * d2 * d3 -
  a4 ^ 2 * b2 ^ 2 * b3 * c1 * c2 ^ 2 * d3 * d4 ^ 2 + a4 ^ 2 * b2 ^ 2 * b3 * c1 * c2 * c3 * d2 * d4 ^ 2 +
  a4 ^ 2 * b2 ^ 2 * b3 * c1 * c2 * c4 * d2 * d3 * d4 - a4 ^ 2 * b2 ^ 2 * b3 * c1 * c3 * c4 * d2 ^ 2 * d4

/-- Terms 97 to 112 of `tr5N1`. -/
def tr5N1_7 (c1 d1 b2 c2 d2 b3 c3 d3 a4 c4 d4 x : K) : K :=
  a4 ^ 2 * b2 ^ 2 * b3 * c2 ^ 2 * c4 * d1 * d3 * d4 - a4 ^ 2 * b2 ^ 2 * b3 * c2 * c3 * c4 * d1 * d2 * d4 -
  a4 ^ 2 * b2 ^ 2 * b3 * c2 * c4 ^ 2 * d1 * d2 * d3 + a4 ^ 2 * b2 ^ 2 * b3 * c3 * c4 ^ 2 * d1 * d2 ^ 2 -
  a4 ^ 2 * b2 * b3 ^ 2 * c1 * c2 * c3 * d3 * d4 ^ 2 + a4 ^ 2 * b2 * b3 ^ 2 * c1 * c2 * c4 * d3 ^ 2 * d4 +
  a4 ^ 2 * b2 * b3 ^ 2 * c1 * c3 ^ 2 * d2 * d4 ^ 2 - a4 ^ 2 * b2 * b3 ^ 2 * c1 * c3 * c4 * d2 * d3 * d4 +
  a4 ^ 2 * b2 * b3 ^ 2 * c2 * c3 * c4 * d1 * d3 * d4 - a4 ^ 2 * b2 * b3 ^ 2 * c2 * c4 ^ 2 * d1 * d3 ^ 2 -
  a4 ^ 2 * b2 * b3 ^ 2 * c3 ^ 2 * c4 * d1 * d2 * d4 + a4 ^ 2 * b2 * b3 ^ 2 * c3 * c4 ^ 2 * d1 * d2 * d3 -
  b2 * c1 * d2 * x/4 + b2 * c2 * d1 * x/4 - b3 * c1 * d3 * x/4 + b3 * c3 * d1 * x/4

/-- Terms 113 to 114 of `tr5N1`. -/
def tr5N1_8 (c1 d1 b4 c4 d4 x : K) : K :=
  -b4 * c1 * d4 * x/4 + b4 * c4 * d1 * x/4

/-- Numerator on line 493 of particles_set.py. -/
def tr5N1 (c1 d1 a2 b2 c2 d2 a3 b3 c3 d3 a4 b4 c4 d4 x : K) : K :=
  tr5N1_1 c1 d1 a2 c2 d2 b3 c3 d3 b4 c4 d4 +
  tr5N1_2 c1 d1 a2 b2 c2 d2 a3 b3 c3 d3 b4 c4 d4 +
  tr5N1_3 c1 d1 a2 b2 c2 d2 a3 b3 c3 d3 a4 b4 c4 d4 +
  tr5N1_4 c1 d1 a2 b2 c2 d2 a3 b3 c3 d3 a4 b4 c4 d4 +
  tr5N1_5 c1 d1 b2 c2 d2 a3 b3 c3 d3 a4 b4 c4 d4 +
  tr5N1_6 c1 d1 b2 c2 d2 a3 b3 c3 d3 a4 b4 c4 d4 +
  tr5N1_7 c1 d1 b2 c2 d2 b3 c3 d3 a4 c4 d4 x +
  tr5N1_8 c1 d1 b4 c4 d4 x

/-- Terms 1 to 16 of `tr5D1`. -/
def tr5D1_1 (c1 d1 a2 b2 c2 d2 a3 b3 c3 d3 b4 c4 d4 : K) : K :=
  a2 ^ 2 * b3 * b4 * c1 ^ 2 * c3 * d2 ^ 2 * d4 - a2 ^ 2 * b3 * b4 * c1 ^ 2 * c4 * d2 ^ 2 * d3 -
  2 * a2 ^ 2 * b3 * b4 * c1 * c2 * c3 * d1 * d2 * d4 + 2 * a2 ^ 2 * b3 * b4 * c1 * c2 * c4 * d1 * d2 * d3 +
  a2 ^ 2 * b3 * b4 * c2 ^ 2 * c3 * d1 ^ 2 * d4 - a2 ^ 2 * b3 * b4 * c2 ^ 2 * c4 * d1 ^ 2 * d3 -
  a2 * a3 * b2 * b4 * c1 ^ 2 * c3 * d2 ^ 2 * d4 + a2 * a3 * b2 * b4 * c1 ^ 2 * c4 * d2 ^ 2 * d3 +
  2 * a2 * a3 * b2 * b4 * c1 * c2 * c3 * d1 * d2 * d4 - 2 * a2 * a3 * b2 * b4 * c1 * c2 * c4 * d1 * d2 * d3 -
  a2 * a3 * b2 * b4 * c2 ^ 2 * c3 * d1 ^ 2 * d4 + a2 * a3 * b2 * b4 * c2 ^ 2 * c4 * d1 ^ 2 * d3 +
  a2 * a3 * b3 * b4 * c1 ^ 2 * c2 * d3 ^ 2 * d4 - a2 * a3 * b3 * b4 * c1 ^ 2 * c4 * d2 * d3 ^ 2 -
  2 * a2 * a3 * b3 * b4 * c1 * c2 * c3 * d1 * d3 * d4 + 2 * a2 * a3 * b3 * b4 * c1 * c3 * c4 * d1 * d2 * d3

/-- Terms 17 to 32 of `tr5D1`. -/
def tr5D1_2 (c1 d1 a2 b2 c2 d2 a3 b3 c3 d3 a4 b4 c4 d4 : K) : K :=
  a2 * a3 * b3 * b4 * c2 * c3 ^ 2 * d1 ^ 2 * d4 - a2 * a3 * b3 * b4 * c3 ^ 2 * c4 * d1 ^ 2 * d2 +
  a2 * a3 * b4 ^ 2 * c1 ^ 2 * c2 * d3 * d4 ^ 2 - a2 * a3 * b4 ^ 2 * c1 ^ 2 * c3 * d2 * d4 ^ 2 -
  2 * a2 * a3 * b4 ^ 2 * c1 * c2 * c4 * d1 * d3 * d4 + 2 * a2 * a3 * b4 ^ 2 * c1 * c3 * c4 * d1 * d2 * d4 +
  a2 * a3 * b4 ^ 2 * c2 * c4 ^ 2 * d1 ^ 2 * d3 - a2 * a3 * b4 ^ 2 * c3 * c4 ^ 2 * d1 ^ 2 * d2 -
  a2 * a4 * b2 * b3 * c1 ^ 2 * c3 * d2 ^ 2 * d4 + a2 * a4 * b2 * b3 * c1 ^ 2 * c4 * d2 ^ 2 * d3 +
  2 * a2 * a4 * b2 * b3 * c1 * c2 * c3 * d1 * d2 * d4 - 2 * a2 * a4 * b2 * b3 * c1 * c2 * c4 * d1 * d2 * d3 -
  a2 * a4 * b2 * b3 * c2 ^ 2 * c3 * d1 ^ 2 * d4 + a2 * a4 * b2 * b3 * c2 ^ 2 * c4 * d1 ^ 2 * d3 -
  a2 * a4 * b3 ^ 2 * c1 ^ 2 * c2 * d3 ^ 2 * d4 + a2 * a4 * b3 ^ 2 * c1 ^ 2 * c4 * d2 * d3 ^ 2

/-- Terms 33 to 48 of `tr5D1`. -/
def tr5D1_3 (c1 d1 a2 b2 c2 d2 a3 b3 c3 d3 a4 b4 c4 d4 : K) : K :=
  2 * a2 * a4 * b3 ^ 2 * c1 * c2 * c3 * d1 * d3 * d4 - 2 * a2 * a4 * b3 ^ 2 * c1 * c3 * c4 * d1 * d2 * d3 -
  a2 * a4 * b3 ^ 2 * c2 * c3 ^ 2 * d1 ^ 2 * d4 + a2 * a4 * b3 ^ 2 * c3 ^ 2 * c4 * d1 ^ 2 * d2 -
  a2 * a4 * b3 * b4 * c1 ^ 2 * c2 * d3 * d4 ^ 2 + a2 * a4 * b3 * b4 * c1 ^ 2 * c3 * d2 * d4 ^ 2 +
  2 * a2 * a4 * b3 * b4 * c1 * c2 * c4 * d1 * d3 * d4 - 2 * a2 * a4 * b3 * b4 * c1 * c3 * c4 * d1 * d2 * d4 -
  a2 * a4 * b3 * b4 * c2 * c4 ^ 2 * d1 ^ 2 * d3 + a2 * a4 * b3 * b4 * c3 * c4 ^ 2 * d1 ^ 2 * d2 -
  a3 ^ 2 * b2 * b4 * c1 ^ 2 * c2 * d3 ^ 2 * d4 + a3 ^ 2 * b2 * b4 * c1 ^ 2 * c4 * d2 * d3 ^ 2 +
  2 * a3 ^ 2 * b2 * b4 * c1 * c2 * c3 * d1 * d3 * d4 - 2 * a3 ^ 2 * b2 * b4 * c1 * c3 * c4 * d1 * d2 * d3 -
  a3 ^ 2 * b2 * b4 * c2 * c3 ^ 2 * d1 ^ 2 * d4 + a3 ^ 2 * b2 * b4 * c3 ^ 2 * c4 * d1 ^ 2 * d2

/-- Terms 49 to 64 of `tr5D1`. -/
def tr5D1_4 (c1 d1 b2 c2 d2 a3 b3 c3 d3 a4 b4 c4 d4 : K) : K :=
  a3 * a4 * b2 ^ 2 * c1 ^ 2 * c3 * d2 ^ 2 * d4 - a3 * a4 * b2 ^ 2 * c1 ^ 2 * c4 * d2 ^ 2 * d3 -
  2 * a3 * a4 * b2 ^ 2 * c1 * c2 * c3 * d1 * d2 * d4 + 2 * a3 * a4 * b2 ^ 2 * c1 * c2 * c4 * d1 * d2 * d3 +
  a3 * a4 * b2 ^ 2 * c2 ^ 2 * c3 * d1 ^ 2 * d4 - a3 * a4 * b2 ^ 2 * c2 ^ 2 * c4 * d1 ^ 2 * d3 +
  a3 * a4 * b2 * b3 * c1 ^ 2 * c2 * d3 ^ 2 * d4 - a3 * a4 * b2 * b3 * c1 ^ 2 * c4 * d2 * d3 ^ 2 -
  2 * a3 * a4 * b2 * b3 * c1 * c2 * c3 * d1 * d3 * d4 + 2 * a3 * a4 * b2 * b3 * c1 * c3 * c4 * d1 * d2 * d3 +
  a3 * a4 * b2 * b3 * c2 * c3 ^ 2 * d1 ^ 2 * d4 - a3 * a4 * b2 * b3 * c3 ^ 2 * c4 * d1 ^ 2 * d2 -
  a3 * a4 * b2 * b4 * c1 ^ 2 * c2 * d3 * d4 ^ 2 + a3 * a4 * b2 * b4 * c1 ^ 2 * c3 * d2 * d4 ^ 2 +
  2 * a3 * a4 * b2 * b4 * c1 * c2 * c4 * d1 * d3 * d4 - 2 * a3 * a4 * b2 * b4 * c1 * c3 * c4 * d1 * d2 * d4

/-- Terms 65 to 72 of `tr5D1`. -/
def tr5D1_5 (c1 d1 b2 c2 d2 a3 b3 c3 d3 a4 b4 c4 d4 : K) : K :=
  -a3 * a4 * b2 * b4 * c2 * c4 ^ 2 * d1 ^ 2 * d3 + a3 * a4 * b2 * b4 * c3 * c4 ^ 2 * d1 ^ 2 * d2 +
  a4 ^ 2 * b2 * b3 * c1 ^ 2 * c2 * d3 * d4 ^ 2 - a4 ^ 2 * b2 * b3 * c1 ^ 2 * c3 * d2 * d4 ^ 2 -
  2 * a4 ^ 2 * b2 * b3 * c1 * c2 * c4 * d1 * d3 * d4 + 2 * a4 ^ 2 * b2 * b3 * c1 * c3 * c4 * d1 * d2 * d4 +
  a4 ^ 2 * b2 * b3 * c2 * c4 ^ 2 * d1 ^ 2 * d3 - a4 ^ 2 * b2 * b3 * c3 * c4 ^ 2 * d1 ^ 2 * d2

/-- Denominator on line 493 of particles_set.py. -/
def tr5D1 (c1 d1 a2 b2 c2 d2 a3 b3 c3 d3 a4 b4 c4 d4 : K) : K :=
  tr5D1_1 c1 d1 a2 b2 c2 d2 a3 b3 c3 d3 b4 c4 d4 +
  tr5D1_2 c1 d1 a2 b2 c2 d2 a3 b3 c3 d3 a4 b4 c4 d4 +
  tr5D1_3 c1 d1 a2 b2 c2 d2 a3 b3 c3 d3 a4 b4 c4 d4 +
  tr5D1_4 c1 d1 b2 c2 d2 a3 b3 c3 d3 a4 b4 c4 d4 +
  tr5D1_5 c1 d1 b2 c2 d2 a3 b3 c3 d3 a4 b4 c4 d4

/-- Terms 1 to 16 of `tr5N2`. -/
def tr5N2_1 (b1 c1 d1 a2 b2 c2 d2 a3 b3 c3 d3 b4 c4 d4 : K) : K :=
  a2 ^ 2 * b1 * b3 * b4 * c1 * c3 * d2 ^ 2 * d4 - a2 ^ 2 * b1 * b3 * b4 * c1 * c4 * d2 ^ 2 * d3 -
  a2 ^ 2 * b1 * b3 * b4 * c2 * c3 * d1 * d2 * d4 + a2 ^ 2 * b1 * b3 * b4 * c2 * c4 * d1 * d2 * d3 -
  a2 ^ 2 * b3 ^ 2 * b4 * c2 * c3 * d2 * d3 * d4 + a2 ^ 2 * b3 ^ 2 * b4 * c2 * c4 * d2 * d3 ^ 2 +
  a2 ^ 2 * b3 ^ 2 * b4 * c3 ^ 2 * d2 ^ 2 * d4 - a2 ^ 2 * b3 ^ 2 * b4 * c3 * c4 * d2 ^ 2 * d3 -
  a2 ^ 2 * b3 * b4 ^ 2 * c2 * c3 * d2 * d4 ^ 2 + a2 ^ 2 * b3 * b4 ^ 2 * c2 * c4 * d2 * d3 * d4 +
  a2 ^ 2 * b3 * b4 ^ 2 * c3 * c4 * d2 ^ 2 * d4 - a2 ^ 2 * b3 * b4 ^ 2 * c4 ^ 2 * d2 ^ 2 * d3 -
  a2 * a3 * b1 * b2 * b4 * c1 * c3 * d2 ^ 2 * d4 + a2 * a3 * b1 * b2 * b4 * c1 * c4 * d2 ^ 2 * d3 +
  a2 * a3 * b1 * b2 * b4 * c2 ^ 2 * d1 * d3 * d4 - 2 * a2 * a3 * b1 * b2 * b4 * c2 * c4 * d1 * d2 * d3

/-- Terms 17 to 32 of `tr5N2`. -/
def tr5N2_2 (b1 c1 d1 a2 b2 c2 d2 a3 b3 c3 d3 b4 c4 d4 : K) : K :=
  a2 * a3 * b1 * b2 * b4 * c3 * c4 * d1 * d2 ^ 2 + a2 * a3 * b1 * b3 * b4 * c1 * c2 * d3 ^ 2 * d4 -
  a2 * a3 * b1 * b3 * b4 * c1 * c4 * d2 * d3 ^ 2 - a2 * a3 * b1 * b3 * b4 * c2 * c4 * d1 * d3 ^ 2 -
  a2 * a3 * b1 * b3 * b4 * c3 ^ 2 * d1 * d2 * d4 + 2 * a2 * a3 * b1 * b3 * b4 * c3 * c4 * d1 * d2 * d3 +
  a2 * a3 * b1 * b4 ^ 2 * c1 * c2 * d3 * d4 ^ 2 - a2 * a3 * b1 * b4 ^ 2 * c1 * c3 * d2 * d4 ^ 2 -
  a2 * a3 * b1 * b4 ^ 2 * c2 * c4 * d1 * d3 * d4 + a2 * a3 * b1 * b4 ^ 2 * c3 * c4 * d1 * d2 * d4 +
  a2 * a3 * b2 * b3 * b4 * c2 ^ 2 * d3 ^ 2 * d4 - 2 * a2 * a3 * b2 * b3 * b4 * c2 * c4 * d2 * d3 ^ 2 -
  a2 * a3 * b2 * b3 * b4 * c3 ^ 2 * d2 ^ 2 * d4 + 2 * a2 * a3 * b2 * b3 * b4 * c3 * c4 * d2 ^ 2 * d3 +
  a2 * a3 * b2 * b4 ^ 2 * c2 ^ 2 * d3 * d4 ^ 2 - 2 * a2 * a3 * b2 * b4 ^ 2 * c2 * c4 * d2 * d3 * d4

/-- Terms 33 to 48 of `tr5N2`. -/
def tr5N2_3 (b1 c1 d1 a2 b2 c2 d2 a3 b3 c3 d3 a4 b4 c4 d4 : K) : K :=
  a2 * a3 * b2 * b4 ^ 2 * c4 ^ 2 * d2 ^ 2 * d3 - a2 * a3 * b3 * b4 ^ 2 * c3 ^ 2 * d2 * d4 ^ 2 +
  2 * a2 * a3 * b3 * b4 ^ 2 * c3 * c4 * d2 * d3 * d4 - a2 * a3 * b3 * b4 ^ 2 * c4 ^ 2 * d2 * d3 ^ 2 -
  a2 * a4 * b1 * b2 * b3 * c1 * c3 * d2 ^ 2 * d4 + a2 * a4 * b1 * b2 * b3 * c1 * c4 * d2 ^ 2 * d3 -
  a2 * a4 * b1 * b2 * b3 * c2 ^ 2 * d1 * d3 * d4 + 2 * a2 * a4 * b1 * b2 * b3 * c2 * c3 * d1 * d2 * d4 -
  a2 * a4 * b1 * b2 * b3 * c3 * c4 * d1 * d2 ^ 2 - a2 * a4 * b1 * b3 ^ 2 * c1 * c2 * d3 ^ 2 * d4 +
  a2 * a4 * b1 * b3 ^ 2 * c1 * c4 * d2 * d3 ^ 2 + a2 * a4 * b1 * b3 ^ 2 * c2 * c3 * d1 * d3 * d4 -
  a2 * a4 * b1 * b3 ^ 2 * c3 * c4 * d1 * d2 * d3 - a2 * a4 * b1 * b3 * b4 * c1 * c2 * d3 * d4 ^ 2 +
  a2 * a4 * b1 * b3 * b4 * c1 * c3 * d2 * d4 ^ 2 + a2 * a4 * b1 * b3 * b4 * c2 * c3 * d1 * d4 ^ 2

/-- Terms 49 to 64 of `tr5N2`. -/
def tr5N2_4 (b1 c1 d1 a2 b2 c2 d2 a3 b3 c3 d3 a4 b4 c4 d4 : K) : K :=
  -2 * a2 * a4 * b1 * b3 * b4 * c3 * c4 * d1 * d2 * d4 + a2 * a4 * b1 * b3 * b4 * c4 ^ 2 * d1 * d2 * d3 -
  a2 * a4 * b2 * b3 ^ 2 * c2 ^ 2 * d3 ^ 2 * d4 + 2 * a2 * a4 * b2 * b3 ^ 2 * c2 * c3 * d2 * d3 * d4 -
  a2 * a4 * b2 * b3 ^ 2 * c3 ^ 2 * d2 ^ 2 * d4 - a2 * a4 * b2 * b3 * b4 * c2 ^ 2 * d3 * d4 ^ 2 +
  2 * a2 * a4 * b2 * b3 * b4 * c2 * c3 * d2 * d4 ^ 2 - 2 * a2 * a4 * b2 * b3 * b4 * c3 * c4 * d2 ^ 2 * d4 +
  a2 * a4 * b2 * b3 * b4 * c4 ^ 2 * d2 ^ 2 * d3 + a2 * a4 * b3 ^ 2 * b4 * c3 ^ 2 * d2 * d4 ^ 2 -
  2 * a2 * a4 * b3 ^ 2 * b4 * c3 * c4 * d2 * d3 * d4 + a2 * a4 * b3 ^ 2 * b4 * c4 ^ 2 * d2 * d3 ^ 2 -
  a3 ^ 2 * b1 * b2 * b4 * c1 * c2 * d3 ^ 2 * d4 + a3 ^ 2 * b1 * b2 * b4 * c1 * c4 * d2 * d3 ^ 2 +
  a3 ^ 2 * b1 * b2 * b4 * c2 * c3 * d1 * d3 * d4 - a3 ^ 2 * b1 * b2 * b4 * c3 * c4 * d1 * d2 * d3

/-- Terms 65 to 80 of `tr5N2`. -/
def tr5N2_5 (b1 c1 d1 b2 c2 d2 a3 b3 c3 d3 a4 b4 c4 d4 : K) : K :=
  -a3 ^ 2 * b2 ^ 2 * b4 * c2 ^ 2 * d3 ^ 2 * d4 + a3 ^ 2 * b2 ^ 2 * b4 * c2 * c3 * d2 * d3 * d4 +
  a3 ^ 2 * b2 ^ 2 * b4 * c2 * c4 * d2 * d3 ^ 2 - a3 ^ 2 * b2 ^ 2 * b4 * c3 * c4 * d2 ^ 2 * d3 +
  a3 ^ 2 * b2 * b4 ^ 2 * c2 * c3 * d3 * d4 ^ 2 - a3 ^ 2 * b2 * b4 ^ 2 * c2 * c4 * d3 ^ 2 * d4 -
  a3 ^ 2 * b2 * b4 ^ 2 * c3 * c4 * d2 * d3 * d4 + a3 ^ 2 * b2 * b4 ^ 2 * c4 ^ 2 * d2 * d3 ^ 2 +
  a3 * a4 * b1 * b2 ^ 2 * c1 * c3 * d2 ^ 2 * d4 - a3 * a4 * b1 * b2 ^ 2 * c1 * c4 * d2 ^ 2 * d3 -
  a3 * a4 * b1 * b2 ^ 2 * c2 * c3 * d1 * d2 * d4 + a3 * a4 * b1 * b2 ^ 2 * c2 * c4 * d1 * d2 * d3 +
  a3 * a4 * b1 * b2 * b3 * c1 * c2 * d3 ^ 2 * d4 - a3 * a4 * b1 * b2 * b3 * c1 * c4 * d2 * d3 ^ 2 -
  2 * a3 * a4 * b1 * b2 * b3 * c2 * c3 * d1 * d3 * d4 + a3 * a4 * b1 * b2 * b3 * c2 * c4 * d1 * d3 ^ 2

/-- Terms 81 to 96 of `tr5N2`. -/
def tr5N2_6 (b1 c1 d1 b2 c2 d2 a3 b3 c3 d3 a4 b4 c4 d4 : K) : K :=
  a3 * a4 * b1 * b2 * b3 * c3 ^ 2 * d1 * d2 * d4 - a3 * a4 * b1 * b2 * b4 * c1 * c2 * d3 * d4 ^ 2 +
  a3 * a4 * b1 * b2 * b4 * c1 * c3 * d2 * d4 ^ 2 - a3 * a4 * b1 * b2 * b4 * c2 * c3 * d1 * d4 ^ 2 +
  2 * a3 * a4 * b1 * b2 * b4 * c2 * c4 * d1 * d3 * d4 - a3 * a4 * b1 * b2 * b4 * c4 ^ 2 * d1 * d2 * d3 +
  a3 * a4 * b2 ^ 2 * b3 * c2 ^ 2 * d3 ^ 2 * d4 - 2 * a3 * a4 * b2 ^ 2 * b3 * c2 * c3 * d2 * d3 * d4 +
  a3 * a4 * b2 ^ 2 * b3 * c3 ^ 2 * d2 ^ 2 * d4 - a3 * a4 * b2 ^ 2 * b4 * c2 ^ 2 * d3 * d4 ^ 2 +
  2 * a3 * a4 * b2 ^ 2 * b4 * c2 * c4 * d2 * d3 * d4 - a3 * a4 * b2 ^ 2 * b4 * c4 ^ 2 * d2 ^ 2 * d3 -
  2 * a3 * a4 * b2 * b3 * b4 * c2 * c3 * d3 * d4 ^ 2 + 2 * a3 * a4 * b2 * b3 * b4 * c2 * c4 * d3 ^ 2 * d4 +
  a3 * a4 * b2 * b3 * b4 * c3 ^ 2 * d2 * d4 ^ 2 - a3 * a4 * b2 * b3 * b4 * c4 ^ 2 * d2 * d3 ^ 2

/-- Terms 97 to 111 of `tr5N2`. -/
def tr5N2_7 (b1 c1 d1 b2 c2 d2 b3 c3 d3 a4 b4 c4 d4 x : K) : K :=
  a4 ^ 2 * b1 * b2 * b3 * c1 * c2 * d3 * d4 ^ 2 - a4 ^ 2 * b1 * b2 * b3 * c1 * c3 * d2 * d4 ^ 2 -
  a4 ^ 2 * b1 * b2 * b3 * c2 * c4 * d1 * d3 * d4 + a4 ^ 2 * b1 * b2 * b3 * c3 * c4 * d1 * d2 * d4 +
  a4 ^ 2 * b2 ^ 2 * b3 * c2 ^ 2 * d3 * d4 ^ 2 - a4 ^ 2 * b2 ^ 2 * b3 * c2 * c3 * d2 * d4 ^ 2 -
  a4 ^ 2 * b2 ^ 2 * b3 * c2 * c4 * d2 * d3 * d4 + a4 ^ 2 * b2 ^ 2 * b3 * c3 * c4 * d2 ^ 2 * d4 +
  a4 ^ 2 * b2 * b3 ^ 2 * c2 * c3 * d3 * d4 ^ 2 - a4 ^ 2 * b2 * b3 ^ 2 * c2 * c4 * d3 ^ 2 * d4 -
  a4 ^ 2 * b2 * b3 ^ 2 * c3 ^ 2 * d2 * d4 ^ 2 + a4 ^ 2 * b2 * b3 ^ 2 * c3 * c4 * d2 * d3 * d4 + b2 * d2 * x/4 +
  b3 * d3 * x/4 + b4 * d4 * x/4

/-- Numerator on line 494 of particles_set.py. -/
def tr5N2 (b1 c1 d1 a2 b2 c2 d2 a3 b3 c3 d3 a4 b4 c4 d4 x : K) : K :=
  tr5N2_1 b1 c1 d1 a2 b2 c2 d2 a3 b3 c3 d3 b4 c4 d4 +
  tr5N2_2 b1 c1 d1 a2 b2 c2 d2 a3 b3 c3 d3 b4 c4 d4 +
  tr5N2_3 b1 c1 d1 a2 b2 c2 d2 a3 b3 c3 d3 a4 b4 c4 d4 +
  tr5N2_4 b1 c1 d1 a2 b2 c2 d2 a3 b3 c3 d3 a4 b4 c4 d4 +
  tr5N2_5 b1 c1 d1 b2 c2 d2 a3 b3 c3 d3 a4 b4 c4 d4 +
  tr5N2_6 b1 c1 d1 b2 c2 d2 a3 b3 c3 d3 a4 b4 c4 d4 +
  tr5N2_7 b1 c1 d1 b2 c2 d2 b3 c3 d3 a4 b4 c4 d4 x

/-- Terms 1 to 16 of `tr5D2`. -/
def tr5D2_1 (a2 b2 c2 d2 a3 b3 c3 d3 b4 c4 d4 : K) : K :=
  a2 * b3 ^ 2 * b4 * c2 * c3 * d3 * d4 - a2 * b3 ^ 2 * b4 * c2 * c4 * d3 ^ 2 - a2 * b3 ^ 2 * b4 * c3 ^ 2 * d2 * d4 +
  a2 * b3 ^ 2 * b4 * c3 * c4 * d2 * d3 + a2 * b3 * b4 ^ 2 * c2 * c3 * d4 ^ 2 - a2 * b3 * b4 ^ 2 * c2 * c4 * d3 * d4 -
  a2 * b3 * b4 ^ 2 * c3 * c4 * d2 * d4 + a2 * b3 * b4 ^ 2 * c4 ^ 2 * d2 * d3 + a3 * b2 ^ 2 * b4 * c2 ^ 2 * d3 * d4 -
  a3 * b2 ^ 2 * b4 * c2 * c3 * d2 * d4 - a3 * b2 ^ 2 * b4 * c2 * c4 * d2 * d3 + a3 * b2 ^ 2 * b4 * c3 * c4 * d2 ^ 2 -
  a3 * b2 * b4 ^ 2 * c2 * c3 * d4 ^ 2 + a3 * b2 * b4 ^ 2 * c2 * c4 * d3 * d4 + a3 * b2 * b4 ^ 2 * c3 * c4 * d2 * d4 -
  a3 * b2 * b4 ^ 2 * c4 ^ 2 * d2 * d3

/-- Terms 17 to 24 of `tr5D2`. -/
def tr5D2_2 (b2 c2 d2 b3 c3 d3 a4 c4 d4 : K) : K :=
  -a4 * b2 ^ 2 * b3 * c2 ^ 2 * d3 * d4 + a4 * b2 ^ 2 * b3 * c2 * c3 * d2 * d4 + a4 * b2 ^ 2 * b3 * c2 * c4 * d2 * d3 -
  a4 * b2 ^ 2 * b3 * c3 * c4 * d2 ^ 2 - a4 * b2 * b3 ^ 2 * c2 * c3 * d3 * d4 + a4 * b2 * b3 ^ 2 * c2 * c4 * d3 ^ 2 +
  a4 * b2 * b3 ^ 2 * c3 ^ 2 * d2 * d4 - a4 * b2 * b3 ^ 2 * c3 * c4 * d2 * d3

/-- Denominator on line 494 of particles_set.py. -/
def tr5D2 (a2 b2 c2 d2 a3 b3 c3 d3 a4 b4 c4 d4 : K) : K :=
  tr5D2_1 a2 b2 c2 d2 a3 b3 c3 d3 b4 c4 d4 +
  tr5D2_2 b2 c2 d2 b3 c3 d3 a4 c4 d4

/-- Terms 1 to 16 of `tr5N3`. -/
def tr5N3_1 (c1 d1 a2 b2 c2 d2 a3 b3 c3 d3 b4 c4 d4 : K) : K :=
  -4 * a2 ^ 2 * b3 * b4 * c1 * c2 * c3 * d2 * d4 + 4 * a2 ^ 2 * b3 * b4 * c1 * c2 * c4 * d2 * d3 +
  4 * a2 ^ 2 * b3 * b4 * c2 ^ 2 * c3 * d1 * d4 - 4 * a2 ^ 2 * b3 * b4 * c2 ^ 2 * c4 * d1 * d3 +
  4 * a2 * a3 * b2 * b4 * c1 * c2 * c3 * d2 * d4 - 4 * a2 * a3 * b2 * b4 * c1 * c2 * c4 * d2 * d3 -
  4 * a2 * a3 * b2 * b4 * c2 ^ 2 * c3 * d1 * d4 + 4 * a2 * a3 * b2 * b4 * c2 ^ 2 * c4 * d1 * d3 -
  4 * a2 * a3 * b3 * b4 * c1 * c2 * c3 * d3 * d4 + 4 * a2 * a3 * b3 * b4 * c1 * c3 * c4 * d2 * d3 +
  4 * a2 * a3 * b3 * b4 * c2 * c3 ^ 2 * d1 * d4 - 4 * a2 * a3 * b3 * b4 * c3 ^ 2 * c4 * d1 * d2 -
  4 * a2 * a3 * b4 ^ 2 * c1 * c2 * c4 * d3 * d4 + 4 * a2 * a3 * b4 ^ 2 * c1 * c3 * c4 * d2 * d4 +
  4 * a2 * a3 * b4 ^ 2 * c2 * c4 ^ 2 * d1 * d3 - 4 * a2 * a3 * b4 ^ 2 * c3 * c4 ^ 2 * d1 * d2

/-- Terms 17 to 32 of `tr5N3`. -/
def tr5N3_2 (c1 d1 a2 b2 c2 d2 a3 b3 c3 d3 a4 b4 c4 d4 : K) : K :=
  4 * a2 * a4 * b2 * b3 * c1 * c2 * c3 * d2 * d4 - 4 * a2 * a4 * b2 * b3 * c1 * c2 * c4 * d2 * d3 -
  4 * a2 * a4 * b2 * b3 * c2 ^ 2 * c3 * d1 * d4 + 4 * a2 * a4 * b2 * b3 * c2 ^ 2 * c4 * d1 * d3 +
  4 * a2 * a4 * b3 ^ 2 * c1 * c2 * c3 * d3 * d4 - 4 * a2 * a4 * b3 ^ 2 * c1 * c3 * c4 * d2 * d3 -
  4 * a2 * a4 * b3 ^ 2 * c2 * c3 ^ 2 * d1 * d4 + 4 * a2 * a4 * b3 ^ 2 * c3 ^ 2 * c4 * d1 * d2 +
  4 * a2 * a4 * b3 * b4 * c1 * c2 * c4 * d3 * d4 - 4 * a2 * a4 * b3 * b4 * c1 * c3 * c4 * d2 * d4 -
  4 * a2 * a4 * b3 * b4 * c2 * c4 ^ 2 * d1 * d3 + 4 * a2 * a4 * b3 * b4 * c3 * c4 ^ 2 * d1 * d2 +
  4 * a3 ^ 2 * b2 * b4 * c1 * c2 * c3 * d3 * d4 - 4 * a3 ^ 2 * b2 * b4 * c1 * c3 * c4 * d2 * d3 -
  4 * a3 ^ 2 * b2 * b4 * c2 * c3 ^ 2 * d1 * d4 + 4 * a3 ^ 2 * b2 * b4 * c3 ^ 2 * c4 * d1 * d2

/-- Terms 33 to 48 of `tr5N3`. -/
def tr5N3_3 (c1 d1 b2 c2 d2 a3 b3 c3 d3 a4 b4 c4 d4 : K) : K :=
  -4 * a3 * a4 * b2 ^ 2 * c1 * c2 * c3 * d2 * d4 + 4 * a3 * a4 * b2 ^ 2 * c1 * c2 * c4 * d2 * d3 +
  4 * a3 * a4 * b2 ^ 2 * c2 ^ 2 * c3 * d1 * d4 - 4 * a3 * a4 * b2 ^ 2 * c2 ^ 2 * c4 * d1 * d3 -
  4 * a3 * a4 * b2 * b3 * c1 * c2 * c3 * d3 * d4 + 4 * a3 * a4 * b2 * b3 * c1 * c3 * c4 * d2 * d3 +
  4 * a3 * a4 * b2 * b3 * c2 * c3 ^ 2 * d1 * d4 - 4 * a3 * a4 * b2 * b3 * c3 ^ 2 * c4 * d1 * d2 +
  4 * a3 * a4 * b2 * b4 * c1 * c2 * c4 * d3 * d4 - 4 * a3 * a4 * b2 * b4 * c1 * c3 * c4 * d2 * d4 -
  4 * a3 * a4 * b2 * b4 * c2 * c4 ^ 2 * d1 * d3 + 4 * a3 * a4 * b2 * b4 * c3 * c4 ^ 2 * d1 * d2 -
  4 * a4 ^ 2 * b2 * b3 * c1 * c2 * c4 * d3 * d4 + 4 * a4 ^ 2 * b2 * b3 * c1 * c3 * c4 * d2 * d4 +
  4 * a4 ^ 2 * b2 * b3 * c2 * c4 ^ 2 * d1 * d3 - 4 * a4 ^ 2 * b2 * b3 * c3 * c4 ^ 2 * d1 * d2

/-- Terms 49 to 49 of `tr5N3`. -/
def tr5N3_4 (c1 x : K) : K :=
  c1 * x

/-- Numerator on line 495 of particles_set.py. -/
def tr5N3 (c1 d1 a2 b2 c2 d2 a3 b3 c3 d3 a4 b4 c4 d4 x : K) : K :=
  tr5N3_1 c1 d1 a2 b2 c2 d2 a3 b3 c3 d3 b4 c4 d4 +
  tr5N3_2 c1 d1 a2 b2 c2 d2 a3 b3 c3 d3 a4 b4 c4 d4 +
  tr5N3_3 c1 d1 b2 c2 d2 a3 b3 c3 d3 a4 b4 c4 d4 +
  tr5N3_4 c1 x

/-- Terms 1 to 16 of `tr5D3`. -/
def tr5D3_1 (c1 d1 a2 b2 c2 d2 a3 b3 c3 d3 b4 c4 d4 : K) : K :=
  -4 * a2 ^ 2 * b3 * b4 * c1 * c3 * d2 ^ 2 * d4 + 4 * a2 ^ 2 * b3 * b4 * c1 * c4 * d2 ^ 2 * d3 +
  4 * a2 ^ 2 * b3 * b4 * c2 * c3 * d1 * d2 * d4 - 4 * a2 ^ 2 * b3 * b4 * c2 * c4 * d1 * d2 * d3 +
  4 * a2 * a3 * b2 * b4 * c1 * c3 * d2 ^ 2 * d4 - 4 * a2 * a3 * b2 * b4 * c1 * c4 * d2 ^ 2 * d3 -
  4 * a2 * a3 * b2 * b4 * c2 * c3 * d1 * d2 * d4 + 4 * a2 * a3 * b2 * b4 * c2 * c4 * d1 * d2 * d3 -
  4 * a2 * a3 * b3 * b4 * c1 * c2 * d3 ^ 2 * d4 + 4 * a2 * a3 * b3 * b4 * c1 * c4 * d2 * d3 ^ 2 +
  4 * a2 * a3 * b3 * b4 * c2 * c3 * d1 * d3 * d4 - 4 * a2 * a3 * b3 * b4 * c3 * c4 * d1 * d2 * d3 -
  4 * a2 * a3 * b4 ^ 2 * c1 * c2 * d3 * d4 ^ 2 + 4 * a2 * a3 * b4 ^ 2 * c1 * c3 * d2 * d4 ^ 2 +
  4 * a2 * a3 * b4 ^ 2 * c2 * c4 * d1 * d3 * d4 - 4 * a2 * a3 * b4 ^ 2 * c3 * c4 * d1 * d2 * d4

/-- Terms 17 to 32 of `tr5D3`. -/
def tr5D3_2 (c1 d1 a2 b2 c2 d2 a3 b3 c3 d3 a4 b4 c4 d4 : K) : K :=
  4 * a2 * a4 * b2 * b3 * c1 * c3 * d2 ^ 2 * d4 - 4 * a2 * a4 * b2 * b3 * c1 * c4 * d2 ^ 2 * d3 -
  4 * a2 * a4 * b2 * b3 * c2 * c3 * d1 * d2 * d4 + 4 * a2 * a4 * b2 * b3 * c2 * c4 * d1 * d2 * d3 +
  4 * a2 * a4 * b3 ^ 2 * c1 * c2 * d3 ^ 2 * d4 - 4 * a2 * a4 * b3 ^ 2 * c1 * c4 * d2 * d3 ^ 2 -
  4 * a2 * a4 * b3 ^ 2 * c2 * c3 * d1 * d3 * d4 + 4 * a2 * a4 * b3 ^ 2 * c3 * c4 * d1 * d2 * d3 +
  4 * a2 * a4 * b3 * b4 * c1 * c2 * d3 * d4 ^ 2 - 4 * a2 * a4 * b3 * b4 * c1 * c3 * d2 * d4 ^ 2 -
  4 * a2 * a4 * b3 * b4 * c2 * c4 * d1 * d3 * d4 + 4 * a2 * a4 * b3 * b4 * c3 * c4 * d1 * d2 * d4 +
  4 * a3 ^ 2 * b2 * b4 * c1 * c2 * d3 ^ 2 * d4 - 4 * a3 ^ 2 * b2 * b4 * c1 * c4 * d2 * d3 ^ 2 -
  4 * a3 ^ 2 * b2 * b4 * c2 * c3 * d1 * d3 * d4 + 4 * a3 ^ 2 * b2 * b4 * c3 * c4 * d1 * d2 * d3

/-- Terms 33 to 48 of `tr5D3`. -/
def tr5D3_3 (c1 d1 b2 c2 d2 a3 b3 c3 d3 a4 b4 c4 d4 : K) : K :=
  -4 * a3 * a4 * b2 ^ 2 * c1 * c3 * d2 ^ 2 * d4 + 4 * a3 * a4 * b2 ^ 2 * c1 * c4 * d2 ^ 2 * d3 +
  4 * a3 * a4 * b2 ^ 2 * c2 * c3 * d1 * d2 * d4 - 4 * a3 * a4 * b2 ^ 2 * c2 * c4 * d1 * d2 * d3 -
  4 * a3 * a4 * b2 * b3 * c1 * c2 * d3 ^ 2 * d4 + 4 * a3 * a4 * b2 * b3 * c1 * c4 * d2 * d3 ^ 2 +
  4 * a3 * a4 * b2 * b3 * c2 * c3 * d1 * d3 * d4 - 4 * a3 * a4 * b2 * b3 * c3 * c4 * d1 * d2 * d3 +
  4 * a3 * a4 * b2 * b4 * c1 * c2 * d3 * d4 ^ 2 - 4 * a3 * a4 * b2 * b4 * c1 * c3 * d2 * d4 ^ 2 -
  4 * a3 * a4 * b2 * b4 * c2 * c4 * d1 * d3 * d4 + 4 * a3 * a4 * b2 * b4 * c3 * c4 * d1 * d2 * d4 -
  4 * a4 ^ 2 * b2 * b3 * c1 * c2 * d3 * d4 ^ 2 + 4 * a4 ^ 2 * b2 * b3 * c1 * c3 * d2 * d4 ^ 2 +
  4 * a4 ^ 2 * b2 * b3 * c2 * c4 * d1 * d3 * d4 - 4 * a4 ^ 2 * b2 * b3 * c3 * c4 * d1 * d2 * d4

/-- Terms 49 to 49 of `tr5D3`. -/
def tr5D3_4 (d1 x : K) : K :=
  d1 * x

/-- Denominator on line 495 of particles_set.py. -/
def tr5D3 (c1 d1 a2 b2 c2 d2 a3 b3 c3 d3 a4 b4 c4 d4 x : K) : K :=
  tr5D3_1 c1 d1 a2 b2 c2 d2 a3 b3 c3 d3 b4 c4 d4 +
  tr5D3_2 c1 d1 a2 b2 c2 d2 a3 b3 c3 d3 a4 b4 c4 d4 +
  tr5D3_3 c1 d1 b2 c2 d2 a3 b3 c3 d3 a4 b4 c4 d4 +
  tr5D3_4 d1 x

/-- The ten new components, lines 480-497: `(a1, b1)`, `(a5, b5)` and `(c5, d5)`. -/
noncomputable def tr5Solve (r l : Fin 5 → V2 K) (X : K) : Except Err (V2 K × V2 K × V2 K) :=
  let c1 := l 0 0; let d1 := l 0 1
  let a2 := r 1 0; let b2 := r 1 1; let c2 := l 1 0; let d2 := l 1 1
  let a3 := r 2 0; let b3 := r 2 1; let c3 := l 2 0; let d3 := l 2 1
  let a4 := r 3 0; let b4 := r 3 1; let c4 := l 3 0; let d4 := l 3 1
  let d5 := l 4 1
  let x := 4 * X
  match pyDiv (tr5N1 c1 d1 a2 b2 c2 d2 a3 b3 c3 d3 a4 b4 c4 d4 x) (tr5D1 c1 d1 a2 b2 c2 d2 a3 b3 c3 d3 a4 b4 c4 d4) with
  | .error e => .error e
  | .ok b1 =>
    match pyDiv (tr5N2 b1 c1 d1 a2 b2 c2 d2 a3 b3 c3 d3 a4 b4 c4 d4 x) (d1 * tr5D2 a2 b2 c2 d2 a3 b3 c3 d3 a4 b4 c4 d4) with
    | .error e => .error e
    | .ok a1 =>
      match pyDiv (d5 * tr5N3 c1 d1 a2 b2 c2 d2 a3 b3 c3 d3 a4 b4 c4 d4 x)
          (tr5D3 c1 d1 a2 b2 c2 d2 a3 b3 c3 d3 a4 b4 c4 d4 x) with
      | .error e => .error e
      | .ok c5 =>
        match pyDiv (-b1 * d1 - b2 * d2 - b3 * d3 - b4 * d4) d5 with
        | .error e => .error e
        | .ok b5 =>
          match pyDiv (b5 * (a2 * c1 * d2 - a2 * c2 * d1 + a3 * c1 * d3 - a3 * c3 * d1 + a4 * c1 * d4 - a4 * c4 * d1))
              (b2 * c1 * d2 - b2 * c2 * d1 + b3 * c1 * d3 - b3 * c3 * d1 + b4 * c1 * d4 - b4 * c4 * d1) with
          | .error e => .error e
          | .ok a5 => .ok (![a1, b1], ![a5, b5], ![c5, d5])

/-- The assignments of lines 499-508 to one particle: `r_sp_d`, then `l_sp_d`. -/
def storeBoth (c : Ctx K) (ps : Point K n) (k : Fin n) (r l : V2 K) : Except Err (Point K n) :=
  match store ps k (setRd c (ps k) r) with
  | .error e => .error e
  | .ok ps' => store ps' k (setLd c (ps' k) l)

/-- The spinors of the five particles, lines 480-489. -/
noncomputable def fiveSpinors (ps : Point K 5) : Except Err ((Fin 5 → V2 K) × (Fin 5 → V2 K)) :=
  match spinorsOf ps 0, spinorsOf ps 1, spinorsOf ps 2, spinorsOf ps 3, spinorsOf ps 4 with
  | .ok p, .ok q, .ok s, .ok t, .ok u => .ok (![p.1, q.1, s.1, t.1, u.1], ![p.2, q.2, s.2, t.2, u.2])
  | .error e, _, _, _, _ => .error e
  | _, .error e, _, _, _ => .error e
  | _, _, .error e, _, _ => .error e
  | _, _, _, .error e, _ => .error e
  | _, _, _, _, .error e => .error e

/-- The five-point branch of `_set_tr5`; neither the labels nor `fix_mom` are used. -/
noncomputable def setTr5Five (c : Ctx K) (ps : Point K 5) (X : K) : Except Err (Point K 5) :=
  match fiveSpinors ps with
  | .error e => .error e
  | .ok (r, l) =>
    match tr5Solve r l X with
    | .error e => .error e
    | .ok (r1, r5, l5) =>
      match storeBoth c ps 0 r1 (l 0) with
      | .error e => .error e
      | .ok ps =>
        match storeBoth c ps 1 (r 1) (l 1) with
        | .error e => .error e
        | .ok ps =>
          match storeBoth c ps 2 (r 2) (l 2) with
          | .error e => .error e
          | .ok ps =>
            match storeBoth c ps 3 (r 3) (l 3) with
            | .error e => .error e
            | .ok ps => storeBoth c ps 4 r5 l5

/-- `_set_tr5`, particles_set.py:462-518. The evaluation `self(...)` of open strings in the branch for six or
more particles is `computeOpenEnd` here, without the text in between. -/
noncomputable def setTr5All (c : Ctx K) : {n : ℕ} → Point K n → Slot n → Slot n → Slot n → Slot n → K → Bool →
    Except Err (Point K n)
  | 5, ps, s₁, s₂, s₃, s₄, X, _ =>
    match tr5Rotate 4 (s₁, s₂, s₃, s₄) with
    | some _ => setTr5Five c ps X
    | none => .error .notImplemented
  | _ + 6, ps, s₁, s₂, s₃, s₄, X, fix => setTr5 c ps s₁ s₂ s₃ s₄ X fix
  | _, _, s₁, s₂, s₃, s₄, _, _ =>
    match tr5Rotate 4 (s₁, s₂, s₃, s₄) with
    | some _ => .error .exception
    | none => .error .notImplemented

end Lips

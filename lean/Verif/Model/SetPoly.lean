import Verif.Model.Set

/-!
Model of the setters whose formulas are long polynomials, lips/hardcoded_limits/particles_set.py. The
polynomials are copied from the code, in its notation.
-/

namespace Lips

open Matrix

variable {K : Type*} [Field K]

/-- The coefficient of the square, particles_set.py:393-396. -/
def omegaQA (c d f g h j k l n o p : K) : K :=
  (-d ^ 2 * f * g * j * k + c * d * f * h * j * k - d ^ 2 * j ^ 2 * k ^ 2 + c * d * f * g * j * l - c ^ 2 * f * h * j
  * l + 2 * c * d * j ^ 2 * k * l - c ^ 2 * j ^ 2 * l ^ 2 + d ^ 2 * f * g * n * o - c * d * f * h * n * o - d ^ 2 * j
  * k * n * o + c * d * j * l * n * o - c * d * f * g * n * p + c ^ 2 * f * h * n * p + c * d * j * k * n * p - c ^ 2
  * j * l * n * p)

/-- The coefficient of the first power, particles_set.py:374-391. -/
def omegaQB (b c d e f g h i j k l m n o p : K) : K :=
  (b * d ^ 2 * f * g * i * k - b * c * d * f * h * i * k + d * f ^ 2 * g * h * i * k - c * f ^ 2 * h ^ 2 * i * k + b
  * d ^ 2 * e * g * j * k - b * c * d * e * h * j * k - d * e * f * g * h * j * k + c * e * f * h ^ 2 * j * k + 2 * b
  * d ^ 2 * i * j * k ^ 2 + 2 * d * f * h * i * j * k ^ 2 - 2 * d * e * h * j ^ 2 * k ^ 2 - b * c * d * f * g * i * l
  - d * f ^ 2 * g ^ 2 * i * l + b * c ^ 2 * f * h * i * l + c * f ^ 2 * g * h * i * l - b * c * d * e * g * j * l + d
  * e * f * g ^ 2 * j * l + b * c ^ 2 * e * h * j * l - c * e * f * g * h * j * l - 4 * b * c * d * i * j * k * l - 2
  * d * f * g * i * j * k * l - 2 * c * f * h * i * j * k * l + 2 * d * e * g * j ^ 2 * k * l + 2 * c * e * h * j ^ 2
  * k * l + 2 * b * c ^ 2 * i * j * l ^ 2 + 2 * c * f * g * i * j * l ^ 2 - 2 * c * e * g * j ^ 2 * l ^ 2 - b * d ^ 2
  * f * g * m * o + b * c * d * f * h * m * o - d * f ^ 2 * g * h * m * o + c * f ^ 2 * h ^ 2 * m * o + b * d ^ 2 * j
  * k * m * o + d * f * h * j * k * m * o - b * c * d * j * l * m * o - 2 * d * f * g * j * l * m * o + c * f * h * j
  * l * m * o - b * d ^ 2 * e * g * n * o + b * c * d * e * h * n * o + d * e * f * g * h * n * o - c * e * f * h ^ 2
  * n * o + b * d ^ 2 * i * k * n * o + d * f * h * i * k * n * o - 2 * d * e * h * j * k * n * o - b * c * d * i * l
  * n * o + d * f * g * i * l * n * o - 2 * c * f * h * i * l * n * o + d * e * g * j * l * n * o + c * e * h * j * l
  * n * o + b * c * d * f * g * m * p + d * f ^ 2 * g ^ 2 * m * p - b * c ^ 2 * f * h * m * p - c * f ^ 2 * g * h * m
  * p - b * c * d * j * k * m * p + d * f * g * j * k * m * p - 2 * c * f * h * j * k * m * p + b * c ^ 2 * j * l * m
  * p + c * f * g * j * l * m * p + b * c * d * e * g * n * p - d * e * f * g ^ 2 * n * p - b * c ^ 2 * e * h * n * p
  + c * e * f * g * h * n * p - b * c * d * i * k * n * p - 2 * d * f * g * i * k * n * p + c * f * h * i * k * n * p
  + d * e * g * j * k * n * p + c * e * h * j * k * n * p + b * c ^ 2 * i * l * n * p + c * f * g * i * l * n * p - 2
  * c * e * g * j * l * n * p)

/-- The constant coefficient, particles_set.py:398-426. -/
def omegaQC (b c d e f g h i j k l m n o p X : K) : K :=
  (-b ^ 2 * d ^ 2 * e * g * i * k + b ^ 2 * c * d * e * h * i * k - b * d * e * f * g * h * i * k + b * c * e * f * h
  ^ 2 * i * k + b * d * e ^ 2 * g * h * j * k - b * c * e ^ 2 * h ^ 2 * j * k - b ^ 2 * d ^ 2 * i ^ 2 * k ^ 2 - 2 * b
  * d * f * h * i ^ 2 * k ^ 2 - f ^ 2 * h ^ 2 * i ^ 2 * k ^ 2 + 2 * b * d * e * h * i * j * k ^ 2 + 2 * e * f * h ^ 2
  * i * j * k ^ 2 - e ^ 2 * h ^ 2 * j ^ 2 * k ^ 2 + b ^ 2 * c * d * e * g * i * l + b * d * e * f * g ^ 2 * i * l - b
  ^ 2 * c ^ 2 * e * h * i * l - b * c * e * f * g * h * i * l - b * d * e ^ 2 * g ^ 2 * j * l + b * c * e ^ 2 * g * h
  * j * l + 2 * b ^ 2 * c * d * i ^ 2 * k * l + 2 * b * d * f * g * i ^ 2 * k * l + 2 * b * c * f * h * i ^ 2 * k * l
  + 2 * f ^ 2 * g * h * i ^ 2 * k * l - 2 * b * d * e * g * i * j * k * l - 2 * b * c * e * h * i * j * k * l - 4 * e
  * f * g * h * i * j * k * l + 2 * e ^ 2 * g * h * j ^ 2 * k * l - b ^ 2 * c ^ 2 * i ^ 2 * l ^ 2 - 2 * b * c * f * g
  * i ^ 2 * l ^ 2 - f ^ 2 * g ^ 2 * i ^ 2 * l ^ 2 + 2 * b * c * e * g * i * j * l ^ 2 + 2 * e * f * g ^ 2 * i * j * l
  ^ 2 - e ^ 2 * g ^ 2 * j ^ 2 * l ^ 2 + b ^ 2 * d ^ 2 * e * g * m * o - b ^ 2 * c * d * e * h * m * o + b * d * e * f
  * g * h * m * o - b * c * e * f * h ^ 2 * m * o - b ^ 2 * d ^ 2 * i * k * m * o - 2 * b * d * f * h * i * k * m * o
  - f ^ 2 * h ^ 2 * i * k * m * o + b * d * e * h * j * k * m * o + e * f * h ^ 2 * j * k * m * o + b ^ 2 * c * d * i
  * l * m * o + b * d * f * g * i * l * m * o + b * c * f * h * i * l * m * o + f ^ 2 * g * h * i * l * m * o + b * d
  * e * g * j * l * m * o - 2 * b * c * e * h * j * l * m * o - e * f * g * h * j * l * m * o - b * d * e ^ 2 * g * h
  * n * o + b * c * e ^ 2 * h ^ 2 * n * o + b * d * e * h * i * k * n * o + e * f * h ^ 2 * i * k * n * o - e ^ 2 * h
  ^ 2 * j * k * n * o - 2 * b * d * e * g * i * l * n * o + b * c * e * h * i * l * n * o - e * f * g * h * i * l * n
  * o + e ^ 2 * g * h * j * l * n * o - b ^ 2 * c * d * e * g * m * p - b * d * e * f * g ^ 2 * m * p + b ^ 2 * c ^ 2
  * e * h * m * p + b * c * e * f * g * h * m * p + b ^ 2 * c * d * i * k * m * p + b * d * f * g * i * k * m * p + b
  * c * f * h * i * k * m * p + f ^ 2 * g * h * i * k * m * p - 2 * b * d * e * g * j * k * m * p + b * c * e * h * j
  * k * m * p - e * f * g * h * j * k * m * p - b ^ 2 * c ^ 2 * i * l * m * p - 2 * b * c * f * g * i * l * m * p - f
  ^ 2 * g ^ 2 * i * l * m * p + b * c * e * g * j * l * m * p + e * f * g ^ 2 * j * l * m * p + b * d * e ^ 2 * g ^ 2
  * n * p - b * c * e ^ 2 * g * h * n * p + b * d * e * g * i * k * n * p - 2 * b * c * e * h * i * k * n * p - e * f
  * g * h * i * k * n * p + e ^ 2 * g * h * j * k * n * p + b * c * e * g * i * l * n * p + e * f * g ^ 2 * i * l * n
  * p - e ^ 2 * g ^ 2 * j * l * n * p - X)

/-- Numerator, particles_set.py:453-454. -/
def piNum (b c d e f g h i j k l m n o p X : K) : K :=
  b * d * i * k + f * h * i * k - e * h * j * k - b * c * i * l - f * g * i * l + e * g * j * l + n * e * h * o - b *
  d * m * o - f * h * m * o - n * e * g * p + b * c * m * p + f * g * m * p - X

/-- Denominator, particles_set.py:455. -/
def piDen (c d j k l n o p : K) : K :=
  d * j * k - c * j * l - n * d * o + n * c * p

variable {n : ℕ}

/-- The spinors read at particles_set.py:363-370 (and 442-449). -/
noncomputable def spinorsOf (ps : Point K n) (A : Fin n) : Except Err (V2 K × V2 K) :=
  match need (ps A).r_d, need (ps A).l_d with
  | .ok r, .ok l => .ok (r, l)
  | .error e, _ => .error e
  | _, .error e => .error e

/-- `_set_Oijk`, particles_set.py:355-430, given the lists of `ijk_to_3NonOverlappingLists`. Momentum is
fixed whatever `fix_mom` is. -/
noncomputable def setO (cx : Ctx K) (ps : Point K n) (nol0 nol1 nol2 : List (Fin n)) (X : K) : Except Err (Point K n) :=
  match nol2, nol0, nol1 with
  | A :: B :: _, C :: D :: _, E :: F :: _ =>
    match spinorsOf ps A, spinorsOf ps B, spinorsOf ps C, spinorsOf ps D with
    | .ok (rA, lA), .ok (rB, lB), .ok (rC, lC), .ok (rD, lD) =>
      let QA := omegaQA (lA 0) (lA 1) (rB 1) (lB 0) (lB 1) (rC 1) (lC 0) (lC 1) (rD 1) (lD 0) (lD 1)
      let QB := omegaQB (rA 1) (lA 0) (lA 1) (rB 0) (rB 1) (lB 0) (lB 1) (rC 0) (rC 1) (lC 0) (lC 1) (rD 0) (rD 1) (lD 0) (lD 1)
      let QC := omegaQC (rA 1) (lA 0) (lA 1) (rB 0) (rB 1) (lB 0) (lB 1) (rC 0) (rC 1) (lC 0) (lC 1) (rD 0) (rD 1) (lD 0) (lD 1) X
      match cx.sqrt (QB ^ 2 - 4 * QA * QC) with
      | none => .error .valueError
      | some q =>
        match pyDiv (-QB - q) (2 * QA) with
        | .error e => .error e
        | .ok a =>
          match store ps A (setRd cx (ps A) ![a, rA 1]) with
          | .error e => .error e
          | .ok ps' => fixAxis1 cx ps' E F
    | .error e, _, _, _ => .error e
    | _, .error e, _, _ => .error e
    | _, _, .error e, _ => .error e
    | _, _, _, .error e => .error e
  | _, _, _ => .error .indexError

/-- `_set_Pijk`, particles_set.py:434-458, likewise. -/
noncomputable def setP (cx : Ctx K) (ps : Point K n) (nol0 nol1 nol2 : List (Fin n)) (X : K) : Except Err (Point K n) :=
  match nol2, nol0, nol1 with
  | A :: B :: _, C :: D :: _, E :: F :: _ =>
    match spinorsOf ps A, spinorsOf ps B, spinorsOf ps C, spinorsOf ps D with
    | .ok (rA, lA), .ok (rB, lB), .ok (rC, lC), .ok (rD, lD) =>
      match pyDiv (piNum (rA 1) (lA 0) (lA 1) (rB 0) (rB 1) (lB 0) (lB 1) (rC 0) (rC 1) (lC 0) (lC 1) (rD 0) (rD 1) (lD 0) (lD 1) X)
          (piDen (lA 0) (lA 1) (rC 1) (lC 0) (lC 1) (rD 1) (lD 0) (lD 1)) with
      | .error e => .error e
      | .ok a =>
        match store ps A (setRd cx (ps A) ![a, rA 1]) with
        | .error e => .error e
        | .ok ps' => fixAxis1 cx ps' E F
    | .error e, _, _, _ => .error e
    | _, .error e, _, _ => .error e
    | _, _, .error e, _ => .error e
    | _, _, _, .error e => .error e
  | _, _, _ => .error .indexError

end Lips

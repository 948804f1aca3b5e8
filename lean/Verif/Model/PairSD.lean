import Verif.Model.PairDelta
import Verif.Model.PairSDA
import Verif.Model.PairSDB
import Verif.Model.PairSDC

/-!
Model of `_set_pair_Sijk_and_Dijk`, lips/hardcoded_limits/particles_set_pair.py:833-903: setting a Mandelstam invariant
and a Gram determinant, with the two formulas of DoubleCollinearLimit_D_and_S_a.py and DoubleCollinearLimit_D_and_S_e.py.

Strings are read already; the corners of Δ are the three lists of labels, from either spelling. The corners are
different lists. Values are numbers of the field already (lines 896-899 convert Python floats).
-/

namespace Lips

variable {K Γ : Type*} [Field K] [LinearOrder Γ] {n : ℕ}

/-- `expression_for_a` and `expression_for_e` together. `root` is `mpmath.sqrt`, which raises on anything but real and
complex numbers. The first formula contains the second one four times. -/
noncomputable def SD.solve (root : K → Option K) (z : SD K) : Except Err (K × K) :=
  match pyDiv 1 (z.d * z.f * z.g - z.c * z.f * z.h + z.d * z.j * z.k - z.c * z.j * z.l) with
  | .error e => .error e
  | .ok inv =>
    match root (sdB z ^ 2 - 4 * sdA z * sdC z) with
    | none => .error .typeError
    | some q =>
      match pyDiv (z.b * z.d * z.g * (-sdB z - q)) (2 * sdA z), pyDiv (z.b * z.c * z.h * (-sdB z - q)) (2 * sdA z),
        pyDiv (z.h * z.j * z.k * (-sdB z - q)) (2 * sdA z), pyDiv (z.g * z.j * z.l * (-sdB z - q)) (2 * sdA z),
        pyDiv (-sdB z - q) (2 * sdA z) with
      | .ok s, .ok t, .ok u, .ok v, .ok e =>
        .ok (inv * (z.b * z.d * z.i * z.k + z.f * z.h * z.i * z.k - z.b * z.c * z.i * z.l - z.f * z.g * z.i * z.l - z.Y +
          s - t - u + v), e)
      | .error er, _, _, _, _ => .error er
      | _, .error er, _, _, _ => .error er
      | _, _, .error er, _, _ => .error er
      | _, _, _, .error er, _ => .error er
      | _, _, _, _, .error er => .error er

/-- Lines 845-857: the first corner whose labels are all in `S`, and the first other corner whose first label is
in `S`. -/
def pickCorners (S : List (Fin n)) (L : Corners n) : Option (Fin 3 × Fin 3) :=
  match [0, 1, 2].find? (fun i => (L i).all fun k => decide (k ∈ S)) with
  | none => none
  | some i => ([0, 1, 2].find? fun j => decide (j ≠ i) && (L j).head?.any fun k => decide (k ∈ S)).map fun j => (i, j)

/-- Lines 845-873: the same with the complement of `S` if that fails. -/
def chooseCorners (S : List (Fin n)) (L : Corners n) : Option (Fin 3 × Fin 3) :=
  match pickCorners S L with
  | some z => some z
  | none => pickCorners (freeLabels S) L

/-- Right and left spinor of a particle, lines 888-895. -/
def bothSpinors (p : Particle K) : Except Err (V2 K × V2 K) :=
  match need p.r_d, need p.l_d with
  | .ok r, .ok l => .ok (r, l)
  | .error e, _ => .error e
  | _, .error e => .error e

/-- Lines 888-903. -/
noncomputable def runSD (c : Ctx K) (root : K → Option K) (ps : Point K n) (A B C D E F : Fin n) (v w : K) :
    Except Err (Point K n) :=
  match bothSpinors (ps A), bothSpinors (ps B), bothSpinors (ps C), bothSpinors (ps D) with
  | .ok (rA, lA), .ok (rB, lB), .ok (rC, lC), .ok (rD, lD) =>
    match SD.solve root ⟨rA 1, lA 0, lA 1, rB 1, lB 0, lB 1, rC 0, rC 1, lC 0, lC 1, rD 0, rD 1, lD 0, lD 1, v, w⟩ with
    | .error e => .error e
    | .ok (a, e) =>
      andThen (store ps A (setRd c (ps A) ![a, rA 1])) fun ps1 =>
        andThen (store ps1 B (setRd c (ps1 B) ![e, rB 1])) fun ps2 => fixAxis1 c ps2 E F
  | .error e, _, _, _ => .error e
  | _, .error e, _, _ => .error e
  | _, _, .error e, _ => .error e
  | _, _, _, .error e => .error e

/-- `_set_pair_Sijk_and_Dijk`, lines 833-903: `none` for the text `Not implemented.` Lines 880-885 leave the third
corner. -/
noncomputable def pairSD (c : Ctx K) (root : K → Option K) (ps : Point K n) (S : List (Fin n)) (v : K) (L : Corners n)
    (w : K) : Option (Except Err (Point K n)) :=
  match chooseCorners S L with
  | none => none
  | some (i, j) =>
    some (match L i, L j, L (-(i + j)) with
      | A :: B :: _, C :: D :: _, E :: F :: _ => runSD c root ps A B C D E F v w
      | _, _, _ => .error .indexError)

end Lips

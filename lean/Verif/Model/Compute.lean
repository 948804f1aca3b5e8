import Verif.Model.FixMom
import Mathlib.Algebra.BigOperators.Group.List.Basic

/-!
Model of `lips/particles_compute.py` and of `det` in `lips/tools.py`.

Strings are modelled by the data the regular expressions extract from them: labels, slots
(signed labels between bars), and the first and last character where the code branches on
them.
-/

namespace Lips

open Matrix

variable {K : Type*} [Field K] {n : ℕ}

/-! ### `det` -/

/-- `det`, tools.py:95-104: Laplace expansion along the first row; the loop over zero columns
returns the integer 0 for an empty matrix. The column selection `i != col` is `succAbove`. -/
def pyDet {R : Type*} [CommRing R] : (m : ℕ) → Matrix (Fin m) (Fin m) R → R
  | 0, _ => 0
  | 1, a => a 0 0
  | m + 2, a => ∑ col : Fin (m + 2),
      (-1) ^ (col : ℕ) * a 0 col * pyDet (m + 1) (a.submatrix Fin.succ col.succAbove)

/-! ### Spinor strings -/

/-- The content of one slot of a spinor string after the labels are resolved: signed labels,
`true` for `+`.  The regular expressions guarantee at least one label per slot. -/
abbrev Slot (n : ℕ) := List (Bool × Fin n)

/-- `eval("(self[b].r2_sp_b + self[c].r2_sp_b - ...)")`, particles_compute.py:98-101, 200-203,
with `f` the attribute. -/
def slotMat (f : Particle K → M2 K) (ps : Point K n) (s : Slot n) : M2 K :=
  (s.map fun t => if t.1 then f (ps t.2) else -f (ps t.2)).sum

/-- `" @ ".join(middle)`, particles_compute.py:98-101, 200-208: slots alternate between
`r2_sp_b` (`true`) and `r2_sp` (`false`). The product over no slots never occurs. -/
def chain (ps : Point K n) : Bool → List (Slot n) → M2 K
  | _, [] => 1
  | true, s :: ss => slotMat Particle.r2b ps s * chain ps false ss
  | false, s :: ss => slotMat Particle.r2 ps s * chain ps true ss

/-- Reading a spinor slot in a product: `None @ array` raises TypeError. -/
def need (o : Option (V2 K)) : Except Err (V2 K) :=
  match o with
  | some s => .ok s
  | none => .error .typeError

/-- The parity check, particles_compute.py:190-197, on the number of slots and the first and
last characters. -/
def nbSyntaxError (slots : ℕ) (first last : Char) : Bool :=
  (slots % 2 = 0 && first = '⟨' && last ≠ '⟩') || (slots % 2 = 1 && first = '⟨' && last ≠ ']') ||
  (slots % 2 = 0 && first = '[' && last ≠ ']') || (slots % 2 = 1 && first = '[' && last ≠ '⟩')

/-- The `pNB` branch of `compute`, particles_compute.py:183-215: `first a | mid | d last`.
The regular expression lets `first` be one of `<`, `⟨`, `[` and `last` one of `⟩`, `]`, `>`. -/
def computeNB (ps : Point K n) (first : Char) (a : Fin n) (mid : List (Slot n)) (d : Fin n)
    (last : Char) : Except Err K :=
  if nbSyntaxError mid.length first last then .error .syntaxError
  else
    match (if first = '⟨' then need (ps a).r_u else need (ps a).l_d),
      (if last = '⟩' then need (ps d).r_d else need (ps d).l_u) with
    | .ok u, .ok w => .ok (dot2 (vecMul u (chain ps (first = '⟨') mid)) w)
    | .error e, _ => .error e
    | _, .error e => .error e

/-- The `pNB_open_begin` branch, particles_compute.py:217-238: `| mid | d last`. -/
def computeOpenBegin (ps : Point K n) (mid : List (Slot n)) (d : Fin n) (last : Char) :
    Except Err (V2 K) :=
  let bar := (last = '⟩' ∧ mid.length % 2 = 0) ∨ (last = ']' ∧ mid.length % 2 = 1)
  match (if last = '⟩' then need (ps d).r_d else need (ps d).l_u) with
  | .ok w => .ok ((chain ps (decide bar) mid).mulVec w)
  | .error e => .error e

/-- The `pNB_open_end` branch, particles_compute.py:240-256: `first a | mid |`. -/
def computeOpenEnd (ps : Point K n) (first : Char) (a : Fin n) (mid : List (Slot n)) :
    Except Err (V2 K) :=
  match (if first = '⟨' then need (ps a).r_u else need (ps a).l_d) with
  | .ok u => .ok (vecMul u (chain ps (first = '⟨') mid))
  | .error e => .error e

/-- The `pNB_double_open` branch, particles_compute.py:258-267. -/
def computeDoubleOpen (ps : Point K n) (mid : List (Slot n)) : M2 K := chain ps true mid

/-- The `ptr` branch, particles_compute.py:95-101. -/
def computeTr (ps : Point K n) (mid : List (Slot n)) : K := trace (chain ps true mid)

/-! ### Mandelstams and Gram determinants -/

/-- `sum([self[_i].r2_sp for _i in ijk])`. -/
def sumR2 (ps : Point K n) (ls : List (Fin n)) : M2 K := (ls.map fun l => (ps l).r2).sum

/-- `sum([self[_i].r2_sp_b for _i in ijk])`. -/
def sumR2b (ps : Point K n) (ls : List (Fin n)) : M2 K := (ls.map fun l => (ps l).r2b).sum

/-- The `pSijk` branch, particles_compute.py:153-157. -/
def computeS (ps : Point K n) (ls : List (Fin n)) : K := pyDet 2 (sumR2 ps ls)

/-- The Gram matrix of a list of corners, particles_compute.py:121-124. -/
def gram (ps : Point K n) (m : ℕ) (corner : Fin m → List (Fin n)) : Matrix (Fin m) (Fin m) K :=
  Matrix.of fun i j => trace (sumR2 ps (corner i) * sumR2b ps (corner j)) / 2

/-- The `pDijk` branch with explicit corners, particles_compute.py:119-125; the pattern with
a bar gives at least two corners, `m + 2` here. `matrix[:-1, :-1]` drops the last row and
column. -/
def computeDelta (ps : Point K n) (m : ℕ) (corner : Fin (m + 2) → List (Fin n)) : K :=
  (-1) ^ (m + 2) * pyDet (m + 1) ((gram ps (m + 2) corner).submatrix Fin.castSucc Fin.castSucc)

/-- The `pDijk` shorthand, particles_compute.py:127-130, given the lists that
`ijk_to_3NonOverlappingLists` returned. -/
def computeDeltaShort (ps : Point K n) (a b : List (Fin n)) : K :=
  (trace (sumR2 ps a * sumR2b ps b) / 2) ^ 2 - pyDet 2 (sumR2 ps a) * pyDet 2 (sumR2b ps b)

/-- The `pOijk` branch, particles_compute.py:103-109, given the lists; `nol[0][0]` raises
IndexError on an empty first list. -/
def computeOmega (ps : Point K n) (a b c : List (Fin n)) : Except Err K :=
  match a with
  | a0 :: _ => .ok (2 * computeS ps c * computeS ps b -
      (computeS ps c + computeS ps b - computeS ps a) * computeS ps (c ++ [a0]))
  | [] => .error .indexError

/-- The `pPijk` branch, particles_compute.py:111-115, given the lists. -/
def computePi (ps : Point K n) (a c : List (Fin n)) : Except Err K :=
  match a with
  | a0 :: a1 :: _ => .ok (computeS ps (c ++ [a0]) - computeS ps (c ++ [a1]))
  | _ => .error .indexError

/-- The `pd5` branch, particles_compute.py:132-147; labels are those of the code. -/
def computeD5 (ps : Point K n) (l1 l2 l3 l4 l5 : Fin n) : K :=
  let s12 := computeS ps [l1, l2]
  let s23 := computeS ps [l2, l3]
  let s34 := computeS ps [l3, l4]
  let s45 := computeS ps [l4, l5]
  let s51 := computeS ps [l5, l1]
  2 * s12 * s23 * s34 * s45 + 2 * s12 * s23 * s34 * s51 + 2 * s12 * s23 * s45 * s51 -
  2 * s12 * s23 * s23 * s34 + 2 * s12 * s34 * s45 * s51 - 2 * s12 * s45 * s51 * s51 -
  2 * s12 * s12 * s23 * s51 + 1 * s12 * s12 * s23 * s23 + 1 * s12 * s12 * s51 * s51 +
  2 * s23 * s34 * s45 * s51 - 2 * s23 * s34 * s34 * s45 + 1 * s23 * s23 * s34 * s34 -
  2 * s34 * s45 * s45 * s51 + 1 * s34 * s34 * s45 * s45 + 1 * s45 * s45 * s51 * s51

/-! ### tr5 -/

/-- `len(a) == 1` for the text of a slot, particles_compute.py:88: a single label written with
one digit (the label of position `l` is `l + 1`). -/
def oneChar (s : Slot n) : Bool :=
  match s with
  | [(true, l)] => (l : ℕ) + 1 < 10
  | _ => false

/-- The loop `for _ in range(4): if len(a) == 1: break; a, b, c, d = b, c, d, a`,
particles_compute.py:87-92; `none` is the `else` clause. -/
def tr5Rotate : ℕ → Slot n × Slot n × Slot n × Slot n → Option (Slot n × Slot n × Slot n × Slot n)
  | 0, _ => none
  | k + 1, (a, b, c, d) => if oneChar a then some (a, b, c, d) else tr5Rotate k (b, c, d, a)

/-- The `ptr5` branch, particles_compute.py:84-93. After the loop `a` is a single label. -/
def computeTr5 (ps : Point K n) (a b c d : Slot n) : Except Err K :=
  match tr5Rotate 4 (a, b, c, d) with
  | some ((true, l) :: _, b, c, d) =>
    match computeNB ps '[' l [b, c, d] l '⟩', computeNB ps '⟨' l [b, c, d] l ']' with
    | .ok x, .ok y => .ok (x - y)
    | .error e, _ => .error e
    | _, .error e => .error e
  | _ => .error .notImplemented

/-! ### Polarisations -/

/-- The helicity symbols `ep` and `ee` compare with. -/
inductive Hel where
  | plus | p | minus | m
  deriving DecidableEq, Repr

/-- `in ["+", "p"]`. -/
def Hel.isPlus : Hel → Bool
  | .plus | .p => true
  | _ => false

/-- `in ["-", "m"]`. -/
def Hel.isMinus : Hel → Bool
  | .minus | .m => true
  | _ => false

open Classical in
/-- `a / b` of numbers, raising on zero. -/
noncomputable def pyDiv (a b : K) : Except Err K := if b = 0 then .error .zeroDivision else .ok (a / b)

/-- `ep`, particles_compute.py:50-59. `q` is `oRefVec`, `r2` is `mpmath.sqrt(2)`. Simplification:
the helicity symbols are the four documented ones. -/
noncomputable def ep (r2 : K) (hel : Fin n → Hel) (ps : Point K n) (q : Particle K) (i j : Fin n) :
    Except Err K :=
  if (hel i).isPlus then do
    let u ← need q.r_u
    let w ← need (ps i).l_u
    let d ← need (ps i).r_d
    pyDiv (dot2 (vecMul u (ps j).r2b) w) (r2 * dot2 u d)
  else do
    let u ← need (ps i).r_u
    let w ← need q.l_u
    let d ← need (ps i).l_d
    pyDiv (dot2 (vecMul u (ps j).r2b) w) (r2 * dot2 d w)

/-- `pe`, particles_compute.py:61-63. -/
noncomputable def pe (r2 : K) (hel : Fin n → Hel) (ps : Point K n) (q : Particle K) (i j : Fin n) :
    Except Err K := ep r2 hel ps q j i

/-- `ee`, particles_compute.py:65-74, with a bound on the recursion depth: `none` means that
the bound was exhausted (Python raises RecursionError). -/
noncomputable def ee (hel : Fin n → Hel) (ps : Point K n) (q : Particle K) :
    ℕ → Fin n → Fin n → Option (Except Err K)
  | 0, _, _ => none
  | k + 1, i, j =>
    if hel i = hel j then some (.ok 0)
    else if (hel i).isMinus then some (do
      let ui ← need (ps i).r_u
      let uj ← need (ps j).r_u
      let wi ← need (ps i).l_u
      let wj ← need (ps j).l_u
      let x ← pyDiv (dot2 (vecMul ui q.r2b) wj) (dot2 (vecMul uj q.r2b) wi)
      return -x)
    else ee hel ps q k j i

end Lips

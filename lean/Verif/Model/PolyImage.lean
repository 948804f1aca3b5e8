import Verif.Model.Image
import Mathlib.Data.List.Basic

/-!
Model of the images of polynomials: `covariant_poly_image`
(lips/algebraic_geometry/covariant_ideal.py:106-110), `invariant_poly_image` and `indices_2d`
(lips/algebraic_geometry/invariant_ideal.py:68-84), of the lists of variables
(lips/algebraic_geometry/tools.py:10-26), and of the multiplicities recovered from them.
-/

namespace Lips

/-! ### Covariant polynomials -/

/-- Python's `s[i - 1]` for a sequence and `i >= 0`: `i = 0` is the last element. -/
def pyGetMinusOne {α : Type*} (l : List α) (i : ℕ) : Except Err α :=
  match (if i = 0 then l.getLast? else l[i - 1]?) with
  | some x => .ok x
  | none => .error .indexError

/-- `re.sub(r"(?<=[abcd])(\d)", ..)`, covariant_ideal.py:107; `prev` is the character before. -/
def covDigits (p : List Char) : Option Char → List Char → Except Err (List Char)
  | _, [] => .ok []
  | prev, x :: xs =>
    match covDigits p (some x) xs with
    | .error e => .error e
    | .ok rest =>
      if x.isDigit = true ∧ prev ∈ [some 'a', some 'b', some 'c', some 'd'] then
        match pyGetMinusOne p (x.toNat - 48) with
        | .ok y => .ok (y :: rest)
        | .error e => .error e
      else .ok (x :: rest)

/-- `s.replace(x, y)` for characters. -/
def replaceChar (x y : Char) (s : List Char) : List Char := s.map fun z => if z = x then y else z

/-- `covariant_poly_image`, covariant_ideal.py:106-110. -/
def covariantPolyImage (poly : List Char) (rule : List Char × Bool) : Except Err (List Char) :=
  match covDigits rule.1 none poly with
  | .error e => .error e
  | .ok s => .ok (if rule.2 then
      replaceChar 'B' 'd' (replaceChar 'A' 'c' (replaceChar 'd' 'b' (replaceChar 'c' 'a' (replaceChar 'b' 'B' (replaceChar 'a' 'A' s)))))
    else s)

/-! ### Invariant polynomials -/

/-- `list(itertools.combinations(range(1, n + 1), 2))`. -/
def pairsList (n : ℕ) : List (ℕ × ℕ) :=
  (List.range' 1 n).flatMap fun i => ((List.range' 1 n).filter (i < ·)).map fun j => (i, j)

/-- An entry of `indices_2d`, invariant_ideal.py:68-71; labels start at one. -/
def index2d (n i j : ℕ) : ℤ :=
  if (i, j) ∈ pairsList n then ((pairsList n).idxOf (i, j) : ℤ) + 1
  else if (j, i) ∈ pairsList n then -(((pairsList n).idxOf (j, i) : ℤ) + 1) else 0

/-- `signed_permutation_2d`, invariant_ideal.py:77: the upper triangle of the matrix with rows and columns
permuted. Simplification: a digit zero, which numpy would take for the last position, and a digit beyond the
multiplicity, which raises, both raise IndexError. -/
def signedPerm (p : List Char) : Except Err (List ℤ) :=
  match p.mapM intChar with
  | none => .error .valueError
  | some ds =>
    if ds.all fun d => 1 ≤ d ∧ d ≤ p.length then
      .ok ((pairsList p.length).map fun ij => index2d p.length (ds.getD (ij.1 - 1) 0) (ds.getD (ij.2 - 1) 0))
    else .error .indexError

/-- The replacement of one variable, invariant_ideal.py:79-81. -/
def invariantSub (sp : List ℤ) (letter : Char) (ds : List Char) : Except Err (List Char) :=
  match pyGetMinusOne sp (Nat.ofDigitChars 10 ds 0) with
  | .error e => .error e
  | .ok v => .ok (if 0 < v then letter :: pyStr v.natAbs else '(' :: '-' :: letter :: (pyStr v.natAbs ++ [')']))

/-- What a pending match becomes: a letter without digits is no match. -/
def invariantFlush (sp : List ℤ) : Option (Char × List Char) → Except Err (List Char)
  | none => .ok []
  | some (l, []) => .ok [l]
  | some (l, d :: ds) => invariantSub sp l (d :: ds)

/-- `re.sub(r"([AB])(\d+)", ..)`, with the letter and the digits matched so far. -/
def invariantScan (sp : List ℤ) : Option (Char × List Char) → List Char → Except Err (List Char)
  | st, [] => invariantFlush sp st
  | none, x :: xs =>
    if x = 'A' ∨ x = 'B' then invariantScan sp (some (x, [])) xs
    else match invariantScan sp none xs with
      | .ok r => .ok (x :: r)
      | .error e => .error e
  | some (l, ds), x :: xs =>
    if x.isDigit then invariantScan sp (some (l, ds ++ [x])) xs
    else
      match invariantFlush sp (some (l, ds)) with
      | .error e => .error e
      | .ok f =>
        if x = 'A' ∨ x = 'B' then
          match invariantScan sp (some (x, [])) xs with
          | .ok r => .ok (f ++ r)
          | .error e => .error e
        else match invariantScan sp none xs with
          | .ok r => .ok (f ++ x :: r)
          | .error e => .error e

/-- `invariant_poly_image`, invariant_ideal.py:74-84. -/
def invariantPolyImage (poly : List Char) (rule : List Char × Bool) : Except Err (List Char) :=
  match signedPerm rule.1 with
  | .error e => .error e
  | .ok sp =>
    match invariantScan sp none poly with
    | .error e => .error e
    | .ok s => .ok (if rule.2 then replaceChar 'C' 'B' (replaceChar 'B' 'A' (replaceChar 'A' 'C' s)) else s)

/-! ### Lists of variables -/

/-- `next(it)` for the first iterator that comes round, again and again: `islice(cycle(iters), k)` with `next` applied,
algebraic_geometry/tools.py:17-18. Running out of an iterator raises (RuntimeError inside a generator). -/
def roundRobin {α : Type*} : ℕ → List (List α) → Except Err (List α)
  | 0, _ => .ok []
  | _ + 1, [] => .ok []
  | _ + 1, [] :: _ => .error .exception
  | k + 1, (x :: it) :: its =>
    match roundRobin k (its ++ [it]) with
    | .ok r => .ok (x :: r)
    | .error e => .error e

/-- `sympy.symbols('a1:{m + 1}')` as names. -/
def symbolList (letter : Char) (m : ℕ) : List (List Char) := (List.range' 1 m).map fun i => letter :: pyStr i

/-- `lips_covariant_symbols`, algebraic_geometry/tools.py:10-18. -/
def covariantSymbols (n : ℕ) : Except Err (List (List Char)) :=
  roundRobin (4 * n) [symbolList 'a' n, symbolList 'b' n, symbolList 'c' n, symbolList 'd' n]

/-- `lips_invariant_symbols`, algebraic_geometry/tools.py:21-26. -/
def invariantSymbols (n : ℕ) : List (List Char) := symbolList 'A' (n * (n - 1) / 2) ++ symbolList 'B' (n * (n - 1) / 2)

/-- `len(ring.variables) // 2 // 2`, covariant_ideal.py:26. -/
def covariantMultiplicity (vars : ℕ) : ℕ := vars / 2 / 2

/-- `(1 + int(sqrt(4 * len(variables) + 1))) // 2`, invariant_ideal.py:21; `isqrt` is `int(sqrt(..))`. -/
def invariantMultiplicity (isqrt : ℕ → ℕ) (vars : ℕ) : ℕ := (1 + isqrt (4 * vars + 1)) / 2

end Lips

import Verif.Model.Image

/-!
Model of the generators of lips/invariants.py: multi-particle Mandelstams, Gram determinants, tr5,
two-particle brackets, the neighbouring test and the brackets with three slots. Strings are lists of
characters.
-/

namespace Lips

/-- `itertools.combinations(l, k)`: subsequences of length `k`, in the lexicographic order of
positions. -/
def combs {α : Type*} : ℕ → List α → List (List α)
  | 0, _ => [[]]
  | _ + 1, [] => []
  | k + 1, x :: xs => (combs k xs).map (x :: ·) ++ combs (k + 1) xs

/-! ### Mandelstams -/

/-- `recurse_s_ijk_gen`, invariants.py:331-342. `js` is what is left of the `range` of the loop; the
recursive call iterates over `range(j + 1, n + 1)`, which is what is left after `j`. `m` is at least
one; `string[:-1]` removes one character, whatever was appended. -/
def recS (n : ℕ) : ℕ → List ℕ → List Char → List (List Char)
  | _, [], _ => []
  | m, j :: js, string =>
    if n % 2 = 0 ∧ string.length = n / 2 + 1 ∧ j = n then []
    else
      let string' := string ++ pyStr j
      (if m > 1 then recS n (m - 1) js string' else if m = 1 then [string'] else []) ++
        recS n m js string'.dropLast

/-- `all_strings(n, "s")`, invariants.py:136-140. -/
def allS (n : ℕ) : List (List Char) :=
  (List.range' 3 (n / 2 + 1 - 3)).flatMap fun m => recS n m (List.range' 1 n) ['s', '_']

/-! ### Gram determinants -/

/-- The start labels of `generate_D_ijk`, invariants.py:348-357, in order: `-j % n + 1`,
`i - j + 1` and `start2 + k`. -/
def genDTriples (n : ℕ) : List (ℕ × ℕ × ℕ) :=
  (List.range' 2 (n - 3 - 2)).flatMap fun (i : ℕ) =>
    (List.range i).flatMap fun (j : ℕ) =>
      (List.range' 2 (n - i - 1 - 2)).map fun (k : ℕ) =>
        ((-(j : ℤ) % (n : ℤ)).toNat + 1, i - j + 1, i - j + 1 + k)

/-- `"Δ_{}{}{}".format(...)`, with the first character as an argument (`Ω`, `Π`). -/
def tripleText (c : Char) (t : ℕ × ℕ × ℕ) : List Char :=
  [c, '_'] ++ pyStr t.1 ++ pyStr t.2.1 ++ pyStr t.2.2

/-- `all_strings(n, "D")`, invariants.py:142-146 and 348-357. -/
def allD (n : ℕ) : List (List Char) := if 6 ≤ n then (genDTriples n).map (tripleText 'Δ') else []

/-- The three strings made from one Gram determinant, invariants.py:366-370: the characters after
the underscore are taken one by one. All texts of the list have at least three. -/
def omegasOf (c : Char) (delta : List Char) : List (List Char) :=
  match delta.drop 2 with
  | x :: y :: z :: _ => [[c, '_', x, y, z], [c, '_', y, z, x], [c, '_', z, x, y]]
  | _ => []

/-- `all_strings(n, "O")`, invariants.py:148-152 and 363-370; with `Π`, `all_strings(n, "P")`,
invariants.py:154-158, where the first character is replaced afterwards. -/
def allO (c : Char) (n : ℕ) : List (List Char) :=
  if n = 6 then ((genDTriples n).map (tripleText 'Δ')).flatMap (omegasOf c) else []

/-! ### tr5 -/

/-- `all_strings(n, "tr5")`, invariants.py:160-164 and 376-378: combinations of the characters of
`12...(n-1)`. -/
def allTr5 (n : ℕ) : List (List Char) :=
  if 5 ≤ n then (combs 4 ((List.range' 1 (n - 1)).flatMap pyStr)).map fun e => ['t', 'r', '5', '_'] ++ e
  else []

/-! ### Brackets of two spinors -/

/-- `^(?:⟨)([0-9])(?:\|)([0-9])(?:⟩)$`, invariants.py:18. -/
def matchA2 (t : List Char) : Bool :=
  match t with
  | [o, a, b, c, d] => o = '⟨' && a.isDigit && b = '|' && c.isDigit && d = '⟩'
  | _ => false

/-- `all_strings(n, "2")`, invariants.py:173-190 and 235-236. -/
def allTwo (n : ℕ) : List (List Char) :=
  let result := (List.range' 1 n).flatMap fun first =>
    (List.range' 1 n).flatMap fun last =>
      if first > last then []
      else if first < last then
        [['⟨'] ++ pyStr first ++ ['|'] ++ (pyStr last ++ ['⟩']),
          ['['] ++ pyStr first ++ ['|'] ++ (pyStr last ++ [']'])]
      else []
  if n = 4 then result.filter matchA2 else result

/-! ### Neighbouring labels -/

/-- `if x == n: near += [1]` and `if x == 1: near += [n]`, invariants.py:416-419, 425-428. -/
def wrapped (n x : ℤ) : List ℤ := (if x = n then [1] else []) ++ (if x = 1 then [n] else [])

/-- The body of the inner loop, invariants.py:423-428. -/
def growNear (n : ℤ) (near : List ℤ) (x : ℤ) : List ℤ :=
  if x ∈ near then near ++ [x + 1, x - 1] ++ wrapped n x else near

/-- `CheckIfNeighbouring`, invariants.py:413-431. -/
def checkNeighbouring (n : ℤ) (middle : List ℤ) : Except Err Bool :=
  match middle with
  | [] => .error .indexError
  | a :: _ =>
    let near := (fun near => middle.foldl (growNear n) near)^[middle.length]
      ([a, a - 1, a + 1] ++ wrapped n a)
    .ok (middle.all fun x => decide (x ∈ near))

/-! ### Brackets with three slots -/

/-- One pass of the two inner loops of `generate_5Brackets`, invariants.py:391-407, for the rotated
list `particles`. Simplification: `list(set(...) - ...)` is taken in the order of `particles`; Python's
order of a set of small integers may differ, the set is the same. -/
def five (n i : ℕ) (particles : List ℕ) : List (ℕ × List ℕ × List ℕ × List ℕ) :=
  let ok (l : List ℕ) : Bool := match checkNeighbouring n (l.map Int.ofNat) with
    | .ok b => b
    | .error _ => false
  (List.range' 2 (n - 4 - 2)).flatMap fun (j : ℕ) =>
    let m1 := particles.take j
    if ok m1 then
      (List.range' 2 (n - 2 - j - 2)).flatMap fun k =>
        let m2 := (particles.drop j).take k
        if ok m2 then
          let m3 := particles.drop (j + k)
          if ok m3 then [(i, m1, m2, m3)] else []
        else []
    else []

/-- `generate_5Brackets`, invariants.py:384-407, as tuples: the label and the three slots. -/
def gen5 (n : ℕ) : List (ℕ × List ℕ × List ℕ × List ℕ) :=
  (List.range' 1 n).flatMap fun (i : ℕ) =>
    let particles := (List.range' 1 n).erase i
    (List.range particles.length).flatMap fun kk => five n i (particles.rotate kk)

end Lips

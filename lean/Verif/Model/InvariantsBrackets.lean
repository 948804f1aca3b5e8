import Verif.Model.Invariants
import Verif.Model.InvariantsCache
import Mathlib.Data.Fin.VecNotation
import Mathlib.Data.List.Dedup

/-!
Model of the generation of the spinor strings with one and two slots, of their restriction and of
`GenerateFromScratch` (lips/invariants.py:68-103, 172-325, 437-676).

Spinor strings are kept in parts (`Brk`) instead of text. Simplification: the pattern `pNB`
(invariants.py:19), which the code uses to recover the parts, does so whenever the labels have one
digit, that is for up to nine particles.

Iterating over a Python set of strings follows the hash values, which change from one run of Python
to the next; an order oracle stands for it.
-/

namespace Lips

abbrev PStr := List Char

/-- A spinor string in parts. -/
structure Brk where
  first : Char
  a : ℕ
  mids : List (List PStr)
  d : ℕ
  last : Char
  deriving DecidableEq, Repr

/-- The text. -/
def Brk.text (b : Brk) : PStr :=
  [b.first] ++ pyStr b.a ++ ['|'] ++
    ['|'].intercalate (b.mids.map fun m => ['('] ++ ['+'].intercalate m ++ [')']) ++ ['|'] ++ pyStr b.d ++ [b.last]

/-- `list.remove(x)`. -/
def pyRemove {β : Type*} [DecidableEq β] (l : List β) (x : β) : Except Err (List β) :=
  if x ∈ l then .ok (l.erase x) else .error .valueError

/-- `_complementary`, invariants.py:617-623. -/
def compStr (n : ℕ) (l : List PStr) : Except Err (List PStr) :=
  l.foldlM pyRemove ((List.range' 1 n).map pyStr)

/-- The loop `for element in comb` of `_inner_bracket`, invariants.py:666-672. Python's iterator is a
position that advances by one and stops at the current end of the list. -/
def dropRepeats (n a1 a2 : ℕ) : ℕ → ℕ → List (List PStr) → Except Err (List (List PStr))
  | 0, _, comb => .ok comb
  | fuel + 1, i, comb =>
    match comb[i]? with
    | none => .ok comb
    | some e =>
      match compStr n e with
      | .error er => .error er
      | .ok comp =>
        match pyRemove comb ((comp.erase (pyStr a1)).erase (pyStr a2)) with
        | .error er => .error er
        | .ok comb' => dropRepeats n a1 a2 fuel (i + 1) comb'

/-- `comp_length`, invariants.py:655-662. -/
def compLength (n length a1 a2 : ℕ) : ℕ :=
  if a1 ≠ 0 ∧ a2 ≠ 0 then (if a1 = a2 then n - length - 1 else n - length - 2)
  else if a1 ≠ 0 ∨ a2 ≠ 0 then n - length - 1 else n - length

/-- `_inner_bracket`, invariants.py:629-676; `none` is Python's `None`. The `while` loop,
invariants.py:640-651, removes exactly the combinations that contain one of the adjacent labels. -/
def innerBracket (n length a1 a2 : ℕ) : Except Err (Option (List (List PStr))) :=
  let chars : List PStr := ((List.range' 1 n).flatMap pyStr).map fun c => [c]
  let comb := (combs length chars).filter fun e => decide (pyStr a1 ∉ e ∧ pyStr a2 ∉ e)
  if compLength n length a1 a2 = length then
    match dropRepeats n a1 a2 comb.length 0 comb with
    | .ok c => .ok (some c)
    | .error e => .error e
  else if compLength n length a1 a2 < length then .ok none
  else .ok (some comb)

/-- A loop over lengths with `break` at `None`, collecting, invariants.py:194-205. -/
def loopLengths {β : Type*} (f : ℕ → Except Err (Option (List β))) : List ℕ → Except Err (List β)
  | [] => .ok []
  | l :: ls =>
    match f l with
    | .error e => .error e
    | .ok none => .ok []
    | .ok (some c) =>
      match loopLengths f ls with
      | .error e => .error e
      | .ok r => .ok (c ++ r)

/-- The slots for one choice of adjacent labels. -/
def slotsFor (n a1 a2 : ℕ) : Except Err (List (List PStr)) :=
  loopLengths (fun length => innerBracket n length a1 a2) (List.range' 2 (n / 2 + 1 - 2))

/-- Collect over a list, stopping at the first exception. -/
def collect {β γ : Type*} (f : β → Except Err (List γ)) : List β → Except Err (List γ)
  | [] => .ok []
  | x :: xs =>
    match f x with
    | .error e => .error e
    | .ok r =>
      match collect f xs with
      | .error e => .error e
      | .ok rs => .ok (r ++ rs)

/-- `all_strings(n, "3")`, invariants.py:172-233. -/
def all3 (n : ℕ) : Except Err (List Brk) :=
  collect (fun first => collect (fun last =>
    match slotsFor n first last with
    | .error e => .error e
    | .ok ms => .ok (ms.map fun m => ⟨'⟨', first, [m], last, ']'⟩)) (List.range' 1 n)) (List.range' 1 n)

/-- The `while` loop comparing two slots position by position, invariants.py:219-226: the first slot
has the greater label at the first difference. Labels are single digits, compared as characters. -/
def greaterSlot : List PStr → List PStr → Bool
  | x :: xs, y :: ys => if y < x then true else if x < y then false else greaterSlot xs ys
  | _, _ => false

/-- The pairs of slots, invariants.py:192-231 for `nbr_brks = 4`. -/
def slotPairs (n first last : ℕ) : Except Err (List (List (List PStr))) :=
  match slotsFor n first 0 with
  | .error e => .error e
  | .ok middles =>
    match slotsFor n last 0 with
    | .error e => .error e
    | .ok seconds =>
      .ok (seconds.flatMap fun m2 => middles.flatMap fun m1 =>
        if m1 = m2 then [] else if first = last ∧ greaterSlot m1 m2 = true then [] else [[m1, m2]])

/-- The strings with two slots before the removals, invariants.py:172-233. -/
def all4raw (n : ℕ) : Except Err (List Brk) :=
  collect (fun first => collect (fun last =>
    if first > last then .ok []
    else
      match slotPairs n first last with
      | .error e => .error e
      | .ok ms => .ok ((ms.map fun m => (⟨'⟨', first, m, last, '⟩'⟩ : Brk)) ++
          ms.map fun m => (⟨'[', first, m, last, ']'⟩ : Brk))) (List.range' 1 n)) (List.range' 1 n)

/-- Subset of sets of strings. -/
def subS (x y : List PStr) : Bool := x.all fun e => decide (e ∈ y)

/-- Difference of sets of strings. -/
def diffS (x y : List PStr) : List PStr := x.filter fun e => decide (e ∉ y)

/-- Equality of sets of strings. -/
def eqS (x y : List PStr) : Bool := subS x y && subS y x

/-- `alt[...]`: the complement of a slot and the adjacent label, invariants.py:250-254. Joining and
splitting an empty list gives one empty string. -/
def altOf (n : ℕ) (m : List PStr) (x : ℕ) : Except Err (List PStr) :=
  match compStr n (m ++ [pyStr x]).dedup with
  | .error e => .error e
  | .ok [] => .ok [[]]
  | .ok c => .ok c

/-- `len(list(x - y)) == 1 and list(x - y)[0] == l`. -/
def onlyLeft (x y : List PStr) (l : ℕ) : Bool := decide (diffS x y = [pyStr l])

/-- The condition for the first removal, invariants.py:241-280. Strings without two slots raise
IndexError. -/
def reducible (n : ℕ) (b : Brk) : Except Err Bool :=
  match b.mids with
  | m0 :: m1 :: _ =>
    match altOf n m0 b.a, altOf n m1 b.d with
    | .error e, _ => .error e
    | _, .error e => .error e
    | .ok alt0, .ok alt1 =>
      .ok (eqS m0 m1 || eqS m0 alt1 || eqS alt0 m1 || eqS alt0 alt1 ||
        (decide (b.a = b.d) && ((subS m0 m1 && decide ((diffS m1 m0).length = 1)) ||
          (subS m0 alt1 && decide ((diffS alt1 m0).length = 1)) ||
          (subS m1 m0 && decide ((diffS m0 m1).length = 1)) ||
          (subS m1 alt0 && decide ((diffS alt0 m1).length = 1)))) ||
        onlyLeft m0 m1 b.d || onlyLeft m0 alt1 b.d || onlyLeft alt0 m1 b.d || onlyLeft alt0 alt1 b.d ||
        onlyLeft m1 m0 b.a || onlyLeft m1 alt0 b.a || onlyLeft alt1 m0 b.a || onlyLeft alt1 alt0 b.a)
  | _ => .error .indexError

/-- The first removal, invariants.py:240-281: the loop runs over a copy. -/
def removeReducible (n : ℕ) : List Brk → List Brk → Except Err (List Brk)
  | [], result => .ok result
  | b :: bs, result =>
    match reducible n b with
    | .error e => .error e
    | .ok false => removeReducible n bs result
    | .ok true =>
      match pyRemove result b with
      | .error e => .error e
      | .ok result' => removeReducible n bs result'

/-- `int(text)` of a label inside a slot. All labels are digits. -/
def intOf (t : PStr) : ℤ := (Nat.ofDigitChars 10 t 0 : ℕ)

/-- One half of `Brackets4IsIndividuallyNeighbouring`, invariants.py:511-530 and 532-551: two passes
over the first two labels of a slot, starting from the adjacent label. -/
def nearHalf (n a : ℤ) (m : List PStr) : Except Err Bool :=
  match m with
  | x :: y :: _ =>
    let near := (fun near => [intOf x, intOf y].foldl (growNear n) near)^[2] ([a, a + 1, a - 1] ++ wrapped n a)
    .ok (decide (intOf x ∈ near ∧ intOf y ∈ near))
  | _ => .error .indexError

/-- `Brackets4IsIndividuallyNeighbouring`, invariants.py:499-550. -/
def neigh4 (n : ℕ) (b : Brk) : Except Err Bool :=
  match b.mids with
  | m0 :: m1 :: _ =>
    match nearHalf n b.a m0 with
    | .error e => .error e
    | .ok false => .ok false
    | .ok true => nearHalf n b.d m1
  | _ => .error .indexError

/-- The order in which Python iterates over a set of strings: it may differ between any two
iterations, which the number distinguishes. -/
abbrev SetOrder := ℕ → List PStr → List PStr

/-- What is done with an equal string, invariants.py:306-313. -/
def firstDouble (n : ℕ) (copy : List Brk) (i : ℕ) (b eqb : Brk) (result : List Brk) : Except Err (List Brk) :=
  if eqb ∈ result then
    match neigh4 n eqb, neigh4 n b with
    | .error e, _ => .error e
    | _, .error e => .error e
    | .ok true, .ok true => if i < copy.idxOf eqb then pyRemove result eqb else .ok result
    | .ok true, .ok false => pyRemove result b
    | .ok false, .ok false => pyRemove result eqb
    | .ok false, .ok true => .ok result
  else .ok result

/-- One step of the second removal, invariants.py:283-324, for the string at position `i` of the
copy. -/
def removeDouble (n : ℕ) (ord : SetOrder) (copy : List Brk) (i : ℕ) (b : Brk) (result : List Brk) :
    Except Err (List Brk) :=
  if b.a ≠ b.d then .ok result
  else
    match b.mids with
    | m0 :: m1 :: _ =>
      match altOf n m0 b.a, altOf n m1 b.d with
      | .error e, _ => .error e
      | _, .error e => .error e
      | .ok alt0, .ok alt1 =>
        let r1 : Except Err (List Brk) :=
          if subS m0 alt1 then
            let eqb : Brk := ⟨b.first, b.a, [ord (4 * i) m0, ord (4 * i + 1) (diffS alt1 m0)], b.d, b.last⟩
            firstDouble n copy i b eqb result
          else .ok result
        match r1 with
        | .error e => .error e
        | .ok result =>
          if subS m1 alt0 then
            let eqb : Brk := ⟨b.first, b.a, [ord (4 * i + 2) (diffS alt0 m1), ord (4 * i + 3) m1], b.d, b.last⟩
            if eqb ∈ result ∧ i < copy.idxOf eqb then pyRemove result eqb else .ok result
          else .ok result
    | _ => .error .indexError

/-- The second removal, invariants.py:282-324. -/
def removeDoubles (n : ℕ) (ord : SetOrder) (copy : List Brk) : ℕ → List Brk → List Brk → Except Err (List Brk)
  | _, [], result => .ok result
  | i, b :: bs, result =>
    match removeDouble n ord copy i b result with
    | .error e => .error e
    | .ok result' => removeDoubles n ord copy (i + 1) bs result'

/-- `all_strings(n, "4")`, invariants.py:172-325. -/
def all4 (n : ℕ) (ord : SetOrder) : Except Err (List Brk) :=
  match all4raw n with
  | .error e => .error e
  | .ok raw =>
    match removeReducible n raw raw with
    | .error e => .error e
    | .ok result => removeDoubles n ord result 0 result result

/-- `Brackets3NeedsToBeRemoved`, invariants.py:588-611. -/
def needsRemoval3 (n a : ℤ) (m : List ℤ) (d : ℤ) : Bool :=
  let grow (near : List ℤ) (x : ℤ) : List ℤ :=
    if x ∈ near then near ++ [x, x + 1, x - 1] ++ wrapped n x else near
  let near := (fun near => m.foldl grow (grow near d))^[m.length + 1] ([a, a + 1, a - 1] ++ wrapped n a)
  !(decide (d ∈ near) && m.all fun x => decide (x ∈ near))

/-- `Purge3Brackets`, invariants.py:556-582. -/
def purge3 (n : ℕ) : List Brk → List Brk → Except Err (List Brk)
  | [], result => .ok result
  | b :: bs, result =>
    match b.mids with
    | m :: _ =>
      match compStr n (m ++ [pyStr b.a] ++ [pyStr b.d]).dedup with
      | .error e => .error e
      | .ok comp =>
        if needsRemoval3 n b.a (m.map intOf) b.d && needsRemoval3 n b.a (comp.map intOf) b.d then
          match pyRemove result b with
          | .error e => .error e
          | .ok result' => purge3 n bs result'
        else purge3 n bs result
    | [] => .error .indexError

/-- `Purge4Brackets`, invariants.py:437-493. `len(entry) > 3` is the length of the text of a slot,
that is more than two labels of one digit. When `FurtherRestrict4Brackets` is False the slots are
`map` objects, which do not support indexing: TypeError at the first one, invariants.py:471. -/
def purge4 (n : ℕ) (further : Bool) : List Brk → List Brk → Except Err (List Brk)
  | [], result => .ok result
  | b :: bs, result =>
    if b.mids.any fun m => decide (3 < (['+'].intercalate m).length) then
      match pyRemove result b with
      | .error e => .error e
      | .ok result' => purge4 n further bs result'
    else if further then
      match neigh4 n b with
      | .error e => .error e
      | .ok true => purge4 n further bs result
      | .ok false =>
        match pyRemove result b with
        | .error e => .error e
        | .ok result' => purge4 n further bs result'
    else .error .typeError

/-- Text of a string with three slots. -/
def fiveText (t : ℕ × List ℕ × List ℕ × List ℕ) : PStr :=
  ['⟨'] ++ pyStr t.1 ++ ['|', '('] ++ ['+'].intercalate (t.2.1.map pyStr) ++ [')', '|', '('] ++
    ['+'].intercalate (t.2.2.1.map pyStr) ++ [')', '|', '('] ++ ['+'].intercalate (t.2.2.2.map pyStr) ++ [')', '|'] ++
    pyStr t.1 ++ [']']

/-- `GenerateFromScratch`, invariants.py:68-103. `hard` is what the block for the nine hard-coded
strings at six points adds or raises, invariants.py:86-97: it depends on random numbers. -/
def generate (n : ℕ) (ord : SetOrder) (hard : Except Err (List PStr)) (f : Flags) :
    Except Err (Key → List PStr) :=
  match all3 n with
  | .error e => .error e
  | .ok r3 =>
    match all4 n ord with
    | .error e => .error e
    | .ok r4 =>
      match (if f.restrict3 then purge3 n r3 r3 else .ok r3) with
      | .error e => .error e
      | .ok p3 =>
        match (if f.restrict4 then purge4 n f.further4 r4 r4 else .ok r4) with
        | .error e => .error e
        | .ok p4 =>
          match (if n = 6 ∧ f.noHard = false then hard else .ok []) with
          | .error e => .error e
          | .ok extra3 =>
            .ok ![allTwo n, p3.map Brk.text ++ extra3,
              p4.map Brk.text ++ (if n = 7 then ["⟨1|(5+6)|(2+7)|1⟩".toList, "[1|(5+6)|(2+7)|1]".toList,
                "Δ_12|347|56".toList] else []),
              (if 7 ≤ n then (gen5 n).map fiveText else []), allS n,
              allD n ++ (if n = 6 then ["Δ_15|26|34".toList, "Δ_14|23|56".toList, "Δ_13|24|56".toList] else []),
              allO 'Ω' n, allO 'Π' n, allTr5 n]

end Lips

import Verif.Model.Image
import Verif.Model.FixMom

/-!
Model of the base-one list methods of `Particles` (lips/particles.py, lips/tools.py), of
`Particles.__eq__`, `_complementary` and `ijk_to_3NonOverlappingLists`.
-/

namespace Lips

variable {α : Type*}

/-! ### Base-one indexing -/

/-- `indexing_decorator`, tools.py:122-140, for an integer index: the position passed on. -/
def rebase (len : ℕ) (i : ℤ) : Except Err ℕ :=
  if i < 1 then .error .indexError
  else if i < len + 1 then .ok (i - 1).toNat
  else .error .indexError

/-- `__getitem__` with an integer, particles.py:392-406. -/
def pyGet (l : List α) (i : ℤ) : Except Err α :=
  match rebase l.length i with
  | .ok k => match l[k]? with
    | some x => .ok x
    | none => .error .indexError
  | .error e => .error e

/-- `__setitem__` with an integer, particles.py:408-424: new list and exception, if any. -/
def pySet (l : List α) (i : ℤ) (v : α) : List α × Option Err :=
  match rebase l.length i with
  | .ok k => if k < l.length then (l.set k v, none) else (l, some .indexError)
  | .error e => (l, some e)

/-- `__delitem__`, particles.py:426-428. -/
def pyDel (l : List α) (i : ℤ) : List α × Option Err :=
  match rebase l.length i with
  | .ok k => if k < l.length then (l.eraseIdx k, none) else (l, some .indexError)
  | .error e => (l, some e)

/-- `insert`, particles.py:430-432. `list.insert` clips its index, which the decorator has
already bounded. -/
def pyInsert (l : List α) (i : ℤ) (v : α) : List α × Option Err :=
  match rebase l.length i with
  | .ok k => (l.insertIdx (min k l.length) v, none)
  | .error e => (l, some e)

/-- One step of a history of list operations. -/
inductive LOp (α : Type*) where
  | set (i : ℤ) (v : α)
  | del (i : ℤ)
  | insert (i : ℤ) (v : α)

/-- One step. -/
def LOp.run (l : List α) : LOp α → List α × Option Err
  | .set i v => pySet l i v
  | .del i => pyDel l i
  | .insert i v => pyInsert l i v

/-! ### String indices -/

/-- Which spinor a string index names. -/
inductive SpSlot where
  | Au | Ad | Su | Sd
  deriving DecidableEq, Repr

/-- `^(?:o)(\d+)(?:c)$` with `o` one of `opens` and `c` one of `closes`. Simplification: ASCII
digits, and `$` is the end of the string. -/
def matchSp (opens closes : List Char) (s : List Char) : Option ℕ :=
  match s with
  | [] => none
  | o :: rest =>
    match rest.getLast? with
    | some c =>
      if o ∈ opens ∧ c ∈ closes ∧ isDigits rest.dropLast then
        some (Nat.ofDigitChars 10 rest.dropLast 0) else none
    | none => none

/-- `pAu`, `pAd`, `pSu`, `pSd`, tools.py:41-46, tried in the order of particles.py:411-422. -/
def parseSp (s : List Char) : Option (SpSlot × ℕ) :=
  match matchSp ['⟨', '<'] ['|'] s with
  | some a => some (.Au, a)
  | none =>
    match matchSp ['|'] ['⟩', '>'] s with
    | some b => some (.Ad, b)
    | none =>
      match matchSp ['|'] [']'] s with
      | some a => some (.Su, a)
      | none =>
        match matchSp ['['] ['|'] s with
        | some b => some (.Sd, b)
        | none => none

/-- `re.findall(r"(\d)", index)[0]` as an integer, particles.py:397-398. -/
def firstDigit (s : List Char) : Option ℕ := (s.find? Char.isDigit).map fun c => c.toNat - 48

section Spinors
variable {K : Type*} [Field K]

/-- What string indexing returns: a spinor slot, or a particle. -/
inductive StrRead (K : Type*) where
  | spinor (s : Option (V2 K))
  | particle (p : Particle K)

/-- The accessor named by a slot, particles_compute.py:161-172. -/
def readSp (p : Particle K) : SpSlot → Option (V2 K)
  | .Au => p.r_u
  | .Ad => p.r_d
  | .Su => p.l_u
  | .Sd => p.l_d

/-- The setter named by a slot, particles.py:411-422. -/
def writeSp (c : Ctx K) (p : Particle K) (s : SpSlot) (v : V2 K) : Out K :=
  match s with
  | .Au => setRu c p v
  | .Ad => setRd c p v
  | .Su => setLu c p v
  | .Sd => setLd c p v

/-- `__getitem__` with a string, particles.py:394-400. -/
def strGet (l : List (Particle K)) (s : List Char) : Except Err (StrRead K) :=
  match parseSp s with
  | some (sl, k) => match pyGet l k with
    | .ok p => .ok (.spinor (readSp p sl))
    | .error e => .error e
  | none => match firstDigit s with
    | some d => match pyGet l d with
      | .ok p => .ok (.particle p)
      | .error e => .error e
    | none => .error .indexError

/-- `__setitem__` with a string, particles.py:409-422: the particle is changed in place; a
string matching none of the four patterns falls through without effect. -/
def strSet (c : Ctx K) (l : List (Particle K)) (s : List Char) (v : V2 K) :
    List (Particle K) × Option Err :=
  match parseSp s with
  | some (sl, k) => match pyGet l k with
    | .ok p => (l.set (k - 1) (writeSp c p sl v).st, (writeSp c p sl v).err)
    | .error e => (l, some e)
  | none => (l, none)

end Spinors

/-! ### Equality -/

/-- `all(self[i] == other[i] for i in range(1, len(self) + 1))`, particles.py:89-94: stops at the
first difference, raises IndexError when `other` is exhausted first. -/
def pointsEq (eq : α → α → Bool) : List α → List α → Except Err Bool
  | [], _ => .ok true
  | _ :: _, [] => .error .indexError
  | x :: xs, y :: ys => if eq x y then pointsEq eq xs ys else .ok false

/-! ### Complement -/

/-- `Particles._complementary`, particles.py:453-469. The loop removes the elements of the set
one by one from `[1, ..., n]`; the order in which a set is traversed does not change the result,
here it is the order of first occurrences. Simplification: integer entries (strings of integers
are converted and converted back). -/
def complementary (n : ℕ) (t : List ℤ) : Except Err (List ℤ) :=
  if t = [] then .error .indexError
  else .ok (t.dedup.foldl (fun acc e => if e ∈ acc then acc.erase e else acc)
    ((List.range' 1 n).map Int.ofNat))

/-! ### Arcs -/

/-- `(last_entry + 1) % len(self)` with 0 replaced by `len(self)`, particles.py:479-481. -/
def nextLabel (n : ℕ) (x : ℤ) : ℤ := if (x + 1) % n = 0 then n else (x + 1) % n

/-- The `while True` loop, particles.py:477-486, growing the list `acc ++ [x]` whose last entry
is `x`; `others` are the two other lists. `none`: the given number of iterations did not suffice. -/
def growArc (n : ℕ) (others : List ℤ) : ℕ → ℤ → List ℤ → Option (List ℤ)
  | 0, _, _ => none
  | k + 1, x, acc =>
    if nextLabel n x ∈ others then some (acc ++ [x])
    else growArc n others k (nextLabel n x) (acc ++ [x])

/-- `ijk_to_3NonOverlappingLists` in mode 1, particles.py:474-491, every loop running for at most
`fuel` iterations. `len(self) = 0` (ZeroDivisionError) is excluded by the callers. -/
def arcs (n fuel : ℕ) (a b c : ℤ) : Option (List ℤ × List ℤ × List ℤ) :=
  match growArc n ([b] ++ [c]) fuel a [] with
  | none => none
  | some A =>
    match growArc n ([c] ++ A) fuel b [] with
    | none => none
    | some B =>
      match growArc n (A ++ B) fuel c [] with
      | none => none
      | some C => some (A, B, C)

end Lips

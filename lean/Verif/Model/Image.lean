import Verif.Model.Basic

/-!
Model of `Particles.image` and `Particles.copy` (lips/particles.py) and of
`lips/symmetries.py`.

A phase-space point is here a list of particles of an arbitrary type `α` with the Boolean
equality `eq` that `Particle.__eq__` provides; strings are lists of characters.
-/

namespace Lips

variable {α : Type*}

/-- `str(i)` for a natural number. -/
def pyStr (i : ℕ) : List Char := Nat.toDigits 10 i

/-- `str.isdigit()`: not empty and all characters digits. Simplification: ASCII digits only. -/
def isDigits (s : List Char) : Bool := !s.isEmpty && s.all Char.isDigit

/-- `list.index(x)`: the first position holding an element equal to `x`. Every `x` looked up
by `image` is an element of the list, so ValueError never occurs. -/
def pyIndex (eq : α → α → Bool) (l : List α) (x : α) : ℕ := l.findIdx (fun y => eq y x)

/-- The keys `permutation_or_rule[self.index(x)]` of all elements, particles.py:149; `none` is
an IndexError for a string that is too short. -/
def imageKeys (eq : α → α → Bool) (l : List α) (p : List Char) : List α → Option (List (Char × α))
  | [] => some []
  | x :: xs =>
    match p[pyIndex eq l x]?, imageKeys eq l p xs with
    | some c, some r => some ((c, x) :: r)
    | _, _ => none

/-- `image` for a string, particles.py:146-152. `sorted` is a stable sort by key; keys are
characters. Simplification: the copied `__dict__` (field, reference vector, internal masses)
is not part of the list; the deep copy makes result and `self` share no object, which is what a
pure function expresses. -/
def imageStr (eq : α → α → Bool) (l : List α) (p : List Char) : Except Err (List α) :=
  if isDigits p then
    match imageKeys eq l p l with
    | some ks => .ok ((ks.mergeSort (fun a b => decide (a.1 ≤ b.1))).map Prod.snd)
    | none => .error .indexError
  else .error .valueError

/-- `image` for a rule `(permutation, flag)`, particles.py:153-158; `swap` is
`Particle.angles_for_squares`. -/
def imageRule (eq : α → α → Bool) (swap : α → α) (l : List α) (r : List Char × Bool) :
    Except Err (List α) :=
  match imageStr eq l r.1 with
  | .ok m => .ok (if r.2 then m.map swap else m)
  | .error e => .error e

/-- `identity`, symmetries.py:30-31. -/
def identityRule (n : ℕ) : List Char × Bool := ((List.range' 1 n).flatMap pyStr, false)

/-- `copy`, particles.py:160-162. -/
def copyPoint (eq : α → α → Bool) (swap : α → α) (l : List α) : Except Err (List α) :=
  imageRule eq swap l (identityRule l.length)

/-- `int(c)` for one character. -/
def intChar (c : Char) : Option ℕ := if c.isDigit then some (c.toNat - 48) else none

/-- `l[int(entry) - 1] = v`, symmetries.py:21: index `-1` (entry `0`) writes the last element,
an index beyond the end raises IndexError. -/
def setMinusOne (l : List ℕ) (e v : ℕ) : Except Err (List ℕ) :=
  if e = 0 then (if l = [] then .error .indexError else .ok (l.set (l.length - 1) v))
  else if e ≤ l.length then .ok (l.set (e - 1) v) else .error .indexError

/-- The loop of `inverse`, symmetries.py:20-21, from position `i` on. -/
def inverseLoop : ℕ → List Char → List ℕ → Except Err (List ℕ)
  | _, [], acc => .ok acc
  | i, c :: cs, acc =>
    match intChar c with
    | none => .error .valueError
    | some e =>
      match setMinusOne acc e (i + 1) with
      | .ok acc' => inverseLoop (i + 1) cs acc'
      | .error e => .error e

/-- `inverse` of a string, symmetries.py:18-23. -/
def inverseStr (p : List Char) : Except Err (List Char) :=
  match inverseLoop 0 p (List.replicate p.length 0) with
  | .ok l => .ok (l.flatMap pyStr)
  | .error e => .error e

/-- `inverse` of a symmetry, symmetries.py:24-25. -/
def inverseRule (r : List Char × Bool) : Except Err (List Char × Bool) :=
  match inverseStr r.1 with
  | .ok p => .ok (p, r.2)
  | .error e => .error e

/-- `itertools.permutations(l)`: all orderings in lexicographic order of positions; called with
`k = len(l)`. -/
def pyPerms {β : Type*} : ℕ → List β → List (List β)
  | 0, _ => [[]]
  | k + 1, l => (List.range l.length).flatMap fun i =>
      match l[i]? with
      | some x => (pyPerms k (l.eraseIdx i)).map (x :: ·)
      | none => []

/-- `[phase_weights[i - 1] for i in permutation]`, symmetries.py:11-12. -/
def permWeights (w : List ℤ) (q : List ℕ) : List ℤ := q.map fun i => w.getD (i - 1) 0

/-- The list before the permutations are joined into strings, symmetries.py:8-12. -/
def symPairs (w : List ℤ) : List (List ℕ × Bool) :=
  (pyPerms w.length (List.range' 1 w.length)).filterMap fun q =>
    if permWeights w q = w then some (q, false)
    else if permWeights w q = w.map (- ·) then some (q, true) else none

/-- `phase_weights_compatible_symmetries`, symmetries.py:5-13. Simplification: integer weights. -/
def phaseSymmetries (w : List ℤ) : List (List Char × Bool) :=
  (symPairs w).map fun r => (r.1.flatMap pyStr, r.2)

/-- `all_symmetries`, symmetries.py:34-35. -/
def allSymmetries (n : ℕ) : List (List Char × Bool) := phaseSymmetries (List.replicate n 0)

end Lips

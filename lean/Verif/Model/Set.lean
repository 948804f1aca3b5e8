import Verif.Model.Compute
import Verif.Model.Indexing
import Verif.Model.Cluster

/-!
Model of the setters of single invariants, lips/hardcoded_limits/particles_set.py.

Invariants are given by the data that the regular expressions extract from their text (the text
front end is modelled in `Verif.Model.Front`). Simplification: labels are positions of the point.
The result is the new point or the exception that escapes; after an exception the point is not
recorded here (the code leaves it half modified).
-/

namespace Lips

open Matrix

variable {K : Type*} [Field K] {n : ℕ}

/-- `self._complementary(...)` of a non-empty collection of labels, particles.py:453-469, see
`complementary`: the remaining labels in increasing order. -/
def freeLabels (used : List (Fin n)) : List (Fin n) := (List.finRange n).filter fun k => decide (k ∉ used)

/-- `fix_mom_cons(plist[0], plist[1], axis=...)`: IndexError when there are fewer than two. -/
noncomputable def fixFirstTwo (c : Ctx K) (ps : Point K n) (plist : List (Fin n)) (axis2 : Bool) :
    Except Err (Point K n) :=
  match plist with
  | p :: q :: _ => if axis2 then fixAxis2 c ps p q else fixAxis1 c ps p q
  | _ => .error .indexError

/-- Assignment to one particle of the point. -/
def store (ps : Point K n) (k : Fin n) (o : Out K) : Except Err (Point K n) :=
  match o.toExcept with
  | .ok p => .ok (Function.update ps k p)
  | .error e => .error e

/-- Optional momentum fixing. -/
noncomputable def fixIf (c : Ctx K) (fix : Bool) (axis2 : Bool) (plist : List (Fin n))
    (r : Except Err (Point K n)) : Except Err (Point K n) :=
  match r with
  | .error e => .error e
  | .ok ps => if fix then fixFirstTwo c ps plist axis2 else .ok ps

/-! ### Two-particle brackets -/

/-- `_set_A2`, particles_set.py:79-91. The exception of line 85 is created but not raised. -/
noncomputable def setA2 (c : Ctx K) (ps : Point K n) (A B : Fin n) (X : K) (fix : Bool) :
    Except Err (Point K n) :=
  match need (ps A).r_u, need (ps B).r_d with
  | .ok u, .ok w =>
    match pyDiv (X - u 1 * w 1) (u 0) with
    | .error e => .error e
    | .ok x => fixIf c fix true (freeLabels [A, B]) (store ps B (setRd c (ps B) ![x, w 1]))
  | .error e, _ => .error e
  | _, .error e => .error e

/-- `_set_S2`, particles_set.py:95-107. -/
noncomputable def setS2 (c : Ctx K) (ps : Point K n) (A B : Fin n) (X : K) (fix : Bool) :
    Except Err (Point K n) :=
  match need (ps A).l_d, need (ps B).l_u with
  | .ok u, .ok w =>
    match pyDiv (X - u 1 * w 1) (u 0) with
    | .error e => .error e
    | .ok x => fixIf c fix false (freeLabels [A, B]) (store ps B (setLu c (ps B) ![x, w 1]))
  | .error e, _ => .error e
  | _, .error e => .error e

/-! ### Spinor strings -/

/-- A spinor string without minus signs, as `_get_lNB` reads it (particles.py:445-451), with its first
and last character. -/
structure Str (n : ℕ) where
  first : Char
  s : Fin n
  ms : List (List (Fin n))
  e : Fin n
  last : Char

/-- A list of labels as a slot. -/
def plusOf (ls : List (Fin n)) : Slot n := ls.map fun l => (true, l)

/-- `self.compute(temp_string)`. -/
def Str.value (ps : Point K n) (t : Str n) : Except Err K :=
  computeNB ps t.first t.s (t.ms.map plusOf) t.e t.last

/-- All labels of the string. -/
def Str.labels (t : Str n) : List (Fin n) := t.s :: (t.ms.flatten ++ [t.e])

/-- The slots with slot `i` replaced through momentum conservation, particles_set.py:119-127. -/
def Str.flip (t : Str n) (i : ℕ) : List (List (Fin n)) :=
  let m := t.ms.getD i []
  let alt := if i = 0 then freeLabels (m ++ [t.s])
    else if i = t.ms.length - 1 then freeLabels (m ++ [t.e]) else freeLabels m
  t.ms.set i alt

/-- The search for a replacement that leaves two labels free, particles_set.py:118-137: the string, and
whether a slot was replaced. A slot replaced by no label at all makes the later steps raise, here as
in the code. -/
def Str.findFlip (t : Str n) : Option (Str n) :=
  ((List.range t.ms.length).find? fun i =>
    decide (2 ≤ (freeLabels ({ t with ms := t.flip i } : Str n).labels).length)).map
      fun i => { t with ms := t.flip i }

/-- `unique_head_or_tail`, particles_set.py:143-154: `some false` for the head, `some true` for the
tail. The two loops skip the other end when the number of slots is odd (the ends are then spinors of
different kinds). -/
def Str.uniqueEnd (t : Str n) : Option Bool :=
  if t.s ∉ t.ms.flatten ∧ (t.ms.length % 2 = 1 ∨ t.s ≠ t.e) then some false
  else if t.e ∉ t.ms.flatten ∧ (t.ms.length % 2 = 1 ∨ t.s ≠ t.e) then some true
  else none

/-- Labels of slot `i` that occur in no other slot and at no end: the position of the first,
particles_set.py:159-167. -/
def Str.uniqueIn (t : Str n) (i : ℕ) : Option ℕ :=
  (t.ms.getD i []).findIdx? fun x =>
    decide (x ≠ t.s ∧ x ≠ t.e ∧ x ∉ (t.ms.eraseIdx i).flatten)

/-- `unique_extrema_of_middle`, particles_set.py:156-169: slot and position. -/
def Str.uniqueMiddle (t : Str n) : Option (ℕ × ℕ) :=
  match t.uniqueIn 0 with
  | some j => some (0, j)
  | none => (t.uniqueIn (t.ms.length - 1)).map fun j => (t.ms.length - 1, j)

/-- The bracket that closes what the given one opens, and conversely, particles_set.py:184-185. -/
def mirror (ch : Char) : Char :=
  if ch = '⟨' then '⟩' else if ch = '⟩' then '⟨' else if ch = '[' then ']' else if ch = ']' then '[' else ch

/-- `temp_string[::-1]` with brackets mirrored, particles_set.py:182-185. -/
def Str.reverse (t : Str n) : Str n :=
  ⟨mirror t.last, t.e, (t.ms.map List.reverse).reverse, t.s, mirror t.first⟩

/-- Setting the head, particles_set.py:188-222. With another first character `rest` stays an array, on
which `eval` raises. -/
noncomputable def setHead (c : Ctx K) (ps : Point K n) (t : Str n) (X : K) : Except Err (Point K n) :=
  if t.first ≠ '⟨' ∧ t.first ≠ '[' then .error .typeError
  else
    let M := chain ps (t.first = '⟨') (t.ms.map plusOf)
    if t.s = t.e ∧ t.ms.length % 2 = 0 then
      if t.first = '⟨' then
        match need (ps t.s).r_d with
        | .error e => .error e
        | .ok r =>
          let B := r 1
          match c.sqrt ((B * M 0 0 - B * M 1 1) * (B * M 0 0 - B * M 1 1) + 4 * M 1 0 * (B * B * M 0 1 - X)) with
          | none => .error .valueError
          | some q =>
            match pyDiv (B * M 0 0 - B * M 1 1 + q) (2 * M 1 0) with
            | .error e => .error e
            | .ok A => store ps t.s (setRd c (ps t.s) ![A, B])
      else
        match need (ps t.s).l_d with
        | .error e => .error e
        | .ok l =>
          let B := l 1
          match c.sqrt ((B * M 0 0 - B * M 1 1) * (B * M 0 0 - B * M 1 1) + 4 * M 0 1 * (B * B * M 1 0 - X)) with
          | none => .error .valueError
          | some q =>
            match pyDiv (B * M 0 0 - B * M 1 1 + q) (2 * M 0 1) with
            | .error e => .error e
            | .ok A => store ps t.s (setLd c (ps t.s) ![A, B])
    else
      match (if t.last = '⟩' then need (ps t.e).r_d else need (ps t.e).l_u) with
      | .error e => .error e
      | .ok w =>
        let v := M.mulVec w
        if t.first = '⟨' then
          match need (ps t.s).r_u with
          | .error e => .error e
          | .ok u =>
            match pyDiv (X - u 1 * v 1) (v 0) with
            | .error e => .error e
            | .ok x => store ps t.s (setRu c (ps t.s) ![x, u 1])
        else
          match need (ps t.s).l_d with
          | .error e => .error e
          | .ok u =>
            match pyDiv (X - u 1 * v 1) (v 0) with
            | .error e => .error e
            | .ok x => store ps t.s (setLd c (ps t.s) ![x, u 1])

/-- Exchange the first entry with the one at position `j`, particles_set.py:225-228. -/
def toFront (l : List (Fin n)) (j : ℕ) : List (Fin n) :=
  match l, l[j]? with
  | x :: _, some y => (l.set j x).set 0 y
  | _, _ => l

/-- The rewritten string, particles_set.py:225-247: the unique label moved to the front of its slot,
the slots and ends reversed if that is the last slot (and not the first). -/
def Str.toFirst (t : Str n) (i j : ℕ) : Str n :=
  let ms := t.ms.set i (toFront (t.ms.getD i []) j)
  if i = 0 then { t with ms := ms }
  else ⟨if t.last = '⟩' then '⟨' else '[', t.e, ms.reverse, t.s, if t.first = '⟨' then '⟩' else ']'⟩

/-- The string of which the unique label is the head, particles_set.py:253-260; without slots it is a
bracket of two labels. `first` is the first character of the original string. -/
def endOfPart (ps : Point K n) (first : Char) (b : Fin n) (ms : List (List (Fin n))) (d : Fin n) (last : Char) :
    Except Err K :=
  let open' := if first = '⟨' then '[' else '⟨'
  match ms with
  | [] =>
    if open' = '[' ∧ last = ']' then square (ps b) (ps d)
    else if open' = '⟨' ∧ last = '⟩' then angle (ps b) (ps d)
    else .error .syntaxError
  | _ => computeNB ps open' b (ms.map plusOf) d last

/-- Setting through a unique label in the first or last slot, particles_set.py:224-265.
First and last characters are those of well-formed strings; others leave names unbound. -/
noncomputable def setMiddle (c : Ctx K) (ps : Point K n) (t : Str n) (i j : ℕ) (X : K) :
    Except Err (Point K n) :=
  let u := t.toFirst i j
  match u.ms with
  | (b :: _) :: rest =>
    match u.value ps, ({ u with ms := [b] :: rest } : Str n).value ps, endOfPart ps t.first b rest u.e u.last with
    | .ok total, .ok part, .ok tail =>
      match pyDiv (X - (total - part)) tail with
      | .error e => .error e
      | .ok target =>
        if t.first = '⟨' then setA2 c ps u.s b target false
        else if t.first = '[' then setS2 c ps u.s b target false
        else .error .exception
    | .error e, _, _ => .error e
    | _, .error e, _ => .error e
    | _, _, .error e => .error e
  | _ => .error .valueError

/-- Fixing momentum at the end of `_set_NB`, particles_set.py:267-287. `a` is the label that was set
(the head of the string, after a possible reversal), `first` the first character of the final string. -/
noncomputable def fixNB (c : Ctx K) (ps : Point K n) (t : Str n) (a : Fin n) (first : Char) :
    Except Err (Point K n) :=
  let plist := freeLabels t.labels
  if 2 ≤ plist.length then fixFirstTwo c ps plist false
  else fixFirstTwo c ps (plist ++ [a]) (decide (first ≠ '['))

/-- `_set_NB`, particles_set.py:111-287, for strings whose labels have one digit (with other labels
the text manipulations go wrong; this is not modelled). The recursive call of line 186 goes through
`_set_inner` to this function; `fuel` bounds the recursion. -/
noncomputable def setNB (c : Ctx K) : ℕ → Point K n → Str n → K → Bool → ℕ → Except Err (Point K n)
  | 0, _, _, _, _, _ => .error .exception
  | fuel + 1, ps, t₀, X₀, fix, mode =>
    let flipped := if (freeLabels t₀.labels).length < 2 ∧ fix = true then t₀.findFlip else none
    let t := flipped.getD t₀
    let X := if flipped.isSome then -X₀ else X₀
    let headCase := ((t.uniqueEnd.isSome = true ∨ (t.s = t.e ∧ t.s ∉ t.ms.flatten ∧ t.ms.length % 2 = 0)) ∧ mode = 1) ∨
      t.uniqueMiddle = none
    if headCase then
      if t.uniqueEnd = some true then setNB c fuel ps t.reverse X fix mode
      else
        match setHead c ps t X with
        | .error e => .error e
        | .ok ps' => if fix then fixNB c ps' t t.s t.first else .ok ps'
    else
      match t.uniqueMiddle with
      | none => .error .exception
      | some (i, j) =>
        match setMiddle c ps t i j X with
        | .error e => .error e
        | .ok ps' => if fix then fixNB c ps' t (t.toFirst i j).s (t.toFirst i j).first else .ok ps'

/-! ### Mandelstams -/

/-- `_set_Sijk`, particles_set.py:291-311, modes 1 and 2 (in any other mode the name `str1` is not
bound). With two labels it returns without doing anything, line 296. -/
noncomputable def setS (c : Ctx K) (ps : Point K n) (ls : List (Fin n)) (X : K) (fix : Bool) (mode : ℕ) :
    Except Err (Point K n) :=
  match ls with
  | [_, _] => .ok ps
  | i :: rest =>
    if mode ≠ 1 ∧ mode ≠ 2 then .error .exception
    else
      let t : Str n := if mode = 1 then ⟨'⟨', i, [rest], i, ']'⟩ else ⟨'[', i, [rest], i, '⟩'⟩
      match t.value ps with
      | .error e => .error e
      | .ok v => setNB c 3 ps t (X - (computeS ps ls - v)) fix 1
  | [] => .error .indexError

/-! ### Gram determinants -/

/-- `_set_Dijk`, particles_set.py:315-351, given the lists of labels of the three corners.
`oQs = self.cluster(...)` needs non-empty corners: an empty first corner (after `pop`) becomes the
integer 0, on which `Particles` raises. Negative indices of `pop` do not occur. -/
noncomputable def setD (c : Ctx K) (ps : Point K n) (A B C : List (Fin n)) (X : K) (fix : Bool) (mode : ℕ) :
    Except Err (Point K n) :=
  match A[(mode - 1) / 2]? with
  | none => .error .indexError
  | some k =>
    match clusterLeg c ps (A.eraseIdx ((mode - 1) / 2)), clusterLeg c ps B, clusterLeg c ps C with
    | some Q1, some Q2, some _ =>
      match need (ps k).r_u, need (ps k).l_u with
      | .ok ru, .ok lu =>
        let b := if mode % 2 = 1 then ru 1 else lu 1
        let v := if mode % 2 = 1 then Q2.r2b.mulVec lu else vecMul ru Q2.r2b
        let w := if mode % 2 = 1 then Q1.r2b.mulVec lu else vecMul ru Q1.r2b
        let al := v 0
        let be := v 1
        let ga := w 0
        let de := w 1
        let QA := al ^ 2 / 4
        let QB := al * b * be / 2 + al * ldot Q1 Q2 - ga * ldot Q2 Q2
        let QC := b ^ 2 * be ^ 2 / 4 + b * be * ldot Q1 Q2 - b * de * ldot Q2 Q2 + ldot Q1 Q2 ^ 2 -
          ldot Q1 Q1 * ldot Q2 Q2 - X
        match c.sqrt (QB ^ 2 - 4 * QA * QC) with
        | none => .error .valueError
        | some q =>
          match pyDiv (-QB + q) (2 * QA) with
          | .error e => .error e
          | .ok x =>
            match store ps k (if mode % 2 = 1 then setRu c (ps k) ![x, b] else setLu c (ps k) ![x, b]) with
            | .error e => .error e
            | .ok ps' => if fix then fixFirstTwo c ps' (C.reverse) false else .ok ps'
      | .error e, _ => .error e
      | _, .error e => .error e
    | _, _, _ => .error .attributeError

/-! ### tr5 at six points and above -/

/-- `_set_tr5`, particles_set.py:462-473 and 510-518, for at least six particles: the slots are rotated
until the first is a single one-digit label. -/
noncomputable def setTr5 (c : Ctx K) (ps : Point K n) (a b d e : Slot n) (X : K) (fix : Bool) :
    Except Err (Point K n) :=
  match tr5Rotate 4 (a, b, d, e) with
  | some ((true, k) :: _, b, d, e) =>
    match computeOpenEnd ps '[' k [b, d, e], computeOpenEnd ps '[' k [e, d, b], need (ps k).r_d with
    | .ok x, .ok y, .ok r =>
      match pyDiv (X - (x 1 - y 1) * r 1) (x 0 - y 0) with
      | .error er => .error er
      | .ok v => fixIf c fix false (freeLabels (k :: ((b ++ d ++ e).map Prod.snd)))
          (store ps k (setRd c (ps k) ![v, r 1]))
    | .error er, _, _ => .error er
    | _, .error er, _ => .error er
    | _, _, .error er => .error er
  | _ => .error .notImplemented

/-! ### Difference of five-brackets -/

/-- `_set_p5Bdiff`, particles_set.py:522-535, for `(⟨a|b|c+d|e|a]-⟨b|f|c+d|e|b])`. -/
noncomputable def set5B (c : Ctx K) (ps : Point K n) (a b x y e f : Fin n) (X : K) (fix : Bool) :
    Except Err (Point K n) :=
  match computeNB ps '⟨' a [plusOf [b], plusOf [x, y]] e '⟩', need (ps a).l_d,
      computeNB ps '⟨' b [plusOf [f], plusOf [x, y]] e '⟩', need (ps b).l_d, need (ps e).l_u with
  | .ok p, .ok la, .ok q, .ok lb, .ok w =>
    match pyDiv (-X - (p * la 1 - q * lb 1) * w 1) (p * la 0 - q * lb 0) with
    | .error er => .error er
    | .ok v => fixIf c fix false [x, y] (store ps e (setLu c (ps e) ![v, w 1]))
  | .error er, _, _, _, _ => .error er
  | _, .error er, _, _, _ => .error er
  | _, _, .error er, _, _ => .error er
  | _, _, _, .error er, _ => .error er
  | _, _, _, _, .error er => .error er

end Lips

import Verif.Model.Call
import Verif.Model.SetTr5

/-!
Model of `_set` and `_set_inner`, lips/hardcoded_limits/particles_set.py:23-75, on the text of the
invariant, and of `check_consistency`, lips/particles.py:494-525.

`none` stands for texts outside the model: characters other than ASCII and the brackets and Greek
letters of the patterns (Python's `\d` matches further digits), strings written with `<` or `>`,
strings with labels of several digits or out of range (the text manipulations of `_set_NB` go wrong on the
former and may drop the latter), Mandelstams of one label, Gram determinants with explicit corners other
than three, tr5 of slots that do not read as labels, and texts whose value is outside Model/Call.
-/

namespace Lips

/-! ### `check_consistency` -/

/-- `check_consistency`, particles.py:494-525. Its exceptions are created but not raised (lines 508, 513,
519-525), so that only the look-ups `temp_string[0]`, `[1]` and `[4]` can raise. -/
def checkConsistency (t : List Char) : Except Err Unit :=
  match t with
  | [] => .error .indexError
  | init :: _ =>
    if init ∈ ['s', 'S', 'Δ', 'Ω', 'Π', 'δ'] ∨ t.take 3 = "tr5".toList then
      match t[1]? with
      | none => .error .indexError
      | some c =>
        if init = 'δ' ∧ c = '5' then .ok ()
        else if c = '_' then .ok ()
        else if t.take 3 = "tr5".toList ∧ t[4]? = none then .error .indexError
        else .ok ()
    else .ok ()

/-! ### Dispatch -/

/-- What `_set_inner` takes a text for. -/
inductive SetForm where
  | angle (a b : List Char)
  | square (a b : List Char)
  | string (first : Char) (a : List Char) (mid : List (List Char)) (d : List Char) (last : Char)
  | mandelstam (ds : List Char)
  | delta (corners : List (List Char))
  | omega (ds : List Char)
  | pi (ds : List Char)
  | tr5 (abcd : List Char)
  | diff (a b cd e f : List Char)
  | nothing
  deriving DecidableEq, Repr

/-- `\({0,1}` and `\){0,1}` around the group `cd`, tools.py:54. The group contains no parentheses. -/
def stripOuter (t : List Char) : List Char :=
  let u := if t.head? = some '(' then t.tail else t
  if u.getLast? = some ')' then u.dropLast else u

/-- The group `cd` of `p5Bdiff`, tools.py:54: `[\d+[\+]*]*`, characters out of digits, `+` and `[`, then
any number of `]`. -/
def cdGroup (t : List Char) : Bool :=
  ((t.dropWhile fun c => c.isDigit || c = '+' || c = '[').all fun c => c = ']')

/-- `p5Bdiff`, tools.py:54: no group contains a bar. -/
def match5B (t : List Char) : Option (List Char × List Char × List Char × List Char × List Char) :=
  match t.splitOn '|' with
  | [p0, b, m, e, p4, f, m', e', p8] =>
    match p0 with
    | '(' :: '⟨' :: a =>
      if isDigits a ∧ isDigits b ∧ isDigits e ∧ isDigits f ∧ p4 = a ++ "]-⟨".toList ++ b ∧ e' = e ∧
          p8 = b ++ "])".toList ∧ cdGroup (stripOuter m) ∧ stripOuter m' = stripOuter m then
        some (a, b, stripOuter m, e, f) else none
    | _ => none
  | _ => none

/-- The sequence of `if` statements of `_set_inner`, particles_set.py:41-75. -/
def setClassify (t : List Char) : SetForm :=
  match matchTwo ['⟨', '<'] ['⟩', '>'] t with
  | some (a, b) => .angle a b
  | none =>
  match matchTwo ['['] [']'] t with
  | some (a, b) => .square a b
  | none =>
  match matchNB t with
  | some (o, a, ms, d, c) => .string o a ms d c
  | none =>
  match matchS t with
  | some ds => .mandelstam ds
  | none =>
  match matchDelta t with
  | some cs => .delta cs
  | none =>
  match afterDigits "Ω_".toList t with
  | some ds => .omega ds
  | none =>
  match afterDigits "Π_".toList t with
  | some ds => .pi ds
  | none =>
  match matchTr5 t with
  | some m => .tr5 m
  | none =>
  match match5B t with
  | some (a, b, cd, e, f) => .diff a b cd e f
  | none => .nothing

/-! ### The setters on text -/

section
variable {K : Type*} [Field K] {n : ℕ}

/-- All labels have one digit, and the search for a slot to flip (particles_set.py:117-137) does not bring
in labels with more digits. -/
def nbModelled (labels : List (Fin n)) : Prop :=
  (∀ l ∈ labels, (l : ℕ) + 1 < 10) ∧ (n < 10 ∨ 2 ≤ (freeLabels labels).length)

instance (labels : List (Fin n)) : Decidable (nbModelled labels) := inferInstanceAs (Decidable (_ ∧ _))

/-- `_set_NB` on text, particles_set.py:111-115. A minus sign (line 112, the exception is not raised) makes
`int` raise ValueError. -/
noncomputable def setNBText (c : Ctx K) (ps : Point K n) (t : List Char) (first last : Char) (X : K) (fix : Bool)
    (mode : ℕ) : Option (Except Err (Point K n)) :=
  match getLNB t with
  | .error e => some (.error e)
  | .ok (s, ms, e) =>
    if first = '<' ∨ last = '>' then none
    else
      match label n s, ms.mapM (fun m => m.mapM (label n)), label n e with
      | .ok s, .ok ms, .ok e =>
        if nbModelled (Str.labels ⟨first, s, ms, e, last⟩) then
          some (setNB c (n + 3) ps ⟨first, s, ms, e, last⟩ X fix mode) else none
      | _, _, _ => none

/-- `_set_Sijk` on text, particles_set.py:291-296: with two labels nothing is done, before any particle is
looked up. -/
noncomputable def setSText (c : Ctx K) (ps : Point K n) (ds : List Char) (X : K) (fix : Bool) (mode : ℕ) :
    Option (Except Err (Point K n)) :=
  if ds.length = 2 then some (.ok ps)
  else
    match readDigits n ds with
    | .error e => some (.error e)
    | .ok ls =>
      if ls.length ≤ 1 ∨ ¬nbModelled ls then none
      else some (setS c ps ls X fix mode)

/-- `_set_Dijk` on text, particles_set.py:317-323. -/
noncomputable def setDText (c : Ctx K) (ps : Point K n) (fuel : ℕ) (corners : List (List Char)) (X : K) (fix : Bool)
    (mode : ℕ) : Option (Except Err (Point K n)) :=
  if mode = 0 then none
  else
    match corners with
    | [ds] =>
      match shortCorners n fuel ds with
      | none => none
      | some (.error e) => some (.error e)
      | some (.ok (A, B, C)) => some (setD c ps A B C X fix mode)
    | [a, b, d] =>
      match readDigits n a, readDigits n b, readDigits n d with
      | .ok A, .ok B, .ok C => some (setD c ps A B C X fix mode)
      | _, _, _ => some (.error .indexError)
    | _ => none

/-- `_set_tr5` on text, particles_set.py:464-473. -/
noncomputable def setTr5Text (c : Ctx K) (ps : Point K n) (m : List Char) (X : K) (fix : Bool) :
    Option (Except Err (Point K n)) :=
  match unpack4 m with
  | .error e => some (.error e)
  | .ok (w, x, y, z) =>
    match readSlot n w, readSlot n x, readSlot n y, readSlot n z with
    | .ok w, .ok x, .ok y, .ok z => some (setTr5All c ps w x y z X fix)
    | _, _, _, _ => none

/-- `_set_p5Bdiff` on text, particles_set.py:522-525: the group `cd` has to consist of two labels. -/
noncomputable def set5BText (c : Ctx K) (ps : Point K n) (a b cd e f : List Char) (X : K) (fix : Bool) :
    Option (Except Err (Point K n)) :=
  match (cd.splitOn '+').mapM pyInt with
  | .ok [x, y] =>
    match readLabel n a, readLabel n b, label n x, label n y, readLabel n e, readLabel n f with
    | .ok a, .ok b, .ok x, .ok y, .ok e, .ok f => some (set5B c ps a b x y e f X fix)
    | _, _, _, _, _, _ => some (.error .indexError)
  | .ok _ => some (.error .valueError)
  | .error er => some (.error er)

/-- Setting what the text was taken for. A text that matches no pattern is ignored. -/
noncomputable def setForm (c : Ctx K) (ps : Point K n) (fuel : ℕ) (t : List Char) (X : K) (fix : Bool) (mode : ℕ) :
    SetForm → Option (Except Err (Point K n))
  | .angle a b => some (match readLabel n a, readLabel n b with
    | .ok a, .ok b => setA2 c ps a b X fix
    | .error e, _ => .error e
    | _, .error e => .error e)
  | .square a b => some (match readLabel n a, readLabel n b with
    | .ok a, .ok b => setS2 c ps a b X fix
    | .error e, _ => .error e
    | _, .error e => .error e)
  | .string o _ _ _ d => setNBText c ps t o d X fix mode
  | .mandelstam ds => setSText c ps ds X fix mode
  | .delta corners => setDText c ps fuel corners X fix mode
  | .omega ds => (shortCorners n fuel ds).map fun r => match r with
    | .ok (A, B, C) => setO c ps A B C X
    | .error e => .error e
  | .pi ds => (shortCorners n fuel ds).map fun r => match r with
    | .ok (A, B, C) => setP c ps A B C X
    | .error e => .error e
  | .tr5 m => setTr5Text c ps m X fix
  | .diff a b cd e f => set5BText c ps a b cd e f X fix
  | .nothing => some (.ok ps)

/-- The characters of the model. -/
def plainChars (t : List Char) : Bool :=
  t.all fun c => decide (c.toNat < 128) || decide (c ∈ ['⟨', '⟩', 'Δ', 'Ω', 'Π', 'δ'])

/-- `_set_inner`, particles_set.py:37-75. -/
noncomputable def setInner (c : Ctx K) (ps : Point K n) (fuel : ℕ) (t : List Char) (X : K) (fix : Bool) (mode : ℕ) :
    Option (Except Err (Point K n)) :=
  if plainChars t then
    match checkConsistency t with
    | .error e => some (.error e)
    | .ok () => setForm c ps fuel t X fix mode (setClassify t)
  else none

/-- The checks of `_set` after setting, particles_set.py:26-35; `v` is what `compute` returned. -/
def setChecks {Γ : Type*} [LinearOrder Γ] (abs : K → Γ) (tol : Γ) (ps : Point K n) (v X : K) (fix : Bool) :
    Except Err (Point K n) :=
  match (if fix then momentumConservationCheck abs tol ps else .ok true),
      (if fix then onshellRelationCheck abs tol ps else .ok true) with
  | .ok mom, .ok shell =>
    if mom = false then .error .exception
    else if shell = false then .error .exception
    else if abs (v - X) ≤ tol then .ok ps
    else .error .exception
  | .error e, _ => .error e
  | _, .error e => .error e

/-- `_set`, particles_set.py:23-35. `abs` and `tol` are the absolute value and tolerance of the field. -/
noncomputable def setText {Γ : Type*} [LinearOrder Γ] (abs : K → Γ) (tol : Γ) (c : Ctx K) (ps : Point K n) (fuel : ℕ)
    (t : List Char) (X : K) (fix : Bool) (mode : ℕ) : Option (Except Err (Point K n)) :=
  match setInner c ps fuel t X fix mode with
  | none => none
  | some (.error e) => some (.error e)
  | some (.ok ps') =>
    match callNumber ps' fuel t with
    | some (.error e) => some (.error e)
    | some (.ok v) => some (setChecks abs tol ps' v X fix)
    | none => none

end

end Lips

import Verif.Model.Compute
import Verif.Model.Indexing
import Verif.Model.Cluster
import Verif.Model.Masses

/-!
Model of the text side of `compute` (lips/particles_compute.py:76-276), of the regular expressions
it uses (lips/tools.py:32-51), and of `_get_lNB` and `_lNB_to_string` (lips/particles.py:436-451).

Strings are lists of characters. Throughout: `\d` is an ASCII digit and `$` is the end of the
string (Python also accepts a final newline).
-/

namespace Lips

/-! ### Regular expressions -/

/-- `[\+|-]`: the bar inside the brackets is a literal character. -/
def isOp (c : Char) : Bool := c = '+' || c = '|' || c = '-'

/-- States of the automaton of the `middle` group of `pNB`. -/
inductive NBq where
  | start | paren | digit | op | close | bar | dead
  deriving DecidableEq, Repr

/-- One step of `(?:\(?(?:\d+[\+|-]?)+\)?\|?)+`, tools.py:48. -/
def nbStep (q : NBq) (c : Char) : NBq :=
  match q with
  | .start | .bar => if c = '(' then .paren else if c.isDigit then .digit else .dead
  | .paren => if c.isDigit then .digit else .dead
  | .digit =>
    if c.isDigit then .digit else if isOp c then .op else if c = ')' then .close
    else if c = '(' then .paren else .dead
  | .op =>
    if c.isDigit then .digit else if c = ')' then .close else if c = '(' then .paren
    else if c = '|' then .bar else .dead
  | .close =>
    if c = '|' then .bar else if c.isDigit then .digit else if c = '(' then .paren else .dead
  | .dead => .dead

/-- The `middle` group of `pNB` matches the whole text. -/
def nbMiddle (t : List Char) : Bool :=
  match t.foldl nbStep .start with
  | .digit | .op | .close | .bar => true
  | _ => false

/-- States of the automaton of the `middle` group of the open strings. -/
inductive OBq where
  | start | digit | op | paren | inDigit | inOp | close | dead
  deriving DecidableEq, Repr

/-- One step of `(?:(?:\([\d]+(?:[\+|-]\d+)*\))|(?:[\d]+(?:[\+|-]\d+)*))+`, tools.py:49-51. -/
def obStep (q : OBq) (c : Char) : OBq :=
  match q with
  | .start | .close => if c = '(' then .paren else if c.isDigit then .digit else .dead
  | .digit => if c.isDigit then .digit else if isOp c then .op else if c = '(' then .paren else .dead
  | .op => if c.isDigit then .digit else .dead
  | .paren | .inOp => if c.isDigit then .inDigit else .dead
  | .inDigit =>
    if c.isDigit then .inDigit else if isOp c then .inOp else if c = ')' then .close else .dead
  | .dead => .dead

/-- The `middle` group of the open strings matches the whole text. -/
def obMiddle (t : List Char) : Bool :=
  match t.foldl obStep .start with
  | .digit | .close => true
  | _ => false

/-- States of the automaton of the `middle` group of `ptr`. -/
inductive TRq where
  | out | open0 | open1 | dead
  deriving DecidableEq, Repr

/-- One step of `(?:(?:\([\d+\+|-]{1,}\))|(?:[\d+\+|-]{1,}))*`, tools.py:37. -/
def trStep (q : TRq) (c : Char) : TRq :=
  match q with
  | .out => if c = '(' then .open0 else if c.isDigit || isOp c then .out else .dead
  | .open0 => if c.isDigit || isOp c then .open1 else .dead
  | .open1 => if c.isDigit || isOp c then .open1 else if c = ')' then .out else .dead
  | .dead => .dead

/-- The `middle` group of `ptr` matches the whole text. -/
def trMiddle (t : List Char) : Bool := t.foldl trStep .out = .out

/-- `pNB`, tools.py:48: first character, start, the bar-separated texts of the middle, end, last
character. The match is unique: start and end contain no bar. -/
def matchNB (t : List Char) : Option (Char × List Char × List (List Char) × List Char × Char) :=
  match t with
  | [] => none
  | o :: rest =>
    match rest.getLast?, rest.dropLast.splitOn '|' with
    | some c, a :: ps =>
      match ps.getLast? with
      | some d =>
        if (o ∈ ['<', '⟨', '[']) ∧ (c ∈ ['⟩', ']', '>']) ∧ isDigits a ∧ isDigits d ∧
            nbMiddle (['|'].intercalate ps.dropLast) then some (o, a, ps.dropLast, d, c)
        else none
      | none => none
    | _, _ => none

/-- `entry.replace("(", "").replace(")", "")`. -/
def stripParens (t : List Char) : List Char := t.filter fun c => !(c = '(' || c = ')')

/-- `int(text)` of digits; ValueError otherwise. Python's `int` accepts more texts (signs, spaces,
underscores), none of which the patterns let through. -/
def pyInt (t : List Char) : Except Err ℕ :=
  if isDigits t then .ok (Nat.ofDigitChars 10 t 0) else .error .valueError

/-! ### Packing and unpacking spinor strings -/

/-- `_lNB_to_string`, particles.py:437-443. `[:-1]` of the accumulated text removes the last
separator, which makes it a join (nothing happens to an empty text). -/
def lNBToString (first : Char) (s : ℕ) (ms : List (List ℕ)) (e : ℕ) (last : Char) : List Char :=
  [first] ++ pyStr s ++ ['|'] ++
    ['|'].intercalate (ms.map fun item => ['('] ++ ['+'].intercalate (item.map pyStr) ++ [')']) ++
    ['|'] ++ pyStr e ++ [last]

/-- `_get_lNB`, particles.py:446-451: start, slots, end. The first component of the code's result is
the concatenation of the other three. No match raises IndexError. -/
def getLNB (t : List Char) : Except Err (ℕ × List (List ℕ) × ℕ) :=
  match matchNB t with
  | none => .error .indexError
  | some (_, a, ps, d, _) =>
    match pyInt a, ps.mapM (fun entry => ((stripParens entry).splitOn '+').mapM pyInt), pyInt d with
    | .ok a, .ok ms, .ok d => .ok (a, ms, d)
    | .error e, _, _ => .error e
    | _, .error e, _ => .error e
    | _, _, .error e => .error e

/-! ### Reading slots -/

/-- The signed label texts of an entry without parentheses, as the Python expression obtained by
`re.sub(r'(\d+)', r'self[\1].r2_sp', entry)` reads them. -/
def termsFrom (sg : Bool) (cur : List Char) : List Char → List (Bool × List Char)
  | [] => [(sg, cur)]
  | c :: cs =>
    if c = '+' then (sg, cur) :: termsFrom true [] cs
    else if c = '-' then (sg, cur) :: termsFrom false [] cs
    else termsFrom sg (cur ++ [c]) cs

/-- A decimal literal of Python: no leading zero, except that the zero may be written with several
zeros. -/
def literalOk (t : List Char) : Bool := t.head? ≠ some '0' || t.all (· = '0')

/-- One signed label: a sign without label or a label with leading zeros is a SyntaxError of the
evaluated text, a label out of range an IndexError. -/
def readTerm (n : ℕ) (t : Bool × List Char) : Except Err (Bool × Fin n) :=
  if isDigits t.2 && literalOk t.2 then
    match label n (Nat.ofDigitChars 10 t.2 0) with
    | .ok l => .ok (t.1, l)
    | .error e => .error e
  else .error .syntaxError

/-- One entry of `middle.replace("(", "").replace(")", "").split("|")`, particles_compute.py:97-99,
186, 198-206. An empty entry gives the empty tuple, which the product refuses with TypeError.
Simplification: when several entries are wrong, which exception comes first is not modelled. Two
signs in a row (a unary sign in Python) do not pass `pNB` or the open patterns; for `ptr` they are
treated as a SyntaxError. -/
def readSlot (n : ℕ) (entry : List Char) : Except Err (Slot n) :=
  if stripParens entry = [] then .error .typeError
  else (termsFrom true [] (stripParens entry)).mapM (readTerm n)

/-- All entries of a middle text. -/
def readSlots (n : ℕ) (entries : List (List Char)) : Except Err (List (Slot n)) :=
  entries.mapM (readSlot n)

/-! ### Dispatch -/

/-- What `compute` takes a text for; the branches in the order in which they are tried. -/
inductive Form where
  | tr5 (abcd : List Char)
  | tr (entries : List (List Char))
  | omega (ds : List Char)
  | pi (ds : List Char)
  | delta (corners : List (List Char))
  | d5
  | massOf (t : List Char)
  | mandelstam (ds : List Char)
  | angle (a b : List Char)
  | Au (a : List Char)
  | Ad (a : List Char)
  | square (a b : List Char)
  | Su (a : List Char)
  | Sd (a : List Char)
  | string (first : Char) (a : List Char) (mid : List (List Char)) (d : List Char) (last : Char)
  | openBegin (mid : List (List Char)) (d : List Char) (last : Char)
  | openEnd (first : Char) (a : List Char) (mid : List (List Char))
  | doubleOpen (mid : List (List Char))
  | internalMass (t : List Char)
  | expression
  deriving DecidableEq, Repr

/-- The text between a fixed beginning and a final character. -/
def between (pre : List Char) (last : Char) (t : List Char) : Option (List Char) :=
  if pre.isPrefixOf t ∧ (t.drop pre.length).getLast? = some last then
    some ((t.drop pre.length).dropLast) else none

/-- `^prefix(\d+)$`. -/
def afterDigits (pre : List Char) (t : List Char) : Option (List Char) :=
  if pre.isPrefixOf t ∧ isDigits (t.drop pre.length) then some (t.drop pre.length) else none

/-- `ptr5`, tools.py:36, and the choice of the group, particles_compute.py:84-85. -/
def matchTr5 (t : List Char) : Option (List Char) :=
  match afterDigits "tr5_".toList t with
  | some ds => some ds
  | none =>
    match between "tr5(".toList ')' t with
    | some m => if m ≠ [] ∧ m.all (fun c => c.isDigit || isOp c) then some m else none
    | none => none

/-- `ptr`, tools.py:37. -/
def matchTr (t : List Char) : Option (List (List Char)) :=
  match between "tr(".toList ')' t with
  | some m => if trMiddle m then some ((stripParens m).splitOn '|') else none
  | none => none

/-- `pDijk`, tools.py:38. -/
def matchDelta (t : List Char) : Option (List (List Char)) :=
  if "Δ_".toList.isPrefixOf t ∧ ((t.drop 2).splitOn '|').all isDigits then
    some ((t.drop 2).splitOn '|') else none

/-- `pMi`, tools.py:33. -/
def matchMi (t : List Char) : Bool :=
  match t with
  | [c, d] => (c = 'm' || c = 'M') && d.isDigit
  | [c, u, d] => (c = 'm' || c = 'M') && u = '_' && d.isDigit
  | _ => false

/-- `pSijk`, tools.py:32: the digits. -/
def matchS (t : List Char) : Option (List Char) :=
  match t with
  | 's' :: '_' :: ds | 'S' :: '_' :: ds | 's' :: ds | 'S' :: ds => if isDigits ds then some ds else none
  | _ => none

/-- `pA2`, `pS2`, tools.py:43-44. -/
def matchTwo (opens closes : List Char) (t : List Char) : Option (List Char × List Char) :=
  match t with
  | [] => none
  | o :: rest =>
    match rest.getLast?, rest.dropLast.splitOn '|' with
    | some c, [a, b] =>
      if o ∈ opens ∧ c ∈ closes ∧ isDigits a ∧ isDigits b then some (a, b) else none
    | _, _ => none

/-- `pAu`, `pAd`, `pSu`, `pSd`, tools.py:41-46: the digits. -/
def matchOne (opens closes : List Char) (t : List Char) : Option (List Char) :=
  match t with
  | [] => none
  | o :: rest =>
    match rest.getLast? with
    | some c => if o ∈ opens ∧ c ∈ closes ∧ isDigits rest.dropLast then some rest.dropLast else none
    | none => none

/-- `pNB_open_begin`, tools.py:49. -/
def matchOpenBegin (t : List Char) : Option (List (List Char) × List Char × Char) :=
  match t with
  | '|' :: rest =>
    match rest.getLast?, (rest.dropLast.splitOn '|').getLast? with
    | some c, some d =>
      if (c ∈ ['⟩', ']']) ∧ isDigits d ∧
          obMiddle (['|'].intercalate (rest.dropLast.splitOn '|').dropLast) then
        some ((rest.dropLast.splitOn '|').dropLast, d, c) else none
    | _, _ => none
  | _ => none

/-- `pNB_open_end`, tools.py:50. -/
def matchOpenEnd (t : List Char) : Option (Char × List Char × List (List Char)) :=
  match t with
  | [] => none
  | o :: rest =>
    match rest.getLast?, rest.dropLast.splitOn '|' with
    | some c, a :: ps =>
      if (o ∈ ['⟨', '[']) ∧ c = '|' ∧ isDigits a ∧ obMiddle (['|'].intercalate ps) then
        some (o, a, ps) else none
    | _, _ => none

/-- `pNB_double_open`, tools.py:51. -/
def matchDoubleOpen (t : List Char) : Option (List (List Char)) :=
  match between ['|'] '|' t with
  | some m => if obMiddle m then some (m.splitOn '|') else none
  | none => none

/-- The second half of the sequence of `if` statements of `compute`, particles_compute.py:159-275. -/
def classifyBracket (t : List Char) : Form :=
  match matchTwo ['⟨', '<'] ['⟩', '>'] t with
  | some (a, b) => .angle a b
  | none =>
  match matchOne ['⟨', '<'] ['|'] t with
  | some a => .Au a
  | none =>
  match matchOne ['|'] ['⟩', '>'] t with
  | some a => .Ad a
  | none =>
  match matchTwo ['['] [']'] t with
  | some (a, b) => .square a b
  | none =>
  match matchOne ['|'] [']'] t with
  | some a => .Su a
  | none =>
  match matchOne ['['] ['|'] t with
  | some a => .Sd a
  | none =>
  match matchNB t with
  | some (o, a, ms, d, c) => .string o a ms d c
  | none =>
  match matchOpenBegin t with
  | some (ms, d, c) => .openBegin ms d c
  | none =>
  match matchOpenEnd t with
  | some (o, a, ms) => .openEnd o a ms
  | none =>
  match matchDoubleOpen t with
  | some ms => .doubleOpen ms
  | none => if isMassName t then .internalMass t else .expression

/-- The sequence of `if` statements of `compute`, particles_compute.py:84-275, after the bold digits
have been replaced. -/
def classify (t : List Char) : Form :=
  match matchTr5 t with
  | some m => .tr5 m
  | none =>
  match matchTr t with
  | some m => .tr m
  | none =>
  match afterDigits "Ω_".toList t with
  | some ds => .omega ds
  | none =>
  match afterDigits "Π_".toList t with
  | some ds => .pi ds
  | none =>
  match matchDelta t with
  | some cs => .delta cs
  | none =>
  if t = "δ5".toList then .d5 else
  if matchMi t then .massOf t else
  match matchS t with
  | some ds => .mandelstam ds
  | none =>
  classifyBracket t

/-! ### Evaluation -/

section
variable {K : Type*} [Field K] {n : ℕ}

/-- What `compute` returns: a number, a spinor slot, a two-component vector, a matrix, or the value
of the attribute holding an internal mass. -/
inductive Val (K : Type*) where
  | num (x : K)
  | spinor (s : Option (V2 K))
  | vec (v : V2 K)
  | mat (m : M2 K)
  | attribute (name : List Char)

/-- `self[int(text)]` for digits. -/
def readLabel (n : ℕ) (t : List Char) : Except Err (Fin n) := label n (Nat.ofDigitChars 10 t 0)

/-- `list(map(int, digits))` and `self[i]` for each: the labels are single digits. -/
def readDigits (n : ℕ) (ds : List Char) : Except Err (List (Fin n)) :=
  ds.mapM fun c => label n (c.toNat - 48)

/-- `list(map(int, digits))`. -/
def digitsOf (ds : List Char) : List ℕ := ds.map fun c => c.toNat - 48

/-- The branch of spinor strings on text, particles_compute.py:183-215. -/
def evalString (ps : Point K n) (first : Char) (a : List Char) (mid : List (List Char))
    (d : List Char) (last : Char) : Except Err K :=
  if nbSyntaxError mid.length first last then .error .syntaxError
  else
    match readLabel n a, readSlots n mid, readLabel n d with
    | .ok a, .ok ms, .ok d => computeNB ps first a ms d last
    | .error e, _, _ => .error e
    | _, .error e, _ => .error e
    | _, _, .error e => .error e

/-- `a, b, c, d = abcd.split("|") if "|" in abcd else abcd`, particles_compute.py:86; ValueError
unless there are four. -/
def unpack4 (m : List Char) : Except Err (List Char × List Char × List Char × List Char) :=
  match (if '|' ∈ m then m.splitOn '|' else m.map fun c => [c]) with
  | [a, b, c, d] => .ok (a, b, c, d)
  | _ => .error .valueError

/-- The loop `for _ in range(4)`, particles_compute.py:87-92, on texts. -/
def rotateText : ℕ → List Char × List Char × List Char × List Char →
    Option (List Char × List Char × List Char × List Char)
  | 0, _ => none
  | k + 1, (a, b, c, d) => if a.length = 1 then some (a, b, c, d) else rotateText k (b, c, d, a)

/-- `f"{o}{a}|{b}|{c}|{d}|{a}{e}"`, particles_compute.py:93. -/
def tr5Text (o : Char) (a b c d : List Char) (e : Char) : List Char :=
  [o] ++ ['|'].intercalate [a, b, c, d, a] ++ [e]

/-- `compute` of a text that should be a spinor string. A text that is not one is handed on to the
other branches and the expression parser: `none`. -/
def evalStringText (ps : Point K n) (t : List Char) : Option (Except Err K) :=
  match classify t with
  | .string o a ms d c => some (evalString ps o a ms d c)
  | _ => none

/-- The tr5 branch on text, particles_compute.py:84-93. -/
def evalTr5 (ps : Point K n) (m : List Char) : Option (Except Err K) :=
  match unpack4 m with
  | .error e => some (.error e)
  | .ok q =>
    match rotateText 4 q with
    | none => some (.error .notImplemented)
    | some (a, b, c, d) =>
      match evalStringText ps (tr5Text '[' a b c d '⟩'), evalStringText ps (tr5Text '⟨' a b c d ']') with
      | some (.ok x), some (.ok y) => some (.ok (x - y))
      | some (.error e), _ => some (.error e)
      | some (.ok _), some (.error e) => some (.error e)
      | _, _ => none

/-- The three corners of a shorthand, particles.py:474-486: IndexError for fewer than three digits,
further digits are ignored. Every loop runs for at most `fuel` rounds, `none` if that is not enough.
The code indexes `self` with the entries of the lists. -/
def shortCorners (n fuel : ℕ) (ds : List Char) :
    Option (Except Err (List (Fin n) × List (Fin n) × List (Fin n))) :=
  match digitsOf ds with
  | i :: j :: k :: _ =>
    match arcs n fuel i j k with
    | none => none
    | some (A, B, C) =>
      match A.mapM (fun z => label n z.toNat), B.mapM (fun z => label n z.toNat),
        C.mapM (fun z => label n z.toNat) with
      | .ok A, .ok B, .ok C => some (.ok (A, B, C))
      | _, _, _ => some (.error .indexError)
  | _ => some (.error .indexError)

/-- The Gram determinant branch with explicit corners on text, particles_compute.py:119-125. -/
def evalDelta (ps : Point K n) (corners : List (List Char)) : Except Err K :=
  match corners.mapM (readDigits n) with
  | .ok (c0 :: c1 :: cs) =>
    .ok (computeDelta ps cs.length fun i => (c0 :: c1 :: cs).get (i.cast (by simp)))
  | .ok _ => .error .indexError
  | .error e => .error e

/-- Lift of an exception and a value. -/
def asNum (x : Except Err K) : Except Err (Val K) :=
  match x with
  | .ok x => .ok (.num x)
  | .error e => .error e

/-- What each branch returns, particles_compute.py:84-276. `none`: the text is handed to the
expression parser, or a loop did not stop within `fuel` rounds. -/
def evalForm (ps : Point K n) (fuel : ℕ) : Form → Option (Except Err (Val K))
  | .tr5 m => (evalTr5 ps m).map asNum
  | .tr es => some (match readSlots n es with
    | .ok ms => .ok (.num (computeTr ps ms))
    | .error e => .error e)
  | .omega ds => (shortCorners n fuel ds).map fun r => match r with
    | .ok (A, B, C) => asNum (computeOmega ps A B C)
    | .error e => .error e
  | .pi ds => (shortCorners n fuel ds).map fun r => match r with
    | .ok (A, _, C) => asNum (computePi ps A C)
    | .error e => .error e
  | .delta [ds] => (shortCorners n fuel ds).map fun r => match r with
    | .ok (A, B, _) => .ok (.num (computeDeltaShort ps A B))
    | .error e => .error e
  | .delta cs => some (asNum (evalDelta ps cs))
  | .d5 => some (match label n 1, label n 2, label n 3, label n 4, label n 5 with
    | .ok a, .ok b, .ok c, .ok d, .ok e => .ok (.num (computeD5 ps a b c d e))
    | _, _, _, _, _ => .error .indexError)
  | .massOf t => some (match readDigits n (t.drop (t.length - 1)) with
    | .ok ls => .ok (.num (computeS ps ls))
    | .error e => .error e)
  | .mandelstam ds => some (match readDigits n ds with
    | .ok ls => .ok (.num (computeS ps ls))
    | .error e => .error e)
  | .angle a b => some (match readLabel n a, readLabel n b with
    | .ok a, .ok b => asNum (Lips.angle (ps a) (ps b))
    | .error e, _ => .error e
    | _, .error e => .error e)
  | .square a b => some (match readLabel n a, readLabel n b with
    | .ok a, .ok b => asNum (Lips.square (ps a) (ps b))
    | .error e, _ => .error e
    | _, .error e => .error e)
  | .Au a => some (match readLabel n a with
    | .ok a => .ok (.spinor (ps a).r_u)
    | .error e => .error e)
  | .Ad a => some (match readLabel n a with
    | .ok a => .ok (.spinor (ps a).r_d)
    | .error e => .error e)
  | .Su a => some (match readLabel n a with
    | .ok a => .ok (.spinor (ps a).l_u)
    | .error e => .error e)
  | .Sd a => some (match readLabel n a with
    | .ok a => .ok (.spinor (ps a).l_d)
    | .error e => .error e)
  | .string o a ms d c => some (asNum (evalString ps o a ms d c))
  | .openBegin ms d c => some (match readSlots n ms, readLabel n d with
    | .ok ms, .ok d => (match computeOpenBegin ps ms d c with
      | .ok v => .ok (.vec v)
      | .error e => .error e)
    | .error e, _ => .error e
    | _, .error e => .error e)
  | .openEnd o a ms => some (match readLabel n a, readSlots n ms with
    | .ok a, .ok ms => (match computeOpenEnd ps o a ms with
      | .ok v => .ok (.vec v)
      | .error e => .error e)
    | .error e, _ => .error e
    | _, .error e => .error e)
  | .doubleOpen ms => some (match readSlots n ms with
    | .ok ms => .ok (.mat (computeDoubleOpen ps ms))
    | .error e => .error e)
  | .internalMass t => some (.ok (.attribute t))
  | .expression => none

/-- `compute(text)`, particles_compute.py:76-276: bold digits are first replaced by plain ones. -/
def computeText (ps : Point K n) (fuel : ℕ) (t : List Char) : Option (Except Err (Val K)) :=
  match rsubsDict t boldDigits with
  | .ok u => evalForm ps fuel (classify u)
  | .error e => some (.error e)

end

end Lips

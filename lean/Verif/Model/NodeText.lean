import Verif.Model.EvalArr

/-!
From the text that `_parse` writes to the syntax tree, `ast.parse(expr, mode='eval')` (lips/particles_eval.py:174-175), for the texts
with open indices: Python's tokens and grammar (docs.python.org/3/reference, sections 2 and 6) as far as the nodes of Model/EvalArr.
Texts with anything else are `none`.
-/

namespace Lips

/-- Tokens. -/
inductive NTok where
  | num (k : ℕ) | op (o : Bin) | lpar | rpar | lbr | rbr | comma | colon | str (s : List Char) | id (s : List Char)
  deriving DecidableEq

/-- Letters of names: `numpy.block` is one name here. -/
def nameChar (c : Char) : Bool := asciiLetter c || c = '.' || c = 'ϵ' || c = 'ε' || c = '_'

/-- Python's tokens. -/
def lexNode : ℕ → List Char → Option (List NTok)
  | 0, _ => none
  | _ + 1, [] => some []
  | f + 1, c :: s =>
    if c = ' ' then lexNode f s
    else if c.isDigit then
      match pyLiteral ((c :: s).takeWhile Char.isDigit), lexNode f ((c :: s).dropWhile Char.isDigit) with
      | .ok k, some ts => some (.num k :: ts)
      | _, _ => none
    else if nameChar c then (lexNode f ((c :: s).dropWhile nameChar)).map (.id ((c :: s).takeWhile nameChar) :: ·)
    else if c = '\'' then (lexNode f (s.dropWhile (· ≠ '\'')).tail).map (.str (s.takeWhile (· ≠ '\'')) :: ·)
    else if c = '*' ∧ s.head? = some '*' then (lexNode f s.tail).map (.op .pow :: ·)
    else
      match (if c = '+' then some (NTok.op .add) else if c = '-' then some (.op .sub) else if c = '*' then some (.op .mul)
        else if c = '/' then some (.op .div) else if c = '@' then some (.op .matmul) else if c = '(' then some .lpar
        else if c = ')' then some .rpar else if c = '[' then some .lbr else if c = ']' then some .rbr
        else if c = ',' then some .comma else if c = ':' then some .colon else none) with
      | some t => (lexNode f s).map (t :: ·)
      | none => none

/-- An integer literal with its sign, if there is one. -/
def readInt : List NTok → Option (ℤ × List NTok)
  | .num k :: ts => some (k, ts)
  | .op .sub :: .num k :: ts => some (-k, ts)
  | _ => none

/-- The second bound of a slice, if there is one. -/
def readHigh (lo : Option ℤ) (ts : List NTok) : Ix × List NTok :=
  match readInt ts with
  | some (k, us) => (.slice lo (some k), us)
  | none => (.slice lo none, ts)

/-- An index. -/
def readIx (ts : List NTok) : Option (Ix × List NTok) :=
  match ts with
  | .colon :: us => some (readHigh none us)
  | ts => match readInt ts with
    | some (k, .colon :: us) => some (readHigh (some k) us)
    | some (k, us) => some (.pos k, us)
    | none => none

/-- Indices up to the closing bracket. -/
def readIxs : ℕ → List NTok → Option (List Ix × List NTok)
  | 0, _ => none
  | f + 1, ts => match readIx ts with
    | some (x, .rbr :: us) => some ([x], us)
    | some (x, .comma :: us) => (readIxs f us).map fun r => (x :: r.1, r.2)
    | _ => none

/-- What is being read. -/
inductive NMode where
  | atom | trailers (acc : Node) | power | factor | term | terms (acc : Node) | expr | exprs (acc : Node)

/-- A closing parenthesis. -/
def closeNode (f : Node → Node) : Node × List NTok → Option (Node × List NTok)
  | (e, .rpar :: us) => some (f e, us)
  | _ => none

/-- Expressions separated by commas up to this token. -/
def readElems (p : NMode → List NTok → Option (Node × List NTok)) (stop : NTok) : ℕ → List NTok → Option (List Node × List NTok)
  | 0, _ => none
  | f + 1, ts => match p .expr ts with
    | some (e, t :: us) =>
      if t = stop then some ([e], us)
      else if t = .comma then (readElems p stop f us).map fun r => (e :: r.1, r.2)
      else none
    | _ => none

/-- One step of the descent. -/
def nodeStep (p : NMode → List NTok → Option (Node × List NTok)) (m : NMode) (ts : List NTok) : Option (Node × List NTok) :=
  match m with
  | .atom => match ts with
    | .num k :: us => some (.num k, us)
    | .lpar :: us => (p .expr us).bind (closeNode id)
    | .lbr :: us => (readElems p .rbr us.length us).map fun r => (.list r.1, r.2)
    | .id f :: .lpar :: us =>
      if f = "oPs".toList then match us with
        | .str s :: .rpar :: us => some (.oPs s, us)
        | _ => none
      else if f = "Fraction".toList then match us with
        | .num a :: .comma :: .num b :: .rpar :: us => some (.fraction a b, us)
        | _ => none
      else if f = "numpy.block".toList then (p .expr us).bind (closeNode .block)
      else if f = "numpy.transpose".toList then (p .expr us).bind (closeNode .transpose)
      else (readElems p .rpar us.length us).map fun r => (.call f r.1, r.2)
    | .id f :: us => some (.name f, us)
    | _ => none
  | .trailers a => match ts with
    | .lbr :: us => (readIxs us.length us).bind fun r => p (.trailers (.subscript a r.1)) r.2
    | _ => some (a, ts)
  | .power => (p .atom ts).bind fun r => (p (.trailers r.1) r.2).bind fun r => match r.2 with
    | .op .pow :: us => (p .factor us).map fun r' => (.bin .pow r.1 r'.1, r'.2)
    | _ => some r
  | .factor => match ts with
    | .op .sub :: us => (p .factor us).map fun r => (.neg r.1, r.2)
    | .op .add :: us => (p .factor us).map fun r => (.pos r.1, r.2)
    | _ => p .power ts
  | .term => (p .factor ts).bind fun r => p (.terms r.1) r.2
  | .terms a => match ts with
    | .op .mul :: us => (p .factor us).bind fun r => p (.terms (.bin .mul a r.1)) r.2
    | .op .div :: us => (p .factor us).bind fun r => p (.terms (.bin .div a r.1)) r.2
    | .op .matmul :: us => (p .factor us).bind fun r => p (.terms (.bin .matmul a r.1)) r.2
    | _ => some (a, ts)
  | .expr => (p .term ts).bind fun r => p (.exprs r.1) r.2
  | .exprs a => match ts with
    | .op .add :: us => (p .term us).bind fun r => p (.exprs (.bin .add a r.1)) r.2
    | .op .sub :: us => (p .term us).bind fun r => p (.exprs (.bin .sub a r.1)) r.2
    | _ => some (a, ts)

/-- The descent with bounded depth. -/
def parseNode : ℕ → NMode → List NTok → Option (Node × List NTok)
  | 0 => fun _ _ => none
  | f + 1 => nodeStep (parseNode f)

/-- `ast.parse(text, mode='eval')`. -/
def nodeOf (t : List Char) : Option Node :=
  match lexNode (t.length + 1) t with
  | some ts => match parseNode (9 * ts.length + 1) .expr ts with
    | some (e, []) => some e
    | _ => none
  | none => none

/-- `_eval(text)`, particles_eval.py:166-168. -/
noncomputable def computeArr {K : Type*} [Field K] {n : ℕ} (ps : Point K n) (fuel : ℕ) (t : List Char) : Option (Except Err (PVal K)) :=
  (nodeOf (parseText t)).map (computeNode ps fuel)

end Lips

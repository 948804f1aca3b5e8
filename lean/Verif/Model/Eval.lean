import Verif.Model.Image
import Verif.Spec.Arith
import Mathlib.Data.Rat.Cast.CharZero

/-!
Model of the evaluation of an arithmetic expression of invariants: the end of `_parse` and `_eval`
(lips/particles_eval.py:109-168), and `ast_eval_expr` and `_eval_node` (lips/particles_eval.py:174-186 and 216-220) for
constants, binary and unary operators, `oPs(..)` and `Fraction(..)`.

Texts are lists of symbols. A symbol is a character or a leaf: what the middle of `_parse` has turned into
`oPs('..')`, which begins with the letter `o` and ends with a parenthesis. Also a symbol is the text `Fraction(a,b)`
the end of `_parse` writes. Texts have blanks, digits, parentheses and the operators `+`, `-`, `*`, `/`, `^`.
Not modelled: decimal points, `sqrt`, matrix products, the recognition of the leaves (see Model/Parse.lean;
Model/Front.lean for what `compute` accepts), and the conversion of one-entry arrays to scalars.
-/

namespace Lips

/-! ### The text -/

/-- A symbol of a text. -/
inductive Sym where
  | ch (c : Char) | leaf (t : List Char) | frac (a b : List Char)
  deriving DecidableEq

/-- Is the symbol a digit. -/
def Sym.isDigit : Sym → Bool
  | .ch c => c.isDigit
  | _ => false

/-- The character of a symbol. -/
def Sym.char : Sym → Char
  | .ch c => c
  | _ => ' '

/-- `string.replace(" ", "")`, particles_eval.py:115. -/
def noBlanks (s : List Sym) : List Sym := s.filter (· ≠ .ch ' ')

/-- `re.sub(r"\^(?![\]⟩>\|])", r"**", string)`, particles_eval.py:118. Simplification: no symbol of the texts here begins
with one of the characters of the lookahead. -/
def powerSigns (s : List Sym) : List Sym := s.flatMap fun x => if x = .ch '^' then [.ch '*', .ch '*'] else [x]

/-- Does a symbol end in a digit, in a parenthesis. -/
def endsDigit : Sym → Bool := Sym.isDigit

def endsParen (x : Sym) : Bool :=
  match x with
  | .ch c => c = ')'
  | .leaf _ => true
  | .frac _ _ => true

/-- Does a symbol begin with the letter `o`. -/
def startsO : Sym → Bool
  | .leaf _ => true
  | _ => false

/-- The products left out by the author of the text, particles_eval.py:136 and 156-160: `*` is written between
a digit and `oPs` or a parenthesis, and between a closing parenthesis and a digit, a parenthesis or `oPs`. The five
substitutions act on different pairs of neighbours, so they are one pass here. -/
def implicitProducts : List Sym → List Sym
  | [] => []
  | [x] => [x]
  | x :: y :: s =>
    if (endsDigit x && (startsO y || y = .ch '(')) || (endsParen x && (y.isDigit || startsO y || y = .ch '(')) then
      x :: .ch '*' :: implicitProducts (y :: s)
    else x :: implicitProducts (y :: s)

/-- `re.sub(r"(?<!\*\*)(\d+)\/(\d+)", r"Fraction(\1,\2)", string)`, particles_eval.py:161-162; `p` and `q` are the two
symbols before. The fuel is the length of the text. -/
def fractions : ℕ → Option Sym → Option Sym → List Sym → List Sym
  | 0, _, _, s => s
  | _ + 1, _, _, [] => []
  | f + 1, p, q, x :: s =>
    let ds := (x :: s).takeWhile Sym.isDigit
    let after := ((x :: s).dropWhile Sym.isDigit).tail
    let es := after.takeWhile Sym.isDigit
    if x.isDigit = true ∧ ¬ (p = some (.ch '*') ∧ q = some (.ch '*')) ∧
        ((x :: s).dropWhile Sym.isDigit).head? = some (.ch '/') ∧ es ≠ [] then
      .frac (ds.map Sym.char) (es.map Sym.char) :: fractions f (some (.ch '/')) (es.getLast?) (after.dropWhile Sym.isDigit)
    else x :: fractions f q (some x) s

/-- The end of `_parse`. -/
def prepare (s : List Sym) : List Sym :=
  let t := implicitProducts (powerSigns (noBlanks s))
  fractions t.length none none t

/-! ### `ast.parse` -/

/-- The atoms of an expression: an integer, a fraction, a leaf. -/
inductive EAtom where
  | num (k : ℕ) | rat (a b : ℕ) | leaf (t : List Char)
  deriving DecidableEq

/-- An integer literal; a superfluous leading zero is a SyntaxError. -/
def pyLiteral (ds : List Char) : Except Err ℕ :=
  if ds.head? = some '0' ∧ ¬ ds.all (· = '0') then .error .syntaxError else .ok (Nat.ofDigitChars 10 ds 0)

/-- The literal read so far as a token, before further tokens. -/
def flushNum (ds : List Char) (r : Except Err (List (Tok EAtom))) : Except Err (List (Tok EAtom)) :=
  match r with
  | .error e => .error e
  | .ok ts => if ds = [] then .ok ts else
    match pyLiteral ds with
    | .ok k => .ok (.atom (.num k) :: ts)
    | .error e => .error e

/-- Python's tokens; `ds` are the digits of a literal read so far. A literal runs as far as it can, and so does `**`. -/
def lexer : List Char → List Sym → Except Err (List (Tok EAtom))
  | ds, [] => flushNum ds (.ok [])
  | ds, .leaf i :: s => flushNum ds (match lexer [] s with | .ok ts => .ok (.atom (.leaf i) :: ts) | .error e => .error e)
  | ds, .frac a b :: s => flushNum ds (match pyLiteral a, pyLiteral b, lexer [] s with
      | .ok a, .ok b, .ok ts => .ok (.atom (.rat a b) :: ts)
      | _, _, _ => .error .syntaxError)
  | ds, .ch '*' :: .ch '*' :: s => flushNum ds (match lexer [] s with | .ok ts => .ok (.dstar :: ts) | .error e => .error e)
  | ds, .ch c :: s =>
    if c.isDigit then lexer (ds ++ [c]) s
    else
      match (if c = '+' then some Tok.plus else if c = '-' then some .minus else if c = '*' then some .star
        else if c = '/' then some .slash else if c = '(' then some .lpar else if c = ')' then some .rpar else none) with
      | none => .error .syntaxError
      | some t => flushNum ds (match lexer [] s with | .ok ts => .ok (t :: ts) | .error e => .error e)

/-- What is being read: a phrase of a level, or the rest of a sum or product after a first part. -/
inductive Mode (α : Type*) where
  | atom | power | factor | term | terms (acc : Ast α) | expr | exprs (acc : Ast α)

variable {α : Type*}

/-- A closing parenthesis after an expression. -/
def closeParen : Ast α × List (Tok α) → Option (Ast α × List (Tok α))
  | (e, .rpar :: us) => some (e, us)
  | _ => none

/-- Python's grammar of arithmetic by recursive descent, docs.python.org/3/reference/expressions.html sections 6.5
to 6.7: sums of terms and products of factors from left to right, signs, powers whose exponent is a factor, atoms. -/
def parseStep (p : Mode α → List (Tok α) → Option (Ast α × List (Tok α))) (m : Mode α) (ts : List (Tok α)) :
    Option (Ast α × List (Tok α)) :=
  match m with
  | .atom => match ts with
    | .atom x :: us => some (.atom x, us)
    | .lpar :: us => (p .expr us).bind closeParen
    | _ => none
  | .power => (p .atom ts).bind fun r => match r.2 with
    | .dstar :: us => (p .factor us).map fun r' => (.pow r.1 r'.1, r'.2)
    | _ => some r
  | .factor => match ts with
    | .minus :: us => (p .factor us).map fun r => (.neg r.1, r.2)
    | .plus :: us => (p .factor us).map fun r => (.pos r.1, r.2)
    | _ => p .power ts
  | .term => (p .factor ts).bind fun r => p (.terms r.1) r.2
  | .terms a => match ts with
    | .star :: us => (p .factor us).bind fun r => p (.terms (.mul a r.1)) r.2
    | .slash :: us => (p .factor us).bind fun r => p (.terms (.div a r.1)) r.2
    | _ => some (a, ts)
  | .expr => (p .term ts).bind fun r => p (.exprs r.1) r.2
  | .exprs a => match ts with
    | .plus :: us => (p .term us).bind fun r => p (.exprs (.add a r.1)) r.2
    | .minus :: us => (p .term us).bind fun r => p (.exprs (.sub a r.1)) r.2
    | _ => some (a, ts)

/-- The descent with bounded depth. -/
def parse : ℕ → Mode α → List (Tok α) → Option (Ast α × List (Tok α))
  | 0 => fun _ _ => none
  | f + 1 => parseStep (parse f)

/-- `ast.parse(.., mode='eval')`: the whole text is one expression. -/
def astParse (ts : List (Tok α)) : Except Err (Ast α) :=
  match parse (8 * ts.length + 1) .expr ts with
  | some (e, []) => .ok e
  | _ => .error .syntaxError

/-! ### `_eval_node` -/

/-- Python values of an expression: integers, fractions, elements of the field, and values that are none of these
(a float, a root), which the model does not follow further. -/
inductive EVal (K : Type*) where
  | int (m : ℤ) | frac (q : ℚ) | fld (x : K) | other

variable {K : Type*} [Field K]

/-- A fraction as an element of the field; ZeroDivisionError when its denominator is zero there. -/
noncomputable def ratField (q : ℚ) : Except Err K :=
  open Classical in if (q.den : K) = 0 then .error .zeroDivision else .ok (q.num / q.den)

/-- A value as an element of the field. -/
noncomputable def EVal.toField : EVal K → Except Err K
  | .int m => .ok m
  | .frac q => ratField q
  | .fld x => .ok x
  | .other => .error .typeError

/-- The value of a pair of operands: an integer operation, one of fractions, or one of elements of the field. -/
noncomputable def binop (fi : ℤ → ℤ → Except Err (EVal K)) (fq : ℚ → ℚ → Except Err (EVal K)) (fk : K → K → Except Err (EVal K)) :
    EVal K → EVal K → Except Err (EVal K)
  | .other, _ => .ok .other
  | _, .other => .ok .other
  | .int a, .int b => fi a b
  | .int a, .frac b => fq a b
  | .frac a, .int b => fq a b
  | .frac a, .frac b => fq a b
  | x, y => match x.toField, y.toField with
    | .ok a, .ok b => fk a b
    | _, _ => .error .zeroDivision

/-- `op.add`, `op.sub`, `op.mul`. -/
noncomputable def vAdd : EVal K → EVal K → Except Err (EVal K) :=
  binop (fun a b => .ok (.int (a + b))) (fun a b => .ok (.frac (a + b))) (fun a b => .ok (.fld (a + b)))

noncomputable def vSub : EVal K → EVal K → Except Err (EVal K) :=
  binop (fun a b => .ok (.int (a - b))) (fun a b => .ok (.frac (a - b))) (fun a b => .ok (.fld (a - b)))

noncomputable def vMul : EVal K → EVal K → Except Err (EVal K) :=
  binop (fun a b => .ok (.int (a * b))) (fun a b => .ok (.frac (a * b))) (fun a b => .ok (.fld (a * b)))

/-- `op.truediv`: the quotient of two integers is a float. -/
noncomputable def vDiv : EVal K → EVal K → Except Err (EVal K) :=
  binop (fun _ b => if b = 0 then .error .zeroDivision else .ok .other)
    (fun a b => if b = 0 then .error .zeroDivision else .ok (.frac (a / b)))
    (fun a b => open Classical in if b = 0 then .error .zeroDivision else .ok (.fld (a / b)))

/-- `op.pow`: an integer exponent; a negative power of an integer is a float. Simplification: with any other exponent
the value is not followed. -/
noncomputable def vPow : EVal K → EVal K → Except Err (EVal K)
  | .int a, .int k => if 0 ≤ k then .ok (.int (a ^ k.toNat)) else if a = 0 then .error .zeroDivision else .ok .other
  | .frac q, .int k => if k < 0 ∧ q = 0 then .error .zeroDivision else .ok (.frac (q ^ k))
  | .fld x, .int k => open Classical in if k < 0 ∧ x = 0 then .error .zeroDivision else .ok (.fld (x ^ k))
  | _, _ => .ok .other

/-- `op.neg`. -/
noncomputable def vNeg : EVal K → EVal K
  | .int m => .int (-m)
  | .frac q => .frac (-q)
  | .fld x => .fld (-x)
  | .other => .other

/-- An operator on results. -/
noncomputable def lift₂ (f : EVal K → EVal K → Except Err (EVal K)) : Except Err (EVal K) → Except Err (EVal K) → Except Err (EVal K)
  | .error e, _ => .error e
  | .ok _, .error e => .error e
  | .ok a, .ok b => f a b

/-- `_eval_node`, particles_eval.py:178-186 and 216-220: the operands are evaluated from left to right; `leaf` is what `oPs(..)`
returns. -/
noncomputable def evalNode (leaf : List Char → Except Err K) : Ast EAtom → Except Err (EVal K)
  | .atom (.num k) => .ok (.int k)
  | .atom (.rat a b) => if b = 0 then .error .zeroDivision else .ok (.frac (a / b))
  | .atom (.leaf i) => match leaf i with
    | .ok x => .ok (.fld x)
    | .error e => .error e
  | .pos a => evalNode leaf a
  | .neg a => match evalNode leaf a with
    | .ok x => .ok (vNeg x)
    | .error e => .error e
  | .add a b => lift₂ vAdd (evalNode leaf a) (evalNode leaf b)
  | .sub a b => lift₂ vSub (evalNode leaf a) (evalNode leaf b)
  | .mul a b => lift₂ vMul (evalNode leaf a) (evalNode leaf b)
  | .div a b => lift₂ vDiv (evalNode leaf a) (evalNode leaf b)
  | .pow a b => lift₂ vPow (evalNode leaf a) (evalNode leaf b)

/-- What `ast.parse` makes of a text. -/
def readText (s : List Sym) : Except Err (Ast EAtom) :=
  match lexer [] (prepare s) with
  | .error e => .error e
  | .ok ts => astParse ts

/-- `_eval`, particles_eval.py:166-168. -/
noncomputable def evalText (leaf : List Char → Except Err K) (s : List Sym) : Except Err (EVal K) :=
  match readText s with
  | .error e => .error e
  | .ok e => evalNode leaf e

end Lips

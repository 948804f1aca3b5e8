import Verif.Model.Eval
import Verif.Model.Text

/-!
Model of `_parse` on characters, lips/particles_eval.py:109-163: regular expressions with backtracking, `re.sub`, and the
substitutions in their order.

Simplifications: `\d` is an ASCII digit. `non_unicode_powers` (line 117, of the package syngular) is left out: it does
nothing to texts without superscript digits, and other texts are outside the model.
-/

namespace Lips

/-! ### Regular expressions -/

/-- Where a match has got to: the characters before, last first, and the characters to come. -/
abbrev Spot := List Char × List Char

/-- Regular expressions: characters of a class, sequence, first or second, as often as possible, and the conditions
`(?<!..)`, `(?<=..)` (classes of single characters) and `(?!..)`. -/
inductive RE where
  | eps
  | cls (p : Char → Bool)
  | seq (a b : RE)
  | alt (a b : RE)
  | star (a : RE)
  | notBehind (ps : List (Char → Bool))
  | behind (ps : List (Char → Bool))
  | notAhead (a : RE)

/-- Do the last characters, last first, belong to the classes. -/
def endsIn : List (Char → Bool) → List Char → Bool
  | [], _ => true
  | _ :: _, [] => false
  | p :: ps, c :: pre => p c && endsIn ps pre

/-- Repetition, longest first; every round has to move forward. -/
def starRun (f : Spot → List Spot) : ℕ → Spot → List Spot
  | 0, x => [x]
  | k + 1, x => ((f x).filter fun y => decide (y.2.length < x.2.length)).flatMap (starRun f k) ++ [x]

/-- All matches from a spot, in the order in which backtracking finds them. -/
def RE.run : RE → Spot → List Spot
  | .eps, x => [x]
  | .cls p, x => match x.2 with
    | c :: s => if p c then [(c :: x.1, s)] else []
    | [] => []
  | .seq a b, x => (a.run x).flatMap b.run
  | .alt a b, x => a.run x ++ b.run x
  | .star a, x => starRun a.run x.2.length x
  | .notBehind ps, x => if endsIn ps.reverse x.1 then [] else [x]
  | .behind ps, x => if endsIn ps.reverse x.1 then [x] else []
  | .notAhead a, x => if (a.run x).isEmpty then [x] else []

/-- `re.sub(r, f, s)` from a spot on, `k` characters after it being part of the last match: at every character the
first match, if there is one, is replaced, and the search goes on after it. Here no match is empty. -/
def RE.sub (r : RE) (f : List Char → List Char) : ℕ → List Char → List Char → List Char
  | _, _, [] => []
  | k + 1, pre, c :: s => RE.sub r f k (c :: pre) s
  | 0, pre, c :: s =>
    match (r.run (pre, c :: s)).head? with
    | none => c :: RE.sub r f 0 (c :: pre) s
    | some y =>
      if (c :: s).length ≤ y.2.length then c :: RE.sub r f 0 (c :: pre) s
      else f ((c :: s).take ((c :: s).length - y.2.length)) ++ RE.sub r f ((c :: s).length - y.2.length - 1) (c :: pre) s

/-! ### Notation -/

namespace RE

/-- One of these characters. -/
def of (t : String) : RE := .cls fun c => decide (c ∈ t.toList)

/-- This text. -/
def lit (t : String) : RE := t.toList.foldr (fun c r => .seq (.cls fun x => decide (x = c)) r) .eps

/-- `\d`, and `\d` or one of these characters. -/
def dig : RE := .cls Char.isDigit

def digOr (t : String) : RE := .cls fun c => c.isDigit || decide (c ∈ t.toList)

def some1 (a : RE) : RE := .seq a (.star a)
def opt1 (a : RE) : RE := .alt a .eps
def cat (rs : List RE) : RE := rs.foldr .seq .eps

/-- The class of one of these characters, of a digit. -/
def among (t : String) : Char → Bool := fun c => decide (c ∈ t.toList)

/-- `(?<!a..)` for a fixed text. -/
def notAfter (t : String) : RE := .notBehind (t.toList.map fun c x => decide (x = c))

end RE

open RE

/-! ### The patterns, particles_eval.py:29-84 -/

/-- Lines 29, 30, 33, 36. -/
def eA2 : RE := cat [lit "⟨", some1 dig, lit "|", some1 dig, lit "⟩"]
def eA2bis : RE := cat [lit "⟨", dig, dig, lit "⟩"]
def eS2 : RE := cat [lit "[", some1 dig, lit "|", some1 dig, lit "]"]
def eS2bis : RE := cat [lit "[", dig, dig, lit "]"]

/-- `(?!\d[\+|-])(?!\(\d[\+|-])`: no further slot follows. -/
def noSlot : RE := cat [.notAhead (cat [dig, of "+|-"]), .notAhead (cat [lit "(", dig, of "+|-"])]

/-- `(?<!\(\')` and `(?!\'\))`: not already matched. -/
def notOpened : RE := notAfter "('"
def notClosed : RE := .notAhead (lit "')")

/-- Lines 31, 32, 34, 35. -/
def eAu : RE := cat [notOpened, of "⟨<", some1 dig, lit "|", .notAhead (cat [dig, of "⟩|>"]), noSlot, notClosed]
def eAd : RE := cat [notOpened, .notBehind [among "⟨|<", Char.isDigit], .notBehind [among "+|-", Char.isDigit, among ")"],
  .notBehind [among "+|-", Char.isDigit], lit "|", some1 dig, of "⟩>", notClosed]
def eSd : RE := cat [notOpened, lit "[", some1 dig, lit "|", .notAhead (cat [dig, lit "]"]), noSlot, notClosed]
def eSu : RE := cat [notOpened, .notBehind [among "[", Char.isDigit], .notBehind [among "+|-", Char.isDigit, among ")"],
  .notBehind [among "+|-", Char.isDigit], lit "|", some1 dig, lit "]", notClosed]

/-- Lines 37-43. -/
def eSijk : RE := cat [of "sS", opt1 (lit "_"), some1 dig]
def eMi : RE := cat [of "mM", opt1 (lit "_"), dig]
def asciiLetter (c : Char) : Bool := ('a' ≤ c && c ≤ 'z') || ('A' ≤ c && c ≤ 'Z')
def eMVar : RE := cat [.notBehind [asciiLetter], of "mMμ", opt1 (lit "_"), .star (.cls asciiLetter), .star dig]
def eOijk : RE := cat [lit "Ω_", some1 dig]
def ePijk : RE := cat [lit "Π_", some1 dig]
def eDadj : RE := cat [lit "Δ_", some1 dig, .notAhead (digOr "|")]
def eDnon : RE := cat [lit "Δ_", some1 dig, .star (cat [lit "|", some1 dig])]

/-- Line 46. -/
def eNB : RE := cat [of "<⟨[", some1 dig, lit "|", some1 (cat [opt1 (lit "("), some1 (cat [some1 dig, opt1 (of "+|-")]), opt1 (lit ")"),
  opt1 (lit "|")]), lit "|", some1 dig, of "⟩]>"]

/-- `[\d]+(?:[\+|-]\d+)*`, in parentheses or not. -/
def openSlot : RE := cat [some1 dig, .star (cat [of "+|-", some1 dig])]
/-- `\([\d+|-]+(?:[\+|-]\d+)*\)`. -/
def wideSlot : RE := cat [lit "(", some1 (digOr "+|-"), .star (cat [of "+|-", some1 dig]), lit ")"]

/-- `(?<![\(\[⟨<]\d)(?<![\+|-]\d\))(?<![\+|-]\d)(?<!_\d)(?<!_\d\d)(?<!_\d\d\d)(?<!_\d\d\d\d)`. -/
def freeStart : RE := cat [.notBehind [among "([⟨<", Char.isDigit], .notBehind [among "+|-", Char.isDigit, among ")"],
  .notBehind [among "+|-", Char.isDigit], .notBehind [among "_", Char.isDigit],
  .notBehind [among "_", Char.isDigit, Char.isDigit], .notBehind [among "_", Char.isDigit, Char.isDigit, Char.isDigit],
  .notBehind [among "_", Char.isDigit, Char.isDigit, Char.isDigit, Char.isDigit]]

/-- `(?<!\|\d)(?<!\|\d\d)(?<!\|\d\d\d)(?<!\|\d\d\d\d)`. -/
def noCorner : RE := cat [.notBehind [among "|", Char.isDigit], .notBehind [among "|", Char.isDigit, Char.isDigit],
  .notBehind [among "|", Char.isDigit, Char.isDigit, Char.isDigit],
  .notBehind [among "|", Char.isDigit, Char.isDigit, Char.isDigit, Char.isDigit]]

/-- `'[\d|')]]))[0:1, :]@`, the end of a massive spinor. -/
def massiveEnd : List (Char → Bool) :=
  [among "'", among "[", Char.isDigit] ++ "|')]]))[0:1, :]@".toList.map fun c x => decide (x = c)

/-- Lines 47-54, 55-61, 62-71, 72-81. -/
def eOpenBegin : RE := cat [notOpened, freeStart, lit "|", some1 (.alt (cat [lit "(", openSlot, lit ")"]) openSlot), lit "|", some1 dig,
  of "⟩]", notClosed]
def eOpenEnd : RE := cat [notOpened, of "⟨<[", some1 dig, lit "|", some1 (.alt wideSlot openSlot), lit "|",
  .notAhead (cat [dig, of "⟩>]"]), noSlot, notClosed]
def eDoubleOpen : RE := cat [notOpened, .notBehind massiveEnd, freeStart, noCorner, lit "|", some1 (.alt wideSlot openSlot), lit "|",
  .notAhead (cat [dig, of "⟩>]"]), noSlot, notClosed]
def eDoubleOpenDot : RE := cat [notOpened, .behind massiveEnd, freeStart, noCorner, lit "|", some1 (.alt wideSlot openSlot), lit "|",
  .notAhead (cat [dig, of "⟩>]"]), noSlot, notClosed]

/-- Lines 82-87. -/
def etr5 : RE := cat [lit "tr5", .alt (cat [lit "_", some1 dig]) (cat [lit "(", some1 (digOr "|+-"), lit ")"])]
def etr : RE := cat [lit "tr(", .alt (cat [lit "(", some1 (digOr "+|-"), lit ")"]) (.star (some1 (digOr "+|-"))), lit ")"]
def eMassiveAu : RE := cat [of "⟨<", some1 dig, of "_d", lit "|"]
def eMassiveAd : RE := cat [lit "|", some1 dig, of "_d", of "⟩>"]
def eMassiveBd : RE := cat [lit "[", some1 dig, of "^u", lit "|"]
def eMassiveBu : RE := cat [lit "|", some1 dig, of "^u", lit "]"]

/-! ### The substitutions, particles_eval.py:110-163 -/

/-- `oPs('..')` around the match. -/
def wrap (m : List Char) : List Char := "oPs('".toList ++ m ++ "')".toList

/-- The digits of a match, and the number they are. -/
def digitsIn (m : List Char) : List Char := m.filter Char.isDigit
def numberIn (m : List Char) : ℕ := Nat.ofDigitChars 10 (digitsIn m) 0

/-- `⟨\1|\2⟩` of `⟨12⟩`. -/
def addBar (m : List Char) : List Char := m.take 2 ++ '|' :: m.drop 2

/-- `Fraction(\1,\2)` of `1/2`. -/
def asFraction (m : List Char) : List Char :=
  "Fraction(".toList ++ m.takeWhile Char.isDigit ++ ',' :: (m.dropWhile Char.isDigit).tail ++ [')']

/-- A product sign before the last character. -/
def starLast (m : List Char) : List Char := m.dropLast ++ '*' :: m.drop (m.length - 1)

abbrev Pass := RE × (List Char → List Char)

/-- `str.replace`. -/
def replace (a b : String) : Pass := (lit a, fun _ => b.toList)

/-- Lines 110-119. -/
def passesTidy : List Pass := [
  replace "−" "-", replace "\\scriptscriptstyle" "", replace "<" "⟨", replace ">" "⟩", replace "\\frac{" "(", replace "}{" ")/(",
  replace "}+\\" ")+", replace "\n" "", replace " " "",
  (cat [lit "}", .notAhead (.cls fun _ => true)], fun _ => ")".toList),
  (cat [lit "^", .notAhead (of "]⟩>|")], fun _ => "**".toList),
  (cat [lit "{", some1 (digOr "|"), lit "}"], fun m => m.tail.dropLast)]

/-- Lines 120-129. -/
def passesMassive : List Pass := [
  (eMassiveAu, fun m => "(ϵ@block([[⟨".toList ++ pyStr (numberIn m) ++ "|], [⟨".toList ++ pyStr (numberIn m + 1) ++
    "|]]))[0:1, :]@|".toList),
  (eMassiveAd, fun m => "|@(block([|".toList ++ pyStr (numberIn m) ++ "⟩, |".toList ++ pyStr (numberIn m + 1) ++
    "⟩])@-ϵ)[:, 0:1]".toList),
  (eMassiveBd, fun m => "(-ϵ@block([[[".toList ++ pyStr (numberIn m) ++ "|], [[".toList ++ pyStr (numberIn m + 1) ++
    "|]]))[0:1, :]@|".toList),
  (eMassiveBu, fun m => "|@(block([|".toList ++ pyStr (numberIn m) ++ "], |".toList ++ pyStr (numberIn m + 1) ++
    "]])@ϵ)[:, 0:1]".toList),
  replace "@|@" "@"]

/-- Lines 130-145. -/
def passesNames : List Pass := [
  (eA2bis, addBar), (eA2, wrap), (eS2bis, addBar), (eS2, wrap),
  (eSijk, fun m => wrap ("s_".toList ++ digitsIn m)), (eMi, fun m => wrap ("m_".toList ++ digitsIn m)),
  (cat [some1 (.cls fun c => asciiLetter c || c.isDigit), lit "oPs"], fun m => m.take (m.length - 3) ++ "*oPs".toList),
  (eMVar, wrap), (eOijk, wrap), (ePijk, wrap), (etr5, wrap), (etr, wrap), (eDadj, wrap), (eDnon, wrap), (eNB, wrap)]

/-- Lines 147-154. -/
def passesOpen : List Pass := [
  (eAu, wrap), (eAd, wrap), (eSd, wrap), (eSu, wrap), (eOpenBegin, wrap), (eOpenEnd, wrap), (eDoubleOpen, wrap),
  (eDoubleOpenDot, fun m => "numpy.transpose(-ϵ @ ".toList ++ wrap m ++ " @ ϵ)".toList)]

/-- Lines 156-163. -/
def passesEnd : List Pass := [
  replace "sqrt" "oPs.field.sqrt",
  (cat [dig, lit "s"], starLast), (cat [dig, lit "o"], starLast), (cat [notAfter "tr", dig, lit "("], starLast),
  (cat [lit ")", dig], starLast), replace ")(" ")*(", replace ")o" ")*o",
  (cat [notAfter "**", some1 dig, lit "/", some1 dig], asFraction),
  (cat [notAfter "numpy.", lit "block"], fun _ => "numpy.block".toList)]

/-- The substitutions one after the other. -/
def runPasses (ps : List Pass) (t : List Char) : List Char := ps.foldl (fun s p => p.1.sub p.2 0 [] s) t

/-- `_parse`. -/
def parseText (t : List Char) : List Char :=
  runPasses (passesTidy ++ passesMassive ++ passesNames ++ passesOpen ++ passesEnd) t

/-! ### `_eval` on characters -/

/-- Python's tokens of the text, for numbers, the operators of arithmetic, `oPs('..')` and `Fraction(a,b)` of literals; `none` stands
for all other texts. -/
def lexChars : ℕ → List Char → Option (Except Err (List (Tok EAtom)))
  | 0, _ => none
  | _ + 1, [] => some (.ok [])
  | f + 1, c :: s =>
    if c.isDigit then
      match lexChars f ((c :: s).dropWhile Char.isDigit) with
      | none => none
      | some r => some (match pyLiteral ((c :: s).takeWhile Char.isDigit), r with
        | .ok k, .ok ts => .ok (.atom (.num k) :: ts)
        | .error e, _ => .error e
        | _, .error e => .error e)
    else
    match (if c = '*' ∧ s.head? = some '*' then some (Tok.dstar, s.tail) else if c = '+' then some (.plus, s)
      else if c = '-' then some (.minus, s) else if c = '*' then some (.star, s) else if c = '/' then some (.slash, s)
      else if c = '(' then some (.lpar, s) else if c = ')' then some (.rpar, s) else none) with
    | some (t, s) => (lexChars f s).map fun r => match r with
      | .ok ts => .ok (t :: ts)
      | .error e => .error e
    | none =>
      if "oPs('".toList <+: c :: s then
        let u := s.drop 4
        let name := u.takeWhile (· ≠ '\'')
        if (u.dropWhile (· ≠ '\'')).take 2 = "')".toList then
          (lexChars f ((u.dropWhile (· ≠ '\'')).drop 2)).map fun r => match r with
            | .ok ts => .ok (.atom (.leaf name) :: ts)
            | .error e => .error e
        else none
      else if "Fraction(".toList <+: c :: s then
        let u := s.drop 8
        let a := u.takeWhile Char.isDigit
        let v := (u.dropWhile Char.isDigit).tail
        let b := v.takeWhile Char.isDigit
        if (u.dropWhile Char.isDigit).head? = some ',' ∧ (v.dropWhile Char.isDigit).head? = some ')' ∧ a ≠ [] ∧ b ≠ [] then
          match lexChars f (v.dropWhile Char.isDigit).tail with
          | none => none
          | some r => some (match pyLiteral a, pyLiteral b, r with
            | .ok a, .ok b, .ok ts => .ok (.atom (.rat a b) :: ts)
            | _, _, _ => .error .syntaxError)
        else none
      else none

/-- `_eval` on characters, particles_eval.py:166-176; `leaf` is what `oPs(..)` returns. -/
noncomputable def evalChars {K : Type*} [Field K] (leaf : List Char → Except Err K) (t : List Char) : Option (Except Err (EVal K)) :=
  match lexChars ((parseText t).length + 1) (parseText t) with
  | none => none
  | some (.error e) => some (.error e)
  | some (.ok ts) => some (match astParse ts with
    | .error e => .error e
    | .ok e => evalNode leaf e)

end Lips

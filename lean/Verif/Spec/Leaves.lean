import Mathlib.Data.List.Basic
import Mathlib.Data.Nat.Notation

/-! The texts of invariants as they stand in an expression, and the names they have on their own. -/

namespace Lips

/-- A slot of a string or trace: one-digit labels with signs between, in parentheses or not. -/
structure WSlot where
  par : Bool
  d : Char
  rest : List (Char × Char)

def WSlot.body (s : WSlot) : List Char := s.d :: s.rest.flatMap fun x => [x.1, x.2]
def WSlot.text (s : WSlot) : List Char := if s.par then '(' :: s.body ++ [')'] else s.body

/-- In parentheses are at least two labels. -/
def WSlot.Ok (s : WSlot) : Prop :=
  s.d.isDigit = true ∧ (∀ x ∈ s.rest, x.1 ∈ ['+', '-'] ∧ x.2.isDigit = true) ∧ (s.par = true → s.rest ≠ [])

/-- Slots with a bar before each. -/
def joined (ss : List WSlot) : List Char := ss.flatMap fun s => '|' :: s.text

/-- The invariants: two-brackets (square or not, with a bar between the labels or not), Mandelstams, Ω, Π, tr5 of labels and of
slots, traces, Gram determinants with explicit corners, strings. -/
inductive Leaf where
  | two (sq bar : Bool) (a b : List Char)
  | mandel (pre ds : List Char)
  | omega (ds : List Char)
  | pi (ds : List Char)
  | tr5l (ds : List Char)
  | tr5s (s : WSlot) (ss : List WSlot)
  | trace (s : WSlot) (ss : List WSlot)
  | delta (c : List Char) (cs : List (List Char))
  | str (o a : Char) (ss : List WSlot) (b c : Char)

def openBr (sq : Bool) : Char := if sq then '[' else '⟨'
def closeBr (sq : Bool) : Char := if sq then ']' else '⟩'

/-- What an invariant is called. -/
def Leaf.name : Leaf → List Char
  | .two sq _ a b => [openBr sq] ++ a ++ ['|'] ++ b ++ [closeBr sq]
  | .mandel _ ds => "s_".toList ++ ds
  | .omega ds => "Ω_".toList ++ ds
  | .pi ds => "Π_".toList ++ ds
  | .tr5l ds => "tr5_".toList ++ ds
  | .tr5s s ss => "tr5(".toList ++ s.text ++ joined ss ++ [')']
  | .trace s ss => "tr(".toList ++ s.text ++ joined ss ++ [')']
  | .delta c cs => "Δ_".toList ++ c ++ cs.flatMap fun k => '|' :: k
  | .str o a ss b c => o :: a :: (joined ss ++ ['|', b, c])

/-- How it is written: two-brackets may go without the bar, Mandelstams without the underscore and with a capital. -/
def Leaf.text : Leaf → List Char
  | .two sq bar a b => [openBr sq] ++ a ++ (if bar then ['|'] else []) ++ b ++ [closeBr sq]
  | .mandel pre ds => pre ++ ds
  | l => l.name

def Digits (ds : List Char) : Prop := ds ≠ [] ∧ ∀ c ∈ ds, c.isDigit = true

def Leaf.Ok : Leaf → Prop
  | .two _ bar a b => Digits a ∧ Digits b ∧ (bar = false → a.length = 1 ∧ b.length = 1)
  | .mandel pre ds => pre ∈ ["s_".toList, "S_".toList, "s".toList, "S".toList] ∧ Digits ds
  | .omega ds => Digits ds
  | .pi ds => Digits ds
  | .tr5l ds => Digits ds
  | .tr5s s ss => ∀ x ∈ s :: ss, x.Ok ∧ x.par = false
  | .trace s ss => ∀ x ∈ s :: ss, x.Ok ∧ x.par = false
  | .delta c cs => cs ≠ [] ∧ ∀ k ∈ c :: cs, Digits k ∧ k.length ≤ 4
  | .str o a ss b c => o ∈ ['⟨', '['] ∧ c ∈ ['⟩', ']'] ∧ a.isDigit = true ∧ b.isDigit = true ∧ ss ≠ [] ∧ ∀ s ∈ ss, s.Ok

/-- The text ends in a digit that belongs to it. -/
def Leaf.open : Leaf → Bool
  | .mandel _ _ | .omega _ | .pi _ | .tr5l _ | .delta _ _ => true
  | _ => false

/-- The parts of an expression: characters and invariants. -/
inductive WTok where
  | ch (c : Char)
  | leaf (l : Leaf)

def WTok.text : WTok → List Char
  | .ch c => [c]
  | .leaf l => l.text

/-- An expression as it is written. -/
def exprText (ts : List WTok) : List Char := ts.flatMap WTok.text

/-- Does a digit after the invariant not belong to it. -/
def WTok.Apart : WTok → WTok → Prop
  | .leaf l, .ch c => l.open = true → c.isDigit = false
  | _, _ => True

/-- Digits, operators, parentheses, blanks and invariants. -/
def WTok.Fit : WTok → Prop
  | .ch c => c ∈ "0123456789+-*/()^ ".toList
  | .leaf l => l.Ok

def WTok.blank : WTok → Bool
  | .ch c => decide (c = ' ')
  | .leaf _ => false

/-- An expression of invariants: no digit that does not belong to it follows an invariant that ends in one, be it after blanks. -/
def Expression (ts : List WTok) : Prop := (∀ t ∈ ts, t.Fit) ∧ (ts.filter fun t => !t.blank).IsChain WTok.Apart

/-- A slot, an invariant and a part of an expression with the characters of the labels replaced; coefficients and exponents stay. -/
def WSlot.relabel (m : Char → Char) (s : WSlot) : WSlot := ⟨s.par, m s.d, s.rest.map fun x => (x.1, m x.2)⟩

def Leaf.relabel (m : Char → Char) : Leaf → Leaf
  | .two sq bar a b => .two sq bar (a.map m) (b.map m)
  | .mandel pre ds => .mandel pre (ds.map m)
  | .omega ds => .omega (ds.map m)
  | .pi ds => .pi (ds.map m)
  | .tr5l ds => .tr5l (ds.map m)
  | .tr5s s ss => .tr5s (s.relabel m) (ss.map (WSlot.relabel m))
  | .trace s ss => .trace (s.relabel m) (ss.map (WSlot.relabel m))
  | .delta c cs => .delta (c.map m) (cs.map (List.map m))
  | .str o a ss b c => .str o (m a) (ss.map (WSlot.relabel m)) (m b) c

def WTok.relabel (m : Char → Char) : WTok → WTok
  | .ch c => .ch c
  | .leaf l => .leaf (l.relabel m)

/-- A trace that is written has an even number of slots. -/
def Leaf.EvenTrace : Leaf → Prop
  | .trace _ ss => ss.length % 2 = 1
  | _ => True

/-- The invariants with three labels that stand for corners of several particles. -/
def Leaf.shorthand : Leaf → Bool
  | .omega _ | .pi _ => true
  | _ => false

end Lips

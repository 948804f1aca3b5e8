import Verif.Spec.Leaves

/-!
Names and expressions with angle and square brackets exchanged.
-/

namespace Lips

/-- Angle brackets become square ones and the other way round. -/
def flipChar (c : Char) : Char :=
  if c = '⟨' then '[' else if c = '[' then '⟨' else if c = '⟩' then ']' else if c = ']' then '⟩' else c

/-- Two-brackets and strings with the other brackets, traces with their first slot moved to the end; all else stays. -/
def Leaf.flip : Leaf → Leaf
  | .two sq bar a b => .two (!sq) bar a b
  | .trace s [] => .trace s []
  | .trace s (s' :: ss) => .trace s' (ss ++ [s])
  | .str o a ss b c => .str (flipChar o) a ss b (flipChar c)
  | l => l

/-- Does the sign change: two-brackets, strings with two ends of one kind, tr5. -/
def Leaf.odd : Leaf → Bool
  | .two _ _ _ _ | .tr5l _ | .tr5s _ _ => true
  | .str o _ _ _ c => decide (o = '⟨') == decide (c = '⟩')
  | _ => false

/-- An invariant that changes its sign is written as `(-l)`. -/
def WTok.flip : WTok → List WTok
  | .ch c => [.ch c]
  | .leaf l => if l.odd then [.ch '(', .ch '-', .leaf l.flip, .ch ')'] else [.leaf l.flip]

/-- An expression with the brackets exchanged. -/
def flipExpr (ts : List WTok) : List WTok := ts.flatMap WTok.flip

end Lips

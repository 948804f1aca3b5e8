import Verif.Model.NodeText

/-!
Python's grammar of expressions (docs.python.org/3/reference/grammar.html: `sum`, `term`, `factor`, `power`, `primary`, `atom`, `slices`) for
the tokens of Model/NodeText, as derivations: left recursion stands for grouping to the left, the right recursion of `factor` and `power`
for grouping to the right.
-/

namespace Lips

/-- An integer with or without a sign. -/
inductive DInt : List NTok → ℤ → Prop
  | pos (k : ℕ) : DInt [.num k] k
  | neg (k : ℕ) : DInt [.op .sub, .num k] (-k)

/-- One index. -/
inductive DIx : List NTok → Ix → Prop
  | pos {ts k} : DInt ts k → DIx ts (.pos k)
  | all : DIx [.colon] (.slice none none)
  | low {ts k} : DInt ts k → DIx (ts ++ [.colon]) (.slice (some k) none)
  | high {ts k} : DInt ts k → DIx (.colon :: ts) (.slice none (some k))
  | both {ts us k l} : DInt ts k → DInt us l → DIx (ts ++ .colon :: us) (.slice (some k) (some l))

/-- Indices separated by commas. -/
inductive DIxs : List NTok → List Ix → Prop
  | one {ts x} : DIx ts x → DIxs ts [x]
  | cons {ts us x xs} : DIx ts x → DIxs us xs → DIxs (ts ++ .comma :: us) (x :: xs)

/-- The levels of the grammar; `elems` are expressions separated by commas. -/
inductive PyLevel where
  | atom | primary | power | factor | term | sum | elems
  deriving DecidableEq

/-- The functions whose calls have their own nodes. -/
def ownNode : List (List Char) := ["oPs".toList, "Fraction".toList, "numpy.block".toList, "numpy.transpose".toList]

/-- The tokens are an expression of this level with this tree. -/
inductive Derives : PyLevel → List NTok → Node → Prop
  | num (k : ℕ) : Derives .atom [.num k] (.num k)
  | name (f : List Char) : Derives .atom [.id f] (.name f)
  | paren {ts a} : Derives .sum ts a → Derives .atom (.lpar :: (ts ++ [.rpar])) a
  | list {ts as} : Derives .elems ts (.list as) → Derives .atom (.lbr :: (ts ++ [.rbr])) (.list as)
  | oPs (s : List Char) : Derives .atom [.id "oPs".toList, .lpar, .str s, .rpar] (.oPs s)
  | fraction (a b : ℕ) : Derives .atom [.id "Fraction".toList, .lpar, .num a, .comma, .num b, .rpar] (.fraction a b)
  | block {ts a} : Derives .sum ts a → Derives .atom (.id "numpy.block".toList :: .lpar :: (ts ++ [.rpar])) (.block a)
  | transpose {ts a} : Derives .sum ts a → Derives .atom (.id "numpy.transpose".toList :: .lpar :: (ts ++ [.rpar])) (.transpose a)
  | call {f ts as} : f ∉ ownNode → Derives .elems ts (.list as) → Derives .atom (.id f :: .lpar :: (ts ++ [.rpar])) (.call f as)
  | atom {ts a} : Derives .atom ts a → Derives .primary ts a
  | subscript {ts a us xs} : Derives .primary ts a → DIxs us xs → Derives .primary (ts ++ .lbr :: (us ++ [.rbr])) (.subscript a xs)
  | primary {ts a} : Derives .primary ts a → Derives .power ts a
  | pow {ts a us b} : Derives .primary ts a → Derives .factor us b → Derives .power (ts ++ .op .pow :: us) (.bin .pow a b)
  | power {ts a} : Derives .power ts a → Derives .factor ts a
  | neg {ts a} : Derives .factor ts a → Derives .factor (.op .sub :: ts) (.neg a)
  | pos {ts a} : Derives .factor ts a → Derives .factor (.op .add :: ts) (.pos a)
  | factor {ts a} : Derives .factor ts a → Derives .term ts a
  | times {o ts a us b} : o = .mul ∨ o = .div ∨ o = .matmul → Derives .term ts a → Derives .factor us b →
      Derives .term (ts ++ .op o :: us) (.bin o a b)
  | term {ts a} : Derives .term ts a → Derives .sum ts a
  | plus {o ts a us b} : o = .add ∨ o = .sub → Derives .sum ts a → Derives .term us b → Derives .sum (ts ++ .op o :: us) (.bin o a b)
  | one {ts a} : Derives .sum ts a → Derives .elems ts (.list [a])
  | cons {ts a us as} : Derives .sum ts a → Derives .elems us (.list as) → Derives .elems (ts ++ .comma :: us) (.list (a :: as))

/-- The characters of a token. -/
def NTok.text : NTok → List Char
  | .num k => pyStr k
  | .op .add => ['+']
  | .op .sub => ['-']
  | .op .mul => ['*']
  | .op .div => ['/']
  | .op .pow => ['*', '*']
  | .op .matmul => ['@']
  | .lpar => ['(']
  | .rpar => [')']
  | .lbr => ['[']
  | .rbr => [']']
  | .comma => [',']
  | .colon => [':']
  | .str s => '\'' :: s ++ ['\'']
  | .id s => s

/-- Characters of names: the letters, the point of `numpy.block`, the underscore and the two epsilons. -/
def IdChar (c : Char) : Prop := c ∈ "abcdefghijklmnopqrstuvwxyzABCDEFGHIJKLMNOPQRSTUVWXYZ._ϵε".toList

instance (c : Char) : Decidable (IdChar c) := inferInstanceAs (Decidable (_ ∈ _))

/-- May the token be followed by this character without becoming another token. -/
def NTok.endsAt (c : Char) : NTok → Prop
  | .num _ => c.isDigit = false
  | .id _ => ¬ IdChar c
  | .op .mul => c ≠ '*'
  | _ => True

/-- Is this a token of Python: strings without quotes, names of letters. -/
def NTok.proper : NTok → Prop
  | .str s => '\'' ∉ s
  | .id s => s ≠ [] ∧ ∀ c ∈ s, IdChar c
  | _ => True

/-- The text has these tokens, with blanks between them. -/
inductive Spells : List Char → List NTok → Prop
  | nil : Spells [] []
  | blank {s ts} : Spells s ts → Spells (' ' :: s) ts
  | tok {t s ts} : t.proper → (∀ c, s.head? = some c → t.endsAt c) → Spells s ts → Spells (t.text ++ s) (t :: ts)

end Lips

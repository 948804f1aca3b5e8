import Verif.Model.EvalArr

/-!
Expressions with open indices read from right to left with angle and square brackets exchanged.
-/

namespace Lips

/-- A bracket seen from the other side and of the other kind. -/
def mirrorChar (c : Char) : Char :=
  if c = '⟨' then ']' else if c = ']' then '⟨' else if c = '[' then '⟩' else if c = '⟩' then '[' else c

/-- The mirror image of a name: `⟨1|` is `|1]`, `⟨1|2|` is `|2|1]`, `⟨1|2|3]` is `⟨3|2|1]`. Mandelstam invariants and Gram determinants stay, a trace of
an even number of slots is rotated; `tr5`, which changes its sign, and an open string with an even number of slots have none. -/
def Form.mirror : Form → Option Form
  | .Au a => some (.Su a)
  | .Su a => some (.Au a)
  | .Ad a => some (.Sd a)
  | .Sd a => some (.Ad a)
  | .angle a b => some (.square b a)
  | .square a b => some (.angle b a)
  | .string o a ms d c => if (o = '⟨' ∨ o = '[') ∧ (c = '⟩' ∨ c = ']') then some (.string (mirrorChar c) d ms.reverse a (mirrorChar o)) else none
  | .openEnd o a ms => if o = '⟨' ∨ o = '[' then some (.openBegin ms.reverse a (mirrorChar o)) else none
  | .openBegin ms d c => if c = '⟩' ∨ c = ']' then some (.openEnd (mirrorChar c) d ms.reverse) else none
  | .doubleOpen ms => if ms.length % 2 = 1 then some (.doubleOpen ms.reverse) else none
  | .tr (s :: ss) => if ss.length % 2 = 1 then some (.tr (ss ++ [s])) else none
  | .mandelstam ds => some (.mandelstam ds)
  | .massOf t => some (.massOf t)
  | .delta cs => some (.delta cs)
  | .omega ds => some (.omega ds)
  | .pi ds => some (.pi ds)
  | .d5 => some .d5
  | _ => none

/-- The mirror image of an expression, given those of the names (`m`) and the names that only change their sign (`odd`): matrices are multiplied in
the opposite order, rows of a block become columns, the two indices change their places. -/
inductive Mirror (m : List Char → List Char → Prop) (odd : List Char → Prop) : Node → Node → Prop
  | num (k : ℕ) : Mirror m odd (.num k) (.num k)
  | fraction (a b : ℕ) : Mirror m odd (.fraction a b) (.fraction a b)
  | name {t t'} : m t t' → Mirror m odd (.oPs t) (.oPs t')
  | odd {t} : odd t → Mirror m odd (.oPs t) (.neg (.oPs t))
  | eps : Mirror m odd (.name ['ϵ']) (.neg (.name ['ϵ']))
  | neg {a a'} : Mirror m odd a a' → Mirror m odd (.neg a) (.neg a')
  | pos {a a'} : Mirror m odd a a' → Mirror m odd (.pos a) (.pos a')
  | bin {o a a' b b'} : o ≠ .matmul → Mirror m odd a a' → Mirror m odd b b' → Mirror m odd (.bin o a b) (.bin o a' b')
  | matmul {a a' b b'} : Mirror m odd a a' → Mirror m odd b b' → Mirror m odd (.bin .matmul a b) (.bin .matmul b' a')
  | transpose {a a'} : Mirror m odd a a' → Mirror m odd (.transpose a) (.transpose a')
  | row {a a' b b'} : Mirror m odd a a' → Mirror m odd b b' →
      Mirror m odd (.block (.list [.list [a, b]])) (.block (.list [.list [a'], .list [b']]))
  | column {a a' b b'} : Mirror m odd a a' → Mirror m odd b b' →
      Mirror m odd (.block (.list [.list [a], .list [b]])) (.block (.list [.list [a', b']]))
  | shortRow {a a' b b'} : Mirror m odd a a' → Mirror m odd b b' → Mirror m odd (.block (.list [a, b])) (.block (.list [.list [a'], .list [b']]))
  | shortColumn {a a' b b'} : Mirror m odd a a' → Mirror m odd b b' → Mirror m odd (.block (.list [.list [a], .list [b]])) (.block (.list [a', b']))
  | both {a a'} (i j : Ix) : Mirror m odd a a' → Mirror m odd (.subscript a [i, j]) (.subscript a' [j, i])
  | rows {a a'} (l h : Option ℤ) : Mirror m odd a a' → Mirror m odd (.subscript a [.slice l h]) (.subscript a' [.slice none none, .slice l h])
  | cols {a a'} (l h : Option ℤ) : Mirror m odd a a' → Mirror m odd (.subscript a [.slice none none, .slice l h]) (.subscript a' [.slice l h])

variable {K : Type*} [Field K]

/-- The transpose of an array; a number is its own. -/
def PVal.transposed : PVal K → PVal K
  | .arr A => .arr ⟨A.cols, A.rows, fun i j => A.get j i⟩
  | v => v

/-- The second result is the transpose of the first one, or both are exceptions. -/
def TransposedRes : Except Err (PVal K) → Except Err (PVal K) → Prop
  | .ok v, .ok w => w = v.transposed
  | .error _, .error _ => True
  | _, _ => False

end Lips

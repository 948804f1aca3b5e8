import Mathlib.Data.Fin.Basic
import Mathlib.Logic.Equiv.Defs
import Verif.Model.EvalArr

/-!
Names of invariants with their labels renamed, for points of up to nine particles.
-/

namespace Lips

variable {n : ℕ}

/-- A digit that is the label of a particle is replaced by the label it is mapped to; all other characters stay. -/
def relabelChar (σ : Equiv.Perm (Fin n)) (c : Char) : Char :=
  if h : '1'.toNat ≤ c.toNat ∧ c.toNat < '1'.toNat + n then Nat.digitChar ((σ ⟨c.toNat - '1'.toNat, by omega⟩ : ℕ) + 1) else c

/-- The mass of particle `k` is written `m_k` or `mk`. -/
def particleMass : List Char → Bool
  | [c, d] => (c = 'm' || c = 'M') && d.isDigit
  | [c, '_', d] => (c = 'm' || c = 'M') && d.isDigit
  | _ => false

/-- A name with its labels renamed. The digit of `tr5` and the digits in names of internal masses are no labels. -/
def relabelName (σ : Equiv.Perm (Fin n)) (t : List Char) : List Char :=
  if "tr".toList.isPrefixOf t then t.take 3 ++ (t.drop 3).map (relabelChar σ)
  else if isMassName t && !particleMass t then t
  else t.map (relabelChar σ)

/-- The names with three labels that stand for corners of several particles, and the one with none. -/
def Shorthand (t : List Char) : Prop := t.head? = some 'Ω' ∨ t.head? = some 'Π' ∨ t.head? = some 'δ' ∨ t.head? = some 'Δ' ∧ '|' ∉ t

mutual

/-- An expression with its names replaced. -/
def Node.rename (f : List Char → List Char) : Node → Node
  | .num k => .num k
  | .bin o a b => .bin o (a.rename f) (b.rename f)
  | .neg a => .neg (a.rename f)
  | .pos a => .pos (a.rename f)
  | .list es => .list (Node.renameAll f es)
  | .oPs t => .oPs (f t)
  | .fraction a b => .fraction a b
  | .block a => .block (a.rename f)
  | .transpose a => .transpose (a.rename f)
  | .call g es => .call g (Node.renameAll f es)
  | .name id => .name id
  | .subscript a ix => .subscript (a.rename f) ix

def Node.renameAll (f : List Char → List Char) : List Node → List Node
  | [] => []
  | a :: es => a.rename f :: Node.renameAll f es

end

mutual

/-- The names in an expression. -/
def Node.names : Node → List (List Char)
  | .num _ | .fraction _ _ | .name _ => []
  | .bin _ a b => a.names ++ b.names
  | .neg a | .pos a | .block a | .transpose a | .subscript a _ => a.names
  | .list es | .call _ es => Node.namesAll es
  | .oPs t => [t]

def Node.namesAll : List Node → List (List Char)
  | [] => []
  | a :: es => a.names ++ Node.namesAll es

end

end Lips

import Mathlib.Data.List.Basic
import Mathlib.Algebra.Field.Basic

/-!
Arithmetic texts: tokens, expression trees and the textbook grammar that relates them. The grammar is that of
ordinary arithmetic: powers bind tightest and associate to the right, then signs, then products and quotients,
then sums and differences, which associate to the left.
-/

namespace Lips

/-- Tokens over atoms `α` (numbers, variables). -/
inductive Tok (α : Type*) where
  | atom (x : α) | plus | minus | star | slash | dstar | lpar | rpar
  deriving DecidableEq

/-- Expression trees over atoms `α`. -/
inductive Ast (α : Type*) where
  | atom (x : α)
  | pos (a : Ast α) | neg (a : Ast α)
  | add (a b : Ast α) | sub (a b : Ast α) | mul (a b : Ast α) | div (a b : Ast α) | pow (a b : Ast α)
  deriving DecidableEq

/-- The levels of the grammar. -/
inductive Level where
  | atom | power | factor | term | expr
  deriving DecidableEq

variable {α β : Type*}

/-- `Reads L ts e`: the tokens `ts` are a phrase of level `L` that reads as `e`. -/
inductive Reads : Level → List (Tok α) → Ast α → Prop
  | atom (x : α) : Reads .atom [.atom x] (.atom x)
  | paren {ts e} : Reads .expr ts e → Reads .atom (.lpar :: (ts ++ [.rpar])) e
  | ofAtom {ts e} : Reads .atom ts e → Reads .power ts e
  | pow {ts us a b} : Reads .atom ts a → Reads .factor us b → Reads .power (ts ++ .dstar :: us) (.pow a b)
  | ofPower {ts e} : Reads .power ts e → Reads .factor ts e
  | neg {ts e} : Reads .factor ts e → Reads .factor (.minus :: ts) (.neg e)
  | pos {ts e} : Reads .factor ts e → Reads .factor (.plus :: ts) (.pos e)
  | ofFactor {ts e} : Reads .factor ts e → Reads .term ts e
  | mul {ts us a b} : Reads .term ts a → Reads .factor us b → Reads .term (ts ++ .star :: us) (.mul a b)
  | div {ts us a b} : Reads .term ts a → Reads .factor us b → Reads .term (ts ++ .slash :: us) (.div a b)
  | ofTerm {ts e} : Reads .term ts e → Reads .expr ts e
  | add {ts us a b} : Reads .expr ts a → Reads .term us b → Reads .expr (ts ++ .plus :: us) (.add a b)
  | sub {ts us a b} : Reads .expr ts a → Reads .term us b → Reads .expr (ts ++ .minus :: us) (.sub a b)

/-- Replacing the atoms of a tree by trees. -/
def Ast.bind (f : α → Ast β) : Ast α → Ast β
  | .atom x => f x
  | .pos a => .pos (a.bind f)
  | .neg a => .neg (a.bind f)
  | .add a b => .add (a.bind f) (b.bind f)
  | .sub a b => .sub (a.bind f) (b.bind f)
  | .mul a b => .mul (a.bind f) (b.bind f)
  | .div a b => .div (a.bind f) (b.bind f)
  | .pow a b => .pow (a.bind f) (b.bind f)

/-- Replacing the atoms of a text by texts. -/
def Tok.bind (f : α → List (Tok β)) : Tok α → List (Tok β)
  | .atom x => f x
  | .plus => [.plus]
  | .minus => [.minus]
  | .star => [.star]
  | .slash => [.slash]
  | .dstar => [.dstar]
  | .lpar => [.lpar]
  | .rpar => [.rpar]

/-- Replacing every atom by a phrase of the same level commutes with reading. -/
theorem Reads.bind {f : α → List (Tok β)} {g : α → Ast β} {L : Level} {ts : List (Tok α)} {e : Ast α} (h : Reads L ts e)
    (hf : ∀ x, .atom x ∈ ts → Reads .atom (f x) (g x)) : Reads L (ts.flatMap (Tok.bind f)) (e.bind g) := by
  induction h with
  | atom x => simpa [Tok.bind, Ast.bind] using hf x (by simp)
  | paren _ ih =>
    have := Reads.paren (ih fun x hx => hf x (by simp [hx]))
    simpa [List.flatMap_append, Tok.bind, Ast.bind] using this
  | ofAtom _ ih => exact .ofAtom (ih hf)
  | pow _ _ ih₁ ih₂ =>
    have := Reads.pow (ih₁ fun x hx => hf x (by simp [hx])) (ih₂ fun x hx => hf x (by simp [hx]))
    simpa [List.flatMap_append, Tok.bind, Ast.bind] using this
  | ofPower _ ih => exact .ofPower (ih hf)
  | neg _ ih =>
    have := Reads.neg (ih fun x hx => hf x (by simp [hx]))
    simpa [Tok.bind, Ast.bind] using this
  | pos _ ih =>
    have := Reads.pos (ih fun x hx => hf x (by simp [hx]))
    simpa [Tok.bind, Ast.bind] using this
  | ofFactor _ ih => exact .ofFactor (ih hf)
  | mul _ _ ih₁ ih₂ =>
    have := Reads.mul (ih₁ fun x hx => hf x (by simp [hx])) (ih₂ fun x hx => hf x (by simp [hx]))
    simpa [List.flatMap_append, Tok.bind, Ast.bind] using this
  | div _ _ ih₁ ih₂ =>
    have := Reads.div (ih₁ fun x hx => hf x (by simp [hx])) (ih₂ fun x hx => hf x (by simp [hx]))
    simpa [List.flatMap_append, Tok.bind, Ast.bind] using this
  | ofTerm _ ih => exact .ofTerm (ih hf)
  | add _ _ ih₁ ih₂ =>
    have := Reads.add (ih₁ fun x hx => hf x (by simp [hx])) (ih₂ fun x hx => hf x (by simp [hx]))
    simpa [List.flatMap_append, Tok.bind, Ast.bind] using this
  | sub _ _ ih₁ ih₂ =>
    have := Reads.sub (ih₁ fun x hx => hf x (by simp [hx])) (ih₂ fun x hx => hf x (by simp [hx]))
    simpa [List.flatMap_append, Tok.bind, Ast.bind] using this

/-! ### Values -/

variable {K : Type*} [Field K]

/-- The integer value of an expression of integers without quotients, for exponents. -/
def Ast.int (ai : α → Option ℤ) : Ast α → Option ℤ
  | .atom x => ai x
  | .pos a => a.int ai
  | .neg a => (a.int ai).map (- ·)
  | .add a b => (a.int ai).bind fun m => (b.int ai).map (m + ·)
  | .sub a b => (a.int ai).bind fun m => (b.int ai).map (m - ·)
  | .mul a b => (a.int ai).bind fun m => (b.int ai).map (m * ·)
  | .div _ _ => none
  | .pow a b => (a.int ai).bind fun m => (b.int ai).bind fun k => if 0 ≤ k then some (m ^ k.toNat) else none

open Classical in
/-- A quotient in a field. -/
noncomputable def quotient (x y : K) : Option K := if y = 0 then none else some (x / y)

open Classical in
/-- A power in a field. -/
noncomputable def power (x : K) (k : ℤ) : Option K := if k < 0 ∧ x = 0 then none else some (x ^ k)

/-- The value of an expression in a field by ordinary arithmetic; none where it is not defined. -/
noncomputable def Ast.value (av : α → Option K) (ai : α → Option ℤ) : Ast α → Option K
  | .atom x => av x
  | .pos a => a.value av ai
  | .neg a => (a.value av ai).map (- ·)
  | .add a b => (a.value av ai).bind fun x => (b.value av ai).map (x + ·)
  | .sub a b => (a.value av ai).bind fun x => (b.value av ai).map (x - ·)
  | .mul a b => (a.value av ai).bind fun x => (b.value av ai).map (x * ·)
  | .div a b => (a.value av ai).bind fun x => (b.value av ai).bind (quotient x)
  | .pow a b => (a.value av ai).bind fun x => (b.int ai).bind (power x)

end Lips

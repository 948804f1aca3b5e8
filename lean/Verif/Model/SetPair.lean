import Verif.Model.Set

/-!
Model of the way two invariants are set together, lips/hardcoded_limits/particles_set_pair.py: which method
`_set_pair_inner` calls and with which arguments (lines 42-153), when a method calls `_set_pair_inner` again
and with which arguments (lines 302, 560, 632, 636, 647, 821), and the choice of the two particles that
restore momentum conservation (lines 386-421 and 942-1016).

Simplifications. Strings are read already, with labels below `n`; the code reads one digit per label in
several places, so the model describes it for at most nine particles. Where the code raises because the middle
of a rewritten three-bracket has no label the model goes on: it makes at least the recursive calls of the code.
`_complementary` of an iterator (line 817) is taken to be that of the list.
-/

namespace Lips

variable {n : ℕ} {V : Type*}

/-- A three-bracket: `⟨s|(m)|e]` when `ang`, else `[s|(m)|e⟩`. -/
structure T3 (n : ℕ) where
  ang : Bool
  s : Fin n
  m : List (Fin n)
  e : Fin n
deriving DecidableEq

/-- The labels `l3B`, in order. -/
def T3.labels (t : T3 n) : List (Fin n) := t.s :: (t.m ++ [t.e])

/-- `flip_using_mom_cons`, lines 430-441, and the same rewriting on lines 638-646. -/
def T3.flip (t : T3 n) : T3 n := { t with m := freeLabels t.labels }

/-- What a string is, in the order in which `_set_pair_inner` tests. -/
inductive Inv (n : ℕ) where
  | two (ang : Bool) (a b : Fin n)
  | three (t : T3 n)
  | nb (t : Str n)
  | mandel (ls : List (Fin n))
  | delta (corners : List (List (Fin n)))
  | other

/-- A string with the value it shall have. -/
abbrev Req (n : ℕ) (V : Type*) := Inv n × V

/-! ### Two three-brackets -/

/-- `how_to_fix_mom_cons`, lines 386-421: the two particles and whether the axis is 2. -/
def fix33 (t u : T3 n) : Option (Fin n × Fin n × Bool) :=
  match freeLabels (t.labels ++ u.labels) with
  | f :: g :: _ => some (f, g, false)
  | [f] =>
    if t.ang = true ∧ u.ang = true ∧ u.e ∉ t.m ∧ u.e ≠ t.s ∧ u.e ≠ u.s then some (f, u.e, false)
    else if t.ang = true ∧ u.ang = true ∧ u.s ∉ t.m ∧ u.s ≠ t.e ∧ u.s ≠ u.e then some (f, u.s, true)
    else if t.ang = true ∧ u.ang = true ∧ t.e ∉ u.m ∧ t.e ≠ u.s ∧ t.e ≠ t.s then some (f, t.e, false)
    else if t.ang = true ∧ u.ang = true ∧ t.s ∉ u.m ∧ t.s ≠ u.e ∧ t.s ≠ t.e then some (f, t.s, true)
    else if t.ang = false ∧ u.ang = false ∧ u.e ∉ t.m ∧ u.e ≠ t.s ∧ u.e ≠ u.s then some (f, u.e, true)
    else if t.ang = false ∧ u.ang = false ∧ u.s ∉ t.m ∧ u.s ≠ t.e ∧ u.s ≠ u.e then some (f, u.s, false)
    else if t.ang = false ∧ u.ang = false ∧ t.e ∉ u.m ∧ t.e ≠ u.s ∧ t.e ≠ t.s then some (f, t.e, true)
    else if t.ang = false ∧ u.ang = false ∧ t.s ∉ u.m ∧ t.s ≠ u.e ∧ t.s ≠ t.e then some (f, t.s, false)
    else none
  | [] =>
    if t.ang = true ∧ u.ang = true ∧ t.s ∉ u.labels ∧ u.s ∉ t.labels ∧ t.labels.count t.s = 1 ∧ u.labels.count u.s = 1 then
      some (t.s, u.s, true)
    else if t.ang = false ∧ u.ang = false ∧ t.s ∉ u.labels ∧ u.s ∉ t.labels ∧ t.labels.count t.s = 1 ∧ u.labels.count u.s = 1 then
      some (t.s, u.s, false)
    else if t.ang = true ∧ u.ang = false ∧ t.s ∉ u.labels ∧ u.e ∉ t.labels ∧ t.labels.count t.s = 1 ∧ u.labels.count u.e = 1 then
      some (t.s, u.e, true)
    else if t.ang = false ∧ u.ang = true ∧ t.e ∉ u.labels ∧ u.s ∉ t.labels ∧ t.labels.count t.e = 1 ∧ u.labels.count u.s = 1 then
      some (t.e, u.s, true)
    else none

/-- Number of labels in neither three-bracket. -/
def free33 (t u : T3 n) : ℕ := (freeLabels (t.labels ++ u.labels)).length

/-- Lines 466-474; the lists of lines 458-464 have the labels of the rewritten strings. -/
def norm33a (t u : T3 n) : T3 n × T3 n :=
  if 2 ≤ free33 t u then (t, u)
  else if 2 ≤ free33 t.flip u then (t.flip, u)
  else if 2 ≤ free33 t u.flip then (t, u.flip)
  else if 2 ≤ free33 t.flip u.flip then (t.flip, u.flip)
  else (t, u)

/-- Lines 479-487. -/
def norm33b (t u : T3 n) : T3 n × T3 n :=
  if (fix33 t u).isSome then (t, u)
  else if (fix33 t.flip u).isSome then (t.flip, u)
  else if (fix33 t u.flip).isSome then (t, u.flip)
  else if (fix33 t.flip u.flip).isSome then (t.flip, u.flip)
  else (t, u)

/-- Both rewritings. -/
def norm33 (t u : T3 n) : T3 n × T3 n := norm33b (norm33a t u).1 (norm33a t u).2

/-- Whether line 560 is reached, for the rewritten strings: tests of lines 496, 524 and 559. -/
def swaps33 (t u : T3 n) : Prop :=
  ¬((∀ k, k ∈ t.labels ↔ k ∈ u.labels) ∧ t.labels.dedup.length = 3) ∧
  ¬(u.m.filter (· ∉ t.m) ≠ [] ∧ (u.m.filter (· ∉ t.m) ≠ [t.s] ∨ u.m.filter (· ∉ t.m) ≠ [t.e])) ∧
  (t.m.filter (· ∉ u.m) ≠ [] ∧ (t.m.filter (· ∉ u.m) ≠ [u.s] ∨ t.m.filter (· ∉ u.m) ≠ [u.e]))

instance (t u : T3 n) : Decidable (swaps33 t u) := by unfold swaps33; infer_instance

/-- The recursive call of `_set_pair_3B_and_3B`, line 560. -/
def step33 (t : T3 n) (v : V) (u : T3 n) (w : V) : Option (Req n V × Req n V) :=
  if swaps33 (norm33 t u).1 (norm33 t u).2 then some ((.three (norm33 t u).2, w), (.three (norm33 t u).1, v)) else none

/-! ### The other methods that call `_set_pair_inner` -/

/-- The recursive call of `_set_pair_A2_or_S2_and_Sijk`, lines 298-302. -/
def step2S (ang : Bool) (a b : Fin n) (v : V) (ls : List (Fin n)) (w : V) : Option (Req n V × Req n V) :=
  if a ∉ ls ∧ b ∉ ls ∧ n = 6 ∧ ls.length = 3 then some ((.two ang a b, v), (.mandel (freeLabels ls), w)) else none

/-- The recursive calls of `_set_pair_3B_and_Sijk`, lines 592-647. Line 631 raises when the middle has fewer
than two labels. -/
def step3S (t : T3 n) (v : V) (ls : List (Fin n)) (w : V) : Option (Req n V × Req n V) :=
  if 2 ≤ (freeLabels (ls ++ t.labels)).length ∨
      ((freeLabels (t.labels ++ freeLabels ls)).length < 2 ∧ (freeLabels (ls ++ [t.s, t.e] ++ freeLabels t.labels)).length < 2) then
    if t.s ∈ ls ∧ t.e ∈ ls ∧ ∀ k ∈ t.m, k ∈ ls then
      match t.m with
      | j :: k :: _ => some ((.two true j k, w), (.mandel ls, v))
      | _ => none
    else none
  else if 2 ≤ (freeLabels (t.labels ++ freeLabels ls)).length then some ((.mandel (freeLabels ls), w), (.three t, v))
  else some ((.mandel ls, w), (.three t.flip, v))

/-- What `_set_pair_Sijk_and_Sijk` (lines 787-829) does: set both strings, then restore momentum conservation
with two particles, or call `_set_pair_inner` again. -/
inductive SSAction (n : ℕ) (V : Type*) where
  | set (first : List (Fin n)) (v : V) (second : List (Fin n)) (w : V) (p q : Fin n)
  | again (first : List (Fin n)) (v : V) (second : List (Fin n)) (w : V)

/-- `_set_pair_Sijk_and_Sijk`, lines 789-829. -/
def stepSS (A : List (Fin n)) (v : V) (B : List (Fin n)) (w : V) : SSAction n V :=
  let ov := A.filter (· ∈ B)
  let ao := A.filter (· ∉ B)
  let bo := B.filter (· ∉ A)
  match freeLabels (ov ++ ao ++ bo) with
  | p :: q :: _ => .set (ao ++ ov) v (bo ++ ov) w p q
  | _ => if B.length < A.length then .again B v (freeLabels A) w else .again A v (freeLabels B) w

/-! ### Dispatch -/

/-- A Mandelstam string without labels matches no pattern. -/
def Inv.blank : Inv n → Bool
  | .mandel [] => true
  | _ => false

/-- The next call of `_set_pair_inner` made by `_set_pair_inner` or by the method it calls, if there is one:
lines 42-153. -/
def dispatchPair (x y : Req n V) : Option (Req n V × Req n V) :=
  match x.1, y.1 with
  | .two ang a b, .mandel ls => step2S ang a b x.2 ls y.2
  | .two _ _ _, _ => none
  | .three _, .two _ _ _ => some (y, x)
  | .three t, .three u => step33 t x.2 u y.2
  | .three t, .mandel ls => step3S t x.2 ls y.2
  | .three _, _ => none
  | .nb _, .two _ _ _ => some (y, x)
  | .nb _, _ => none
  | .mandel _, .two _ _ _ => some (y, x)
  | .mandel _, .three _ => some (y, x)
  | .mandel A, .mandel B =>
    match stepSS A x.2 B y.2 with
    | .again C v D w => some ((.mandel C, v), (.mandel D, w))
    | .set .. => none
  | .mandel _, _ => none
  | .delta _, .two _ _ _ => some (y, x)
  | .delta _, .three _ => some (y, x)
  | .delta _, .mandel _ => some (y, x)
  | .delta _, _ => none
  | .other, _ => none

/-- The same, when a string matches no pattern. -/
def pairStep (z : Req n V × Req n V) : Option (Req n V × Req n V) :=
  if z.1.1.blank || z.2.1.blank then none else dispatchPair z.1 z.2

/-- The calls after `k` steps, `none` when there is no such call. -/
def pairIter : ℕ → Req n V × Req n V → Option (Req n V × Req n V)
  | 0, x => some x
  | k + 1, x => (pairStep x).bind (pairIter k)

/-! ### `_can_fix_mom_cons` -/

/-- First and last character of a two-bracket. -/
def openOf (ang : Bool) : Char := if ang then '⟨' else '['
def closeOf (ang : Bool) : Char := if ang then '⟩' else ']'

/-- `_can_fix_mom_cons` for a two-bracket and a spinor string, lines 945-1016: the two particles and whether
the axis is 2; `none` for `(False, 0)`. -/
def canFix (ang : Bool) (a b : Fin n) (t : Str n) : Option (Fin n × Fin n × Bool) :=
  match freeLabels ([a, b] ++ t.labels) with
  | f :: g :: _ => some (f, g, false)
  | [f] =>
    if a ∉ t.labels then some (f, a, decide (openOf ang = '⟨'))
    else if b ∉ t.labels then some (f, b, decide (closeOf ang = '⟩'))
    else if (t.s ∉ [a, b] ∨ openOf ang = t.first) ∧ (t.s ≠ t.e ∨ t.ms.length % 2 = 0) ∧ t.s ∉ t.ms.flatten then
      some (f, t.s, decide (t.first = '⟨'))
    else if (t.e ∉ [a, b] ∨ closeOf ang = t.last) ∧ (t.s ≠ t.e ∨ t.ms.length % 2 = 0) ∧ t.e ∉ t.ms.flatten then
      some (f, t.e, decide (t.last = '⟩'))
    else none
  | [] =>
    if a ∉ t.labels ∧ b ∉ t.labels then none
    else if a ∉ t.labels ∧ t.s ∉ [a, b] ∧ openOf ang = t.first ∧ (t.s ≠ t.e ∨ t.ms.length % 2 = 0) ∧ t.s ∉ t.ms.flatten then
      some (a, t.s, decide (openOf ang = '⟨'))
    else if b ∉ t.labels ∧ t.s ∉ [a, b] ∧ openOf ang = t.first ∧ (t.s ≠ t.e ∨ t.ms.length % 2 = 0) ∧ t.s ∉ t.ms.flatten then
      some (b, t.s, decide (openOf ang = '⟨'))
    else if a ∉ t.labels ∧ t.e ∉ [a, b] ∧ closeOf ang = t.last ∧ (t.e ≠ t.s ∨ t.ms.length % 2 = 0) ∧ t.e ∉ t.ms.flatten then
      some (a, t.e, decide (closeOf ang = '⟩'))
    else if b ∉ t.labels ∧ t.e ∉ [a, b] ∧ closeOf ang = t.last ∧ (t.e ≠ t.s ∨ t.ms.length % 2 = 0) ∧ t.e ∉ t.ms.flatten then
      some (b, t.e, decide (closeOf ang = '⟩'))
    else if ((t.s ∉ [a, b] ∨ openOf ang = t.first) ∧ t.s ∉ t.ms.flatten) ∧ t.s ≠ t.e ∧
        ((t.e ∉ [a, b] ∨ closeOf ang = t.last) ∧ t.e ∉ t.ms.flatten) ∧ t.ms.length % 2 = 0 then
      some (t.s, t.e, decide (t.first = '⟨'))
    else none

end Lips

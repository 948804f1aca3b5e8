import Verif.Model.Pair33

/-!
Model of `_set_pair_3B_and_Sijk`, lips/hardcoded_limits/particles_set_pair.py:585-669: setting a three-bracket and a
Mandelstam invariant.

Strings are read already, labels are positions of one digit. `_set_pair_inner` called with a Mandelstam invariant
first and a three-bracket second calls it again with the two exchanged (lines 126-128); `step3S` in
Model/SetPair.lean has the arguments of the recursive calls.
-/

namespace Lips

variable {K Γ : Type*} [Field K] [LinearOrder Γ] {n : ℕ}

/-- The last label in the middle that the invariant does not have, lines 598-600. -/
def middleOnly (t : T3 n) (ls : List (Fin n)) : Option (Fin n) := (t.m.filter (· ∉ ls)).getLast?

/-- Lines 597-628: the three-bracket as it is set, and the mode. `none` when all its labels are in the
invariant. -/
def plan3S (t : T3 n) (ls : List (Fin n)) : Option (T3 n × ℕ) :=
  if t.s ∉ ls then some (t, 1)
  else if t.e ∉ ls then some (t.rev, 1)
  else
    match middleOnly t ls with
    | some x => some ({ t with m := x :: t.m.erase x }, 2)
    | none => none

/-- Lines 655-669, for the three-bracket as it was set. When one label is free and neither end can be used nothing
is done. -/
noncomputable def fix3S (c : Ctx K) (T : Tol K Γ) (t : T3 n) (ls : List (Fin n)) (ps : Point K n) : Except Err (Point K n) :=
  match freeLabels (ls ++ t.labels) with
  | p :: q :: _ => fixAxis1 c ps p q
  | [p] =>
    if t.s ∉ ls ∧ t.ang = true then fixAxis2 c ps p t.s
    else if t.s ∉ ls ∧ t.ang = false then fixAxis1 c ps p t.s
    else if t.e ∉ ls ∧ t.ang = false then fixAxis2 c ps p t.e
    else if t.e ∉ ls ∧ t.ang = true then fixAxis1 c ps p t.e
    else .ok ps
  | [] =>
    match ls with
    | i :: j :: _ =>
      andThen (fixAxis1 c ps i j) fun qs =>
        match momentumConservationCheck T.abs T.tol qs with
        | .ok true => .ok qs
        | .ok false => .error .exception
        | .error e => .error e
    | _ => .error .indexError

/-- Lines 597-633 and 649-669. When all labels of the string are in the invariant, the angle bracket of the first two
labels in the middle and the invariant are set in its place, with the values exchanged. -/
noncomputable def direct3S (c : Ctx K) (T : Tol K Γ) (ps : Point K n) (t : T3 n) (v : K) (ls : List (Fin n)) (w : K) :
    Except Err (Point K n) :=
  match plan3S t ls with
  | some (t', mode) => andThen (andThen (setMandel c T ls 1 w ps) (setThree c T t' mode v)) (fix3S c T t' ls)
  | none =>
    match t.m with
    | j :: k :: _ => pair2S c T ps true j k w ls v
    | _ => .error .indexError

/-- Lines 592-594: how many labels are free as the strings are, with the invariant replaced by its complement, with
the middle of the string replaced. -/
def freeAsIs (t : T3 n) (ls : List (Fin n)) : ℕ := (freeLabels (ls ++ t.labels)).length
def freeFirst (t : T3 n) (ls : List (Fin n)) : ℕ := (freeLabels (t.labels ++ freeLabels ls)).length
def freeSecond (t : T3 n) (ls : List (Fin n)) : ℕ := (freeLabels (ls ++ [t.s, t.e] ++ freeLabels t.labels)).length

/-- `_set_pair_3B_and_Sijk`, lines 585-669: the recursive calls take the first branch (`C97_again`). -/
noncomputable def pair3S (c : Ctx K) (T : Tol K Γ) (ps : Point K n) (t : T3 n) (v : K) (ls : List (Fin n)) (w : K) :
    Except Err (Point K n) :=
  if 2 ≤ freeAsIs t ls ∨ (freeFirst t ls < 2 ∧ freeSecond t ls < 2) then direct3S c T ps t v ls w
  else if 2 ≤ freeFirst t ls then direct3S c T ps t v (freeLabels ls) w
  else direct3S c T ps t.flip v ls w

end Lips

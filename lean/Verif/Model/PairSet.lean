import Verif.Model.Set
import Verif.Model.SetPair

/-!
Model of methods that set two invariants, lips/hardcoded_limits/particles_set_pair.py: two two-brackets
(lines 157-203), a two-bracket and a Mandelstam invariant (lines 274-325) and two Mandelstam invariants
(lines 787-829, on points).

Strings are read already, labels are positions. Every step `_set(..., fix_mom=False)` compares the value
reached with the value asked for, with an arbitrary absolute value and tolerance.
-/

namespace Lips

variable {K Γ : Type*} [Field K] [LinearOrder Γ] {n : ℕ}

/-- Absolute value and tolerance of the field. -/
structure Tol (K Γ : Type*) where
  abs : K → Γ
  tol : Γ

/-- `_set(..., fix_mom=False)`, particles_set.py:23-35: what `_set_inner` leaves, if the value is reached. -/
def setThen (T : Tol K Γ) (r : Except Err (Point K n)) (val : Point K n → Except Err K) (X : K) :
    Except Err (Point K n) :=
  match r with
  | .error e => .error e
  | .ok ps =>
    match val ps with
    | .error e => .error e
    | .ok x => if T.abs (x - X) ≤ T.tol then .ok ps else .error .exception

/-- `compute("⟨a|b⟩")` or `compute("[a|b]")`. -/
def twoVal (ang : Bool) (a b : Fin n) (ps : Point K n) : Except Err K :=
  if ang then angle (ps a) (ps b) else square (ps a) (ps b)

/-- `_set("⟨a|b⟩", X, fix_mom=False)` or the same with square brackets. -/
noncomputable def setTwo (c : Ctx K) (T : Tol K Γ) (ang : Bool) (a b : Fin n) (X : K) (ps : Point K n) :
    Except Err (Point K n) :=
  setThen T (if ang then setA2 c ps a b X false else setS2 c ps a b X false) (twoVal ang a b) X

/-- `_set("s_...", X, fix_mom=False, mode=mode)`. -/
noncomputable def setMandel (c : Ctx K) (T : Tol K Γ) (ls : List (Fin n)) (mode : ℕ) (X : K) (ps : Point K n) :
    Except Err (Point K n) :=
  setThen T (setS c ps ls X false mode) (fun qs => .ok (computeS qs ls)) X

/-- Two steps one after the other. -/
def andThen (r : Except Err (Point K n)) (f : Point K n → Except Err (Point K n)) : Except Err (Point K n) :=
  match r with
  | .error e => .error e
  | .ok ps => f ps

/-- Restoring momentum conservation, lines 191-202 and 315-325: with two free particles, with one and
`a`, or with `a` and `b`. `ang` is the kind of the first string. -/
noncomputable def fixAfter (c : Ctx K) (T : Tol K Γ) (ang : Bool) (a b : Fin n) (used : List (Fin n)) (ps : Point K n) :
    Except Err (Point K n) :=
  match freeLabels used with
  | p :: q :: _ => fixAxis1 c ps p q
  | [p] => if ang then fixAxis2 c ps a p else fixAxis1 c ps a p
  | [] =>
    andThen (fixAxis1 c ps a b) fun qs =>
      match momentumConservationCheck T.abs T.tol qs with
      | .ok true => .ok qs
      | .ok false => .error .exception
      | .error e => .error e

/-! ### Two two-brackets -/

/-- `overlap`, lines 170-172. -/
def overlap2 (a b d e : Fin n) : List (Fin n) := [a, b].filter (· ∈ [d, e])

/-- `ab_only` (and with the pairs exchanged `cd_only`), lines 170-178: the last label of the first pair that is
not in the second. -/
def only2 (a b d e : Fin n) : Option (Fin n) := ([a, b].filter (· ∉ [d, e])).getLast?

/-- A two-bracket to be set: its labels, and whether the sign of the value is flipped. -/
structure Job (n : ℕ) where
  s : Fin n
  e : Fin n
  neg : Bool
deriving DecidableEq

/-- The value a job asks for. -/
def Job.val (j : Job n) (v : K) : K := if j.neg then -v else v

/-- Lines 180-192: brackets of the same kind that share a label are written with that label first. A name
that is not bound raises. -/
def jobs22 (x : Bool) (a b : Fin n) (y : Bool) (d e : Fin n) : Except Err (Job n × Job n) :=
  if x = y then
    match overlap2 a b d e with
    | [] => .ok (⟨a, b, false⟩, ⟨d, e, false⟩)
    | o :: _ =>
      match only2 a b d e, only2 d e a b with
      | some p, some q => .ok (⟨o, p, decide (o ≠ a)⟩, ⟨o, q, decide (o ≠ d)⟩)
      | _, _ => .error .exception
  else .ok (⟨a, b, false⟩, ⟨d, e, false⟩)

/-- `_set_pair_A2_or_S2_and_A2_or_S2`, lines 157-203. -/
noncomputable def pair22 (c : Ctx K) (T : Tol K Γ) (ps : Point K n) (x : Bool) (a b : Fin n) (v : K) (y : Bool)
    (d e : Fin n) (w : K) : Except Err (Point K n) :=
  match jobs22 x a b y d e with
  | .error er => .error er
  | .ok (j, k) =>
    andThen (andThen (setTwo c T x j.s j.e (j.val v) ps) (setTwo c T y k.s k.e (k.val w)))
      (fixAfter c T x a b [a, b, d, e])

/-! ### A two-bracket and a Mandelstam invariant -/

/-- The removal of one label, lines 284-287: what is left and what was taken out. -/
def takeOut (a : Fin n) (z : List (Fin n) × List (Fin n)) : List (Fin n) × List (Fin n) :=
  if a ∈ z.1 then (z.1.erase a, z.2 ++ [a]) else z

/-- `ijk` and `overlap` after lines 282-287. -/
def split2S (a b : Fin n) (ls : List (Fin n)) : List (Fin n) × List (Fin n) := takeOut b (takeOut a (ls, []))

/-- Lines 281-293 and 306-325, when the labels overlap or there are more than six particles. -/
noncomputable def pair2SRun (c : Ctx K) (T : Tol K Γ) (ps : Point K n) (x : Bool) (a b : Fin n) (v : K)
    (ls : List (Fin n)) (w : K) : Except Err (Point K n) :=
  let z := split2S a b ls
  andThen (andThen (setTwo c T x a b v ps) (setMandel c T (z.1 ++ z.2) (if x then 2 else 1) w))
    (fixAfter c T x a b (z.1 ++ [a, b]))

/-- `_set_pair_A2_or_S2_and_Sijk`, lines 274-325. At six points a disjoint invariant of three labels is
replaced by its complement; the recursive call then takes the first branch. -/
noncomputable def pair2S (c : Ctx K) (T : Tol K Γ) (ps : Point K n) (x : Bool) (a b : Fin n) (v : K)
    (ls : List (Fin n)) (w : K) : Except Err (Point K n) :=
  if a ∈ ls ∨ b ∈ ls then pair2SRun c T ps x a b v ls w
  else if n = 6 ∧ ls.length = 3 then pair2SRun c T ps x a b v (freeLabels ls) w
  else if 6 < n then pair2SRun c T ps x a b v ls w
  else .error .exception

/-! ### Two Mandelstam invariants -/

/-- What follows `stepSS` when it does not call `_set_pair_inner` again, lines 823-826. -/
noncomputable def pairSS (c : Ctx K) (T : Tol K Γ) (ps : Point K n) (A : List (Fin n)) (v : K) (B : List (Fin n)) (w : K) :
    Option (Except Err (Point K n)) :=
  match stepSS A v B w with
  | .set A' v' B' w' p q =>
    some (andThen (andThen (setMandel c T A' 1 v' ps) (setMandel c T B' 2 w')) fun qs => fixAxis1 c qs p q)
  | .again .. => none

end Lips

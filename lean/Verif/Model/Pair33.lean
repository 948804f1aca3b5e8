import Verif.Model.PairSet

/-!
Model of `_set_pair_3B_and_3B`, lips/hardcoded_limits/particles_set_pair.py:372-581: setting two three-brackets.
The rewriting of the strings that lets momentum conservation be restored (lines 466-487) is `norm33`, the choice
of the two particles `fix33`, both in Model/SetPair.lean.

Labels have one digit.
-/

namespace Lips

variable {K Γ : Type*} [Field K] [LinearOrder Γ] {n : ℕ}

/-- A three-bracket as a string. -/
def T3.str (t : T3 n) : Str n := ⟨openOf t.ang, t.s, [t.m], t.e, closeOf !t.ang⟩

/-- `reverse_order`, lines 443-449. -/
def T3.rev (t : T3 n) : T3 n := ⟨!t.ang, t.e, t.m, t.s⟩

/-- Written with the given kind of first bracket, lines 539-548. -/
def T3.orient (t : T3 n) (ang : Bool) : T3 n := if t.ang = ang then t else t.rev

/-- `_set(string, X, fix_mom=False, mode=mode)` for a three-bracket. -/
noncomputable def setThree (c : Ctx K) (T : Tol K Γ) (t : T3 n) (mode : ℕ) (X : K) (ps : Point K n) :
    Except Err (Point K n) :=
  setThen T (setNB c 3 ps t.str X false mode) (fun qs => t.str.value qs) X

/-- Lines 500-519: the labels are `A`, `B`, `C`; the right spinor given to `A`. -/
noncomputable def custom33 (c : Ctx K) (ps : Point K n) (A B C : Fin n) (X Y : K) : Except Err (Point K n) :=
  match need (ps A).l_d, need (ps B).r_d, need (ps B).l_d, need (ps C).r_d, need (ps C).l_d with
  | .ok l1, .ok r6, .ok l6, .ok r2, .ok l2 =>
    let c1 := l1 0
    let d1 := l1 1
    let a6 := r6 0
    let b6 := r6 1
    let c6 := l6 0
    let d6 := l6 1
    let a2 := r2 0
    let b2 := r2 1
    let c2 := l2 0
    let d2 := l2 1
    match pyDiv (-((a6 * c6 * d1 - a6 * c1 * d6) * X) - (a2 * c2 * d1 + a6 * c6 * d1 - a2 * c1 * d2 - a6 * c1 * d6) *
          (a6 * b2 * c6 * d2 - a2 * b6 * c6 * d2 - a6 * b2 * c2 * d6 + a2 * b6 * c2 * d6 - Y))
        (-((a2 * c2 * d1 + a6 * c6 * d1 - a2 * c1 * d2 - a6 * c1 * d6) * (-(b6 * c6 * d1) + b6 * c1 * d6)) +
          (a6 * c6 * d1 - a6 * c1 * d6) * (-(b2 * c2 * d1) - b6 * c6 * d1 + b2 * c1 * d2 + b6 * c1 * d6)),
      pyDiv (a6 * b2 ^ 2 * c2 * c6 * d1 * d2 - a2 * b2 * b6 * c2 * c6 * d1 * d2 + a6 * b2 * b6 * c6 ^ 2 * d1 * d2 -
          a2 * b6 ^ 2 * c6 ^ 2 * d1 * d2 - a6 * b2 ^ 2 * c1 * c6 * d2 ^ 2 + a2 * b2 * b6 * c1 * c6 * d2 ^ 2 -
          a6 * b2 ^ 2 * c2 ^ 2 * d1 * d6 + a2 * b2 * b6 * c2 ^ 2 * d1 * d6 - a6 * b2 * b6 * c2 * c6 * d1 * d6 +
          a2 * b6 ^ 2 * c2 * c6 * d1 * d6 + a6 * b2 ^ 2 * c1 * c2 * d2 * d6 - a2 * b2 * b6 * c1 * c2 * d2 * d6 -
          a6 * b2 * b6 * c1 * c6 * d2 * d6 + a2 * b6 ^ 2 * c1 * c6 * d2 * d6 + a6 * b2 * b6 * c1 * c2 * d6 ^ 2 -
          a2 * b6 ^ 2 * c1 * c2 * d6 ^ 2 + b6 * c6 * d1 * X - b6 * c1 * d6 * X - b2 * c2 * d1 * Y - b6 * c6 * d1 * Y +
          b2 * c1 * d2 * Y + b6 * c1 * d6 * Y)
        ((-(a6 * b2) + a2 * b6) * (c2 * d1 - c1 * d2) * (c6 * d1 - c1 * d6)) with
    | .ok m, .ok b => store ps A (setRd c (ps A) ![-m, b])
    | .error e, _ => .error e
    | _, .error e => .error e
  | .error e, _, _, _, _ => .error e
  | _, .error e, _, _, _ => .error e
  | _, _, .error e, _, _ => .error e
  | _, _, _, .error e, _ => .error e
  | _, _, _, _, .error e => .error e

/-- The labels `A`, `B`, `C` of lines 498-501. -/
def labels33 (t u : T3 n) : Option (Fin n × Fin n × Fin n) :=
  match t.labels[0]?, t.labels[1]?, t.labels[2]? with
  | some i, some j, some k => some (if u.labels[0]? = some j then (i, j, k) else (i, k, j))
  | _, _, _ => none

/-- The loop of lines 525-558 over the labels in the middle of the second string only: both strings, written so that
the label is the first in the middle of the second, and whether the first text is longer than the second
(line 571). `none` when the loop ends without `use_mode` being bound. When the label is the start of a
string `[s|...|e⟩` line 531 assigns a closing bracket, none of the later conditions hold, and the strings stay
as they are: `longer` says whether the text typed for the first is longer. -/
def rebuild33 (longer : Bool) (t u : T3 n) : List (Fin n) → Option (T3 n × T3 n × Bool)
  | [] => none
  | x :: xs =>
    if x = t.s ∧ x = t.e then rebuild33 longer t u xs
    else
      let second := decide (u.m.length < t.m.length)
      let u' : T3 n := { u with m := x :: u.m.erase x }
      if x = t.s then (if t.ang then some (t.rev, u'.orient false, second) else some (t, u, longer))
      else some (t, u'.orient t.ang, second)

/-- What lines 496-581 do. -/
inductive Plan33 (n : ℕ) where
  /-- The formula for `⟨A|(B+C)|A]` and `⟨B|(A+C)|B]`. -/
  | custom (A B C : Fin n)
  /-- The two strings that are set, in the given mode for the one set second; whether the second string is set
  first. -/
  | steps (t u : T3 n) (mode : ℕ) (second : Bool)
  /-- Line 560: the strings change places. -/
  | again
  /-- A name is not bound. -/
  | unbound

/-- Lines 496-573, for the rewritten strings. `longer` says whether the text of the first string is longer than that
of the second where they are not written anew: this depends on whether parentheses were typed. On lines
564-566 `l3Bs_0` and `l3Be_0` are still the ends of the string before `reverse_order`. -/
def plan33 (longer : Bool) (t u : T3 n) : Plan33 n :=
  let uo := u.m.filter (· ∉ t.m)
  let tOnly := t.m.filter (· ∉ u.m)
  if (∀ k, k ∈ t.labels ↔ k ∈ u.labels) ∧ t.labels.dedup.length = 3 then
    match labels33 t u with
    | some (A, B, C) => .custom A B C
    | none => .unbound
  else if uo ≠ [] ∧ (uo ≠ [t.s] ∨ uo ≠ [t.e]) then
    match rebuild33 longer t u uo with
    | some (t', u', second) => .steps t' u' 2 second
    | none => .unbound
  else if tOnly ≠ [] ∧ (tOnly ≠ [u.s] ∨ tOnly ≠ [u.e]) then .again
  else
    let t' := if t.ang ≠ u.ang then t.rev else t
    if t.s ≠ u.s then .steps t' u 1 longer
    else if t.e ≠ u.e then .steps t'.rev u.rev 1 longer
    else .unbound

/-- Restoring momentum conservation, lines 519-522 and 578-581. -/
noncomputable def fixThree (c : Ctx K) (t u : T3 n) (ps : Point K n) : Except Err (Point K n) :=
  match fix33 t u with
  | some (p, q, ax) => if ax then fixAxis2 c ps p q else fixAxis1 c ps p q
  | none => .error .exception

/-- `_set_pair_3B_and_3B`, lines 372-581; `none` when it calls `_set_pair_inner` again. -/
noncomputable def pair33 (c : Ctx K) (T : Tol K Γ) (longer : Bool) (ps : Point K n) (t₀ : T3 n) (v : K) (u₀ : T3 n) (w : K) :
    Option (Except Err (Point K n)) :=
  match norm33 t₀ u₀ with
  | (t, u) =>
    match plan33 longer t u with
    | .custom A B C => some (andThen (custom33 c ps A B C v w) (fixThree c t u))
    | .steps t' u' mode second =>
      some (if second then
        andThen (andThen (setThree c T u' 1 w ps) (setThree c T t' mode v)) (fixThree c u' t')
      else andThen (andThen (setThree c T t' 1 v ps) (setThree c T u' mode w)) (fixThree c t' u'))
    | .again => none
    | .unbound => some (.error .exception)

end Lips

import Verif.Model.PairDelta
import Verif.Model.Pair3S
import Verif.Model.Pair2N
import Verif.Model.PairSD
import Verif.Model.PairND

/-!
Model of `_set_pair_inner` and `_set_pair` with all methods put together,
lips/hardcoded_limits/particles_set_pair.py:22-153.

Strings are read already; the texts are kept for the pairs that are compared as texts. Δ has three corners. The
point left behind by an exception is in Model/PairLeft. `_set_pair_A2_or_S2_and_Sijk` and `_set_pair_3B_and_Sijk` have
their recursive calls inside (Model/PairSet, Model/Pair3S). Recursive calls are counted by fuel.
-/

namespace Lips

/-- What `_set_pair_inner` does: it returns nothing, the text `Not implemented.`, or a list of two strings. -/
inductive PairOut (K : Type*) (n : ℕ) where
  | set (ps : Point K n)
  | notImplemented
  | replaced (ps : Point K n) (i j : Inv n)

/-- The three corners. -/
def cornersOf {n : ℕ} : List (List (Fin n)) → Option (Corners n)
  | [A, B, C] => some ![A, B, C]
  | _ => none

/-- Lines 629-633: the strings that the method returns when all labels of the three-bracket are in the invariant, for the
branch taken on lines 595, 634 and 637. -/
def replaced3S {n : ℕ} (t : T3 n) (ls : List (Fin n)) : Option (Inv n × Inv n) :=
  let z : T3 n × List (Fin n) :=
    if 2 ≤ freeAsIs t ls ∨ (freeFirst t ls < 2 ∧ freeSecond t ls < 2) then (t, ls)
    else if 2 ≤ freeFirst t ls then (t, freeLabels ls)
    else (t.flip, ls)
  match plan3S z.1 z.2, z.1.m with
  | none, j :: k :: _ => some (.two true j k, .mandel z.2)
  | _, _ => none

section
variable {K Γ : Type*} [Field K] [LinearOrder Γ] {n : ℕ}

/-- A method that may not be implemented. -/
def optSet : Option (Except Err (Point K n)) → Except Err (PairOut K n)
  | none => .ok .notImplemented
  | some r => r.map .set

/-- A table of texts. -/
def tableSet (r : Option (Except Err (Option (Point K n)))) : Option (Except Err (PairOut K n)) :=
  r.map fun r => r.map fun
    | none => .notImplemented
    | some ps => .set ps

/-- The value of an invariant; `rest` is that of a text of no known kind. -/
def Inv.number (rest : Point K n → Except Err K) (ps : Point K n) : Inv n → Except Err K
  | .two ang a b => twoVal ang a b ps
  | .three t => t.str.value ps
  | .nb t => t.value ps
  | .mandel ls => .ok (computeS ps ls)
  | .delta [A, B, C] => .ok (computeDelta ps 1 ![A, B, C])
  | .delta _ => .error .indexError
  | .other => rest ps

/-- What does not change from call to call: the field, the tolerance, the square root of mpmath, the length of texts of
three-brackets, the fuel for reading texts. -/
structure PairEnv (K Γ : Type*) [Field K] where
  c : Ctx K
  T : Tol K Γ
  root : K → Option K
  longer : Bool
  fuel : ℕ

/-- `_set_pair_inner`, lines 42-153. The texts are used on lines 96 and 104 and 146 only. -/
noncomputable def pairInner (E : PairEnv K Γ) (ps : Point K n) :
    ℕ → String → String → Req n K → Req n K → Option (Except Err (PairOut K n))
  | 0, _, _, _, _ => none
  | k + 1, s₁, s₂, x, y =>
    if x.1.blank || y.1.blank then some (.ok (.set ps))
    else match x.1, y.1 with
    | .two p a b, .two q d e => some ((pair22 E.c E.T ps p a b x.2 q d e y.2).map .set)
    | .two p a b, .three t => some ((pair2N E.c E.T ps p a b x.2 t.str y.2).map .set)
    | .two p a b, .nb t => some ((pair2N E.c E.T ps p a b x.2 t y.2).map .set)
    | .two p a b, .mandel ls => some ((pair2S E.c E.T ps p a b x.2 ls y.2).map .set)
    | .two p a b, .delta L =>
      some (match cornersOf L with
        | some L => (pair2D E.c E.T ps p a b x.2 L y.2).map .set
        | none => .error .indexError)
    | .three t, .three u =>
      match pair33 E.c E.T E.longer ps t x.2 u y.2 with
      | some r => some (r.map .set)
      | none => pairInner E ps k s₂ s₁ (.three (norm33 t u).2, y.2) (.three (norm33 t u).1, x.2)
    | .three _, .nb _ => some (.ok .notImplemented)
    | .three t, .mandel ls =>
      some ((pair3S E.c E.T ps t x.2 ls y.2).map fun qs =>
        match replaced3S t ls with
        | some (i, j) => .replaced qs i j
        | none => .set qs)
    | .three t, .delta L =>
      some (match cornersOf L with
        | some L => optSet (pair3D E.c E.T ps t x.2 L y.2)
        | none => .error .indexError)
    | .nb _, .three _ => some (.ok .notImplemented)
    | .nb _, .nb _ => tableSet (pairHard hardStrings E.T.abs E.T.tol E.c E.fuel ps s₁ x.2 s₂ y.2)
    | .nb _, .mandel _ => some (.ok .notImplemented)
    | .nb _, .delta _ => tableSet (pairHard hardDelta E.T.abs E.T.tol E.c E.fuel ps s₁ x.2 s₂ y.2)
    | .mandel _, .nb _ => some (.ok .notImplemented)
    | .mandel A, .mandel B =>
      match stepSS A x.2 B y.2 with
      | .again C v D w => pairInner E ps k s₁ s₂ (.mandel C, v) (.mandel D, w)
      | .set .. =>
        match pairSS E.c E.T ps A x.2 B y.2 with
        | some r => some (r.map .set)
        | none => none
    | .mandel ls, .delta L =>
      some (match cornersOf L with
        | some L => optSet (pairSD E.c E.root ps ls x.2 L y.2)
        | none => .error .indexError)
    | .delta _, .nb _ => tableSet (pairHard hardDelta E.T.abs E.T.tol E.c E.fuel ps s₂ y.2 s₁ x.2)
    | .delta _, .delta _ => some (.ok .notImplemented)
    | .three _, .two .. | .nb _, .two .. | .mandel _, .two .. | .delta _, .two .. => pairInner E ps k s₂ s₁ y x
    | .mandel _, .three _ | .delta _, .three _ | .delta _, .mandel _ => pairInner E ps k s₂ s₁ y x
    | .other, _ | _, .other => some (.ok (.set ps))

/-- `_set_pair`, lines 23-40. -/
noncomputable def setPairOut (E : PairEnv K Γ) (rest : Point K n → Except Err K) (x y : Req n K) :
    Except Err (PairOut K n) → Except Err (Point K n)
  | .error e => .error e
  | .ok .notImplemented => .error .exception
  | .ok (.set ps) => finish x.1 y.1 ps
  | .ok (.replaced ps i j) => finish i j ps
where
  /-- Lines 30-40. -/
  finish (i j : Inv n) (ps : Point K n) : Except Err (Point K n) :=
    match i.number rest ps, j.number rest ps with
    | .error e, _ => .error e
    | _, .error e => .error e
    | .ok a, .ok b =>
      match pointCheck E.T ps with
      | some e => .error e
      | none => if signDiff E.T.abs a x.2 ≤ E.T.tol ∧ signDiff E.T.abs b y.2 ≤ E.T.tol then .ok ps else .error .exception

/-- `_set_pair`. -/
noncomputable def setPair (E : PairEnv K Γ) (rest : Point K n → Except Err K) (k : ℕ) (s₁ s₂ : String) (x y : Req n K)
    (ps : Point K n) : Option (Except Err (Point K n)) :=
  (pairInner E ps k s₁ s₂ x y).map (setPairOut E rest x y)

end

end Lips

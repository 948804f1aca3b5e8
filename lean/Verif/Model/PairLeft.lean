import Verif.Model.SetLeft
import Verif.Model.PairAll

/-!
What the setters of pairs of invariants leave behind, lips/hardcoded_limits/particles_set_pair.py: the particles after
a call, whether it returns or raises. The methods call `_set` twice with `fix_mom=False` and then `fix_mom_cons`; nothing
is undone when one of these raises. Each function here follows the one of Model/PairSet, Pair33, PairDelta, Pair3S,
Pair2N, PairSD, PairND or PairAll with the same name after `pair`.
-/

namespace Lips

variable {K Γ : Type*} [Field K] [LinearOrder Γ] {n : ℕ}

/-- After two steps: `r` is the answer of the first, `l` what it left. -/
def stepLeft (r : Except Err (Point K n)) (l : Point K n) (g : Point K n → Point K n) : Point K n :=
  match r with
  | .error _ => l
  | .ok ps => g ps

/-- After `_set("⟨a|b⟩", X, fix_mom=False)` or the same with square brackets; the checks of `_set` change nothing. -/
noncomputable def leftTwo (c : Ctx K) (ang : Bool) (a b : Fin n) (X : K) (ps : Point K n) : Point K n :=
  if ang then leftA2 c ps a b X false else leftS2 c ps a b X false

/-- After `_set("s_...", X, fix_mom=False, mode=mode)`. -/
noncomputable def leftMandel (c : Ctx K) (ls : List (Fin n)) (mode : ℕ) (X : K) (ps : Point K n) : Point K n :=
  leftS c ps ls X false mode

/-- After `_set(string, X, fix_mom=False, mode=mode)`. -/
noncomputable def leftStr (c : Ctx K) (t : Str n) (mode : ℕ) (X : K) (ps : Point K n) : Point K n :=
  leftNB c 3 ps t X false mode

/-- After `_set("Δ_...", X, fix_mom=fix, mode=mode)`. -/
noncomputable def leftDelta (c : Ctx K) (L : Corners n) (mode : ℕ) (fix : Bool) (X : K) (ps : Point K n) : Point K n :=
  leftD c ps (L 0) (L 1) (L 2) X fix mode

/-- After `fix_mom_cons(p, q, axis=...)`. -/
noncomputable def fixLeft (c : Ctx K) (axis2 : Bool) (ps : Point K n) (p q : Fin n) : Point K n :=
  if axis2 then fixAxis2Left c ps p q else fixAxis1Left c ps p q

/-- After restoring momentum conservation, lines 191-202 and 315-325. -/
noncomputable def fixAfterLeft (c : Ctx K) (ang : Bool) (a b : Fin n) (used : List (Fin n)) (ps : Point K n) : Point K n :=
  match freeLabels used with
  | p :: q :: _ => fixLeft c false ps p q
  | [p] => fixLeft c ang ps a p
  | [] => fixLeft c false ps a b

/-- After `_set_pair_A2_or_S2_and_A2_or_S2`, lines 157-203. -/
noncomputable def left22 (c : Ctx K) (T : Tol K Γ) (ps : Point K n) (x : Bool) (a b : Fin n) (v : K) (y : Bool) (d e : Fin n)
    (w : K) : Point K n :=
  match jobs22 x a b y d e with
  | .error _ => ps
  | .ok (j, k) =>
    stepLeft (setTwo c T x j.s j.e (j.val v) ps) (leftTwo c x j.s j.e (j.val v) ps) fun ps1 =>
      stepLeft (setTwo c T y k.s k.e (k.val w) ps1) (leftTwo c y k.s k.e (k.val w) ps1) (fixAfterLeft c x a b [a, b, d, e])

/-- After lines 281-293 and 306-325. -/
noncomputable def left2SRun (c : Ctx K) (T : Tol K Γ) (ps : Point K n) (x : Bool) (a b : Fin n) (v : K) (ls : List (Fin n))
    (w : K) : Point K n :=
  let z := split2S a b ls
  stepLeft (setTwo c T x a b v ps) (leftTwo c x a b v ps) fun ps1 =>
    stepLeft (setMandel c T (z.1 ++ z.2) (if x then 2 else 1) w ps1) (leftMandel c (z.1 ++ z.2) (if x then 2 else 1) w ps1)
      (fixAfterLeft c x a b (z.1 ++ [a, b]))

/-- After `_set_pair_A2_or_S2_and_Sijk`, lines 274-325. -/
noncomputable def left2S (c : Ctx K) (T : Tol K Γ) (ps : Point K n) (x : Bool) (a b : Fin n) (v : K) (ls : List (Fin n)) (w : K) :
    Point K n :=
  if a ∈ ls ∨ b ∈ ls then left2SRun c T ps x a b v ls w
  else if n = 6 ∧ ls.length = 3 then left2SRun c T ps x a b v (freeLabels ls) w
  else if 6 < n then left2SRun c T ps x a b v ls w
  else ps

/-- After `_set_pair_Sijk_and_Sijk` when it does not call `_set_pair_inner` again, lines 823-826. -/
noncomputable def leftSS (c : Ctx K) (T : Tol K Γ) (ps : Point K n) (A : List (Fin n)) (v : K) (B : List (Fin n)) (w : K) :
    Option (Point K n) :=
  match stepSS A v B w with
  | .set A' v' B' w' p q =>
    some (stepLeft (setMandel c T A' 1 v' ps) (leftMandel c A' 1 v' ps) fun ps1 =>
      stepLeft (setMandel c T B' 2 w' ps1) (leftMandel c B' 2 w' ps1) fun qs => fixLeft c false qs p q)
  | .again .. => none

/-- After lines 500-519. -/
noncomputable def leftCustom33 (c : Ctx K) (ps : Point K n) (A B C : Fin n) (X Y : K) : Point K n :=
  match need (ps A).l_d, need (ps B).r_d, need (ps B).l_d, need (ps C).r_d, need (ps C).l_d with
  | .ok l1, .ok r6, .ok l6, .ok r2, .ok l2 =>
    let c1 := l1 0
    let d1 := l1 1
    let a6 := r6 0
    let b6 := r6 1
    let c6 := l6 0
    let d6 := l6 1
    let a2 := r2 0
    let b2 := r2 1
    let c2 := l2 0
    let d2 := l2 1
    match pyDiv (-((a6 * c6 * d1 - a6 * c1 * d6) * X) - (a2 * c2 * d1 + a6 * c6 * d1 - a2 * c1 * d2 - a6 * c1 * d6) *
          (a6 * b2 * c6 * d2 - a2 * b6 * c6 * d2 - a6 * b2 * c2 * d6 + a2 * b6 * c2 * d6 - Y))
        (-((a2 * c2 * d1 + a6 * c6 * d1 - a2 * c1 * d2 - a6 * c1 * d6) * (-(b6 * c6 * d1) + b6 * c1 * d6)) +
          (a6 * c6 * d1 - a6 * c1 * d6) * (-(b2 * c2 * d1) - b6 * c6 * d1 + b2 * c1 * d2 + b6 * c1 * d6)),
      pyDiv (a6 * b2 ^ 2 * c2 * c6 * d1 * d2 - a2 * b2 * b6 * c2 * c6 * d1 * d2 + a6 * b2 * b6 * c6 ^ 2 * d1 * d2 -
          a2 * b6 ^ 2 * c6 ^ 2 * d1 * d2 - a6 * b2 ^ 2 * c1 * c6 * d2 ^ 2 + a2 * b2 * b6 * c1 * c6 * d2 ^ 2 -
          a6 * b2 ^ 2 * c2 ^ 2 * d1 * d6 + a2 * b2 * b6 * c2 ^ 2 * d1 * d6 - a6 * b2 * b6 * c2 * c6 * d1 * d6 +
          a2 * b6 ^ 2 * c2 * c6 * d1 * d6 + a6 * b2 ^ 2 * c1 * c2 * d2 * d6 - a2 * b2 * b6 * c1 * c2 * d2 * d6 -
          a6 * b2 * b6 * c1 * c6 * d2 * d6 + a2 * b6 ^ 2 * c1 * c6 * d2 * d6 + a6 * b2 * b6 * c1 * c2 * d6 ^ 2 -
          a2 * b6 ^ 2 * c1 * c2 * d6 ^ 2 + b6 * c6 * d1 * X - b6 * c1 * d6 * X - b2 * c2 * d1 * Y - b6 * c6 * d1 * Y +
          b2 * c1 * d2 * Y + b6 * c1 * d6 * Y)
        ((-(a6 * b2) + a2 * b6) * (c2 * d1 - c1 * d2) * (c6 * d1 - c1 * d6)) with
    | .ok m, .ok b => storeLeft ps A (setRd c (ps A) ![-m, b])
    | _, _ => ps
  | _, _, _, _, _ => ps

/-- After lines 519-522 and 578-581. -/
noncomputable def fixThreeLeft (c : Ctx K) (t u : T3 n) (ps : Point K n) : Point K n :=
  match fix33 t u with
  | some (p, q, ax) => fixLeft c ax ps p q
  | none => ps

/-- After `_set_pair_3B_and_3B` when it stops at a name that is not bound: `use_mode` is evaluated on line 577, the first
string was set on line 576. The first string was written anew on lines 560-563 only if lines 524-556 were not run. -/
noncomputable def unboundLeft (c : Ctx K) (longer : Bool) (ps : Point K n) (t : T3 n) (v : K) (u : T3 n) (w : K) : Point K n :=
  let uo := u.m.filter (· ∉ t.m)
  let t' := if uo ≠ [] ∧ (uo ≠ [t.s] ∨ uo ≠ [t.e]) then t else if t.ang ≠ u.ang then t.rev else t
  if longer then leftStr c u.str 1 w ps else leftStr c t'.str 1 v ps

/-- After `_set_pair_3B_and_3B`, lines 372-581; `none` when it calls `_set_pair_inner` again. -/
noncomputable def left33 (c : Ctx K) (T : Tol K Γ) (longer : Bool) (ps : Point K n) (t₀ : T3 n) (v : K) (u₀ : T3 n) (w : K) :
    Option (Point K n) :=
  match norm33 t₀ u₀ with
  | (t, u) =>
    match plan33 longer t u with
    | .custom A B C => some (stepLeft (custom33 c ps A B C v w) (leftCustom33 c ps A B C v w) (fixThreeLeft c t u))
    | .steps t' u' mode second =>
      some (if second then
        stepLeft (setThree c T u' 1 w ps) (leftStr c u'.str 1 w ps) fun ps1 =>
          stepLeft (setThree c T t' mode v ps1) (leftStr c t'.str mode v ps1) (fixThreeLeft c u' t')
      else stepLeft (setThree c T t' 1 v ps) (leftStr c t'.str 1 v ps) fun ps1 =>
        stepLeft (setThree c T u' mode w ps1) (leftStr c u'.str mode w ps1) (fixThreeLeft c t' u'))
    | .again => none
    | .unbound => some (unboundLeft c longer ps t v u w)

/-- After `_set_pair_A2_or_S2_and_Dijk`, lines 329-368. -/
noncomputable def left2D (c : Ctx K) (T : Tol K Γ) (ps : Point K n) (x : Bool) (a b : Fin n) (v : K) (L : Corners n) (w : K) :
    Point K n :=
  match order2D a b L with
  | none => ps
  | some L' => stepLeft (setTwo c T x a b v ps) (leftTwo c x a b v ps) (leftDelta c L' (if x then 2 else 1) true w)

/-- After lines 771-783. -/
noncomputable def leftRun3D (c : Ctx K) (T : Tol K Γ) (ps : Point K n) (t : T3 n) (v : K) (A B C : List (Fin n)) (w : K) :
    Point K n :=
  stepLeft (setThree c T t 1 v ps) (leftStr c t.str 1 v ps) fun ps1 =>
    match A with
    | [] => ps1
    | k :: _ =>
      let mode := if t.ang then (if k ∈ t.m ++ [t.e] then 3 else 2) else 1
      stepLeft (setDelta c T ![A, B, C] mode false w ps1) (leftDelta c ![A, B, C] mode false w ps1) fun ps2 =>
        match C with
        | p :: q :: _ => fixLeft c (!t.ang) ps2 p q
        | _ => ps2

/-- After `_set_pair_3B_and_Dijk`, lines 673-783. -/
noncomputable def left3D (c : Ctx K) (T : Tol K Γ) (ps : Point K n) (t : T3 n) (v : K) (L : Corners n) (w : K) : Point K n :=
  match order3D t [L 0, L 1, L 2] with
  | .ok (some (t', [A, B, C])) => leftRun3D c T ps t' v A B C w
  | _ => ps

/-- After lines 655-669. -/
noncomputable def fix3SLeft (c : Ctx K) (t : T3 n) (ls : List (Fin n)) (ps : Point K n) : Point K n :=
  match freeLabels (ls ++ t.labels) with
  | p :: q :: _ => fixLeft c false ps p q
  | [p] => if t.s ∉ ls then fixLeft c t.ang ps p t.s else if t.e ∉ ls then fixLeft c (!t.ang) ps p t.e else ps
  | [] =>
    match ls with
    | i :: j :: _ => fixLeft c false ps i j
    | _ => ps

/-- After lines 597-633 and 649-669. -/
noncomputable def leftDirect3S (c : Ctx K) (T : Tol K Γ) (ps : Point K n) (t : T3 n) (v : K) (ls : List (Fin n)) (w : K) :
    Point K n :=
  match plan3S t ls with
  | some (t', mode) =>
    stepLeft (setMandel c T ls 1 w ps) (leftMandel c ls 1 w ps) fun ps1 =>
      stepLeft (setThree c T t' mode v ps1) (leftStr c t'.str mode v ps1) (fix3SLeft c t' ls)
  | none =>
    match t.m with
    | j :: k :: _ => left2S c T ps true j k w ls v
    | _ => ps

/-- After `_set_pair_3B_and_Sijk`, lines 585-669. -/
noncomputable def left3S (c : Ctx K) (T : Tol K Γ) (ps : Point K n) (t : T3 n) (v : K) (ls : List (Fin n)) (w : K) : Point K n :=
  if 2 ≤ freeAsIs t ls ∨ (freeFirst t ls < 2 ∧ freeSecond t ls < 2) then leftDirect3S c T ps t v ls w
  else if 2 ≤ freeFirst t ls then leftDirect3S c T ps t v (freeLabels ls) w
  else leftDirect3S c T ps t.flip v ls w

/-- After `_set_pair_A2_or_S2_and_NB`, lines 210-275. -/
noncomputable def left2N (c : Ctx K) (T : Tol K Γ) (ps : Point K n) (ang : Bool) (a b : Fin n) (v : K) (t : Str n) (w : K) :
    Point K n :=
  match plan2N ang a b t with
  | .error _ => ps
  | .ok (u, mode) =>
    stepLeft (setTwo c T ang a b v ps) (leftTwo c ang a b v ps) fun ps1 =>
      stepLeft (setStr c T u mode w ps1) (leftStr c u mode w ps1) fun ps2 =>
        match canFix ang a b u with
        | none => ps2
        | some (p, q, ax) => fixLeft c ax ps2 p q

/-- After lines 888-903. -/
noncomputable def leftRunSD (c : Ctx K) (root : K → Option K) (ps : Point K n) (A B C D E F : Fin n) (v w : K) : Point K n :=
  match bothSpinors (ps A), bothSpinors (ps B), bothSpinors (ps C), bothSpinors (ps D) with
  | .ok (rA, lA), .ok (rB, lB), .ok (rC, lC), .ok (rD, lD) =>
    match SD.solve root ⟨rA 1, lA 0, lA 1, rB 1, lB 0, lB 1, rC 0, rC 1, lC 0, lC 1, rD 0, rD 1, lD 0, lD 1, v, w⟩ with
    | .error _ => ps
    | .ok (a, e) =>
      let o := setRd c (ps A) ![a, rA 1]
      stepLeft (store ps A o) (storeLeft ps A o) fun ps1 =>
        let o' := setRd c (ps1 B) ![e, rB 1]
        stepLeft (store ps1 B o') (storeLeft ps1 B o') fun ps2 => fixLeft c false ps2 E F
  | _, _, _, _ => ps

/-- After `_set_pair_Sijk_and_Dijk`, lines 833-903. -/
noncomputable def leftSD (c : Ctx K) (root : K → Option K) (ps : Point K n) (S : List (Fin n)) (v : K) (L : Corners n) (w : K) :
    Point K n :=
  match chooseCorners S L with
  | none => ps
  | some (i, j) =>
    match L i, L j, L (-(i + j)) with
    | A :: B :: _, C :: D :: _, E :: F :: _ => leftRunSD c root ps A B C D E F v w
    | _, _, _ => ps

/-- After one step of the tables; `none` where Model/SetText does not say. -/
noncomputable def HardStep.left (c : Ctx K) (fuel : ℕ) (h : HardStep) (v w : K) (ps : Point K n) : Option (Point K n) :=
  leftText c ps fuel h.text.toList (if h.second then w else v) false h.mode

/-- After one pair of the tables, lines 907-938 and 94-101. -/
noncomputable def HardPair.left (abs : K → Γ) (tol : Γ) (c : Ctx K) (fuel : ℕ) (h : HardPair) (v w : K) (ps : Point K n) :
    Option (Point K n) :=
  match h.one.run abs tol c fuel v w ps with
  | some (.ok ps1) =>
    match h.two.run abs tol c fuel v w ps1 with
    | some (.ok ps2) =>
      match label n h.p, label n h.q with
      | .ok p, .ok q => some (fixLeft c false ps2 p q)
      | _, _ => some ps2
    | some (.error _) => h.two.left c fuel v w ps1
    | none => none
  | some (.error _) => h.one.left c fuel v w ps
  | none => none

/-- After `_set_pair_NB_and_Dijk`, lines 907-938, and lines 94-101. -/
noncomputable def leftHard (table : List HardPair) (abs : K → Γ) (tol : Γ) (c : Ctx K) (fuel : ℕ) (ps : Point K n) (t₁ : String)
    (v : K) (t₂ : String) (w : K) : Option (Point K n) :=
  match table.find? fun h => decide (h.first = t₁ ∧ h.second = t₂) with
  | none => some ps
  | some h => h.left abs tol c fuel v w ps

/-- After `_set_pair_inner`, lines 42-153, and after `_set_pair`, lines 23-40, whose checks change nothing. -/
noncomputable def leftPair (E : PairEnv K Γ) (ps : Point K n) :
    ℕ → String → String → Req n K → Req n K → Option (Point K n)
  | 0, _, _, _, _ => none
  | k + 1, s₁, s₂, x, y =>
    if x.1.blank || y.1.blank then some ps
    else match x.1, y.1 with
    | .two p a b, .two q d e => some (left22 E.c E.T ps p a b x.2 q d e y.2)
    | .two p a b, .three t => some (left2N E.c E.T ps p a b x.2 t.str y.2)
    | .two p a b, .nb t => some (left2N E.c E.T ps p a b x.2 t y.2)
    | .two p a b, .mandel ls => some (left2S E.c E.T ps p a b x.2 ls y.2)
    | .two p a b, .delta L =>
      some (match cornersOf L with
        | some L => left2D E.c E.T ps p a b x.2 L y.2
        | none => ps)
    | .three t, .three u =>
      match left33 E.c E.T E.longer ps t x.2 u y.2 with
      | some l => some l
      | none => leftPair E ps k s₂ s₁ (.three (norm33 t u).2, y.2) (.three (norm33 t u).1, x.2)
    | .three _, .nb _ => some ps
    | .three t, .mandel ls => some (left3S E.c E.T ps t x.2 ls y.2)
    | .three t, .delta L =>
      some (match cornersOf L with
        | some L => left3D E.c E.T ps t x.2 L y.2
        | none => ps)
    | .nb _, .three _ => some ps
    | .nb _, .nb _ => leftHard hardStrings E.T.abs E.T.tol E.c E.fuel ps s₁ x.2 s₂ y.2
    | .nb _, .mandel _ => some ps
    | .nb _, .delta _ => leftHard hardDelta E.T.abs E.T.tol E.c E.fuel ps s₁ x.2 s₂ y.2
    | .mandel _, .nb _ => some ps
    | .mandel A, .mandel B =>
      match stepSS A x.2 B y.2 with
      | .again C v D w => leftPair E ps k s₁ s₂ (.mandel C, v) (.mandel D, w)
      | .set .. => leftSS E.c E.T ps A x.2 B y.2
    | .mandel ls, .delta L =>
      some (match cornersOf L with
        | some L => leftSD E.c E.root ps ls x.2 L y.2
        | none => ps)
    | .delta _, .nb _ => leftHard hardDelta E.T.abs E.T.tol E.c E.fuel ps s₂ y.2 s₁ x.2
    | .delta _, .delta _ => some ps
    | .three _, .two .. | .nb _, .two .. | .mandel _, .two .. | .delta _, .two .. => leftPair E ps k s₂ s₁ y x
    | .mandel _, .three _ | .delta _, .three _ | .delta _, .mandel _ => leftPair E ps k s₂ s₁ y x
    | .other, _ | _, .other => some ps

end Lips

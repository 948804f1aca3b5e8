import Verif.Model.Pair33
import Verif.Model.Solve

/-!
Model of the methods that set a Gram determinant together with another invariant,
lips/hardcoded_limits/particles_set_pair.py: a two-bracket and Δ (lines 329-368), a three-bracket and Δ
(lines 673-783).

Strings are read already. The corners of Δ are the three lists of labels, from either spelling; the text that is
written for a new order of the corners is read back as the corners in that order (`C95_order` for the
shorthand). The value of Δ is that of the spelling with explicit corners; `delta3_eq` says that the shorthand has
the same value.
-/

namespace Lips

variable {K Γ : Type*} [Field K] [LinearOrder Γ] {n : ℕ}

/-- Three corners. -/
abbrev Corners (n : ℕ) := Fin 3 → List (Fin n)

/-- The checks of `_set` with `fix_mom=True`, particles_set.py:27-32. -/
def pointCheck (T : Tol K Γ) (ps : Point K n) : Option Err :=
  checkPoint (I := Unit) ⟨T.abs, T.tol, fun _ _ => .ok 0⟩ ps

/-- `_set("Δ_...", X, fix_mom=fix, mode=mode)`, particles_set.py:23-35. -/
noncomputable def setDelta (c : Ctx K) (T : Tol K Γ) (L : Corners n) (mode : ℕ) (fix : Bool) (X : K) (ps : Point K n) :
    Except Err (Point K n) :=
  match setD c ps (L 0) (L 1) (L 2) X fix mode with
  | .error e => .error e
  | .ok qs =>
    match (if fix then pointCheck T qs else none) with
    | some e => .error e
    | none => if T.abs (computeDelta qs 1 L - X) ≤ T.tol then .ok qs else .error .exception

/-! ### A two-bracket and Δ -/

/-- The last corner with the given property, lines 345-347 and 353-355. -/
def lastCorner (L : Corners n) (p : List (Fin n) → Bool) : Option (Fin 3) :=
  [2, 1, 0].find? fun i => p (L i)

/-- The corners beginning with the one at position `i`. -/
def rotCorners (L : Corners n) (i : Fin 3) : Corners n := fun j => L (i + j)

/-- Lines 344-358: the corner with both labels goes first, else the corner with none of them last; without such a
corner the name `free_List` is not bound. -/
def order2D (a b : Fin n) (L : Corners n) : Option (Corners n) :=
  match lastCorner L (fun A => decide (a ∈ A ∧ b ∈ A)) with
  | some i => some (rotCorners L i)
  | none =>
    match lastCorner L (fun A => decide (a ∉ A ∧ b ∉ A)) with
    | some i => some (rotCorners L (i + 1))
    | none => none

/-- `_set_pair_A2_or_S2_and_Dijk`, lines 329-368. -/
noncomputable def pair2D (c : Ctx K) (T : Tol K Γ) (ps : Point K n) (x : Bool) (a b : Fin n) (v : K) (L : Corners n) (w : K) :
    Except Err (Point K n) :=
  match order2D a b L with
  | none => .error .exception
  | some L' => andThen (setTwo c T x a b v ps) (setDelta c T L' (if x then 2 else 1) true w)

/-! ### A three-bracket and Δ -/

/-- The first loop of `reorder_invariants`, lines 722-741: the corners, and whether the string is read
backwards. With equal ends the corner that has the label must have another one: line 724 looks at it. -/
def orderEnds (t : T3 n) (L : List (List (Fin n))) : Except Err (List (List (Fin n)) × T3 n) :=
  if t.s = t.e then
    match L.find? (fun A => decide (t.s ∈ A)) with
    | none => .ok (L, t)
    | some A =>
      match A.filter (· ≠ t.s) with
      | [] => .error .indexError
      | y :: _ => if y ∈ t.m then .ok (L.erase A ++ [A], t) else .ok (A :: L.erase A, t)
  else
    match L.find? (fun A => decide (A.head? = some t.s ∨ A.head? = some t.e)) with
    | none => .ok (L, t)
    | some A => .ok (A :: L.erase A, if A.head? = some t.s then t else t.rev)

/-- `reorder_invariants`, lines 712-755: `none` for `False`. The corner without labels of the string, its last one
aside, goes to the end. -/
def reorder3D (t : T3 n) (L : List (List (Fin n))) : Except Err (Option (T3 n × List (List (Fin n)))) :=
  match orderEnds t L with
  | .error e => .error e
  | .ok (L', t') =>
    match L'.find? (fun A => (t'.s :: t'.m).all fun k => decide (k ∉ A)) with
    | some A => .ok (some (t', L'.erase A ++ [A]))
    | none => .ok none

/-- Lines 757-769: the strings as they are set. `none` stands for the text `Not implemented.`; a string
rewritten without labels in its middle does not match the pattern, and line 676 raises. -/
def order3D (t : T3 n) (L : List (List (Fin n))) : Except Err (Option (T3 n × List (List (Fin n)))) :=
  match reorder3D t L with
  | .error e => .error e
  | .ok (some z) => .ok (some z)
  | .ok none => if t.flip.m = [] then .error .indexError else reorder3D t.flip L

/-- Lines 771-783, for three corners. -/
noncomputable def run3D (c : Ctx K) (T : Tol K Γ) (ps : Point K n) (t : T3 n) (v : K) (A B C : List (Fin n)) (w : K) :
    Except Err (Point K n) :=
  andThen (setThree c T t 1 v ps) fun ps1 =>
    match A with
    | [] => .error .indexError
    | k :: _ =>
      let mode := if t.ang then (if k ∈ t.m ++ [t.e] then 3 else 2) else 1
      andThen (setDelta c T ![A, B, C] mode false w ps1) fun ps2 =>
        match C with
        | p :: q :: _ => if t.ang then fixAxis1 c ps2 p q else fixAxis2 c ps2 p q
        | _ => .error .indexError

/-- `_set_pair_3B_and_Dijk`, lines 673-783: `none` for the text `Not implemented.` -/
noncomputable def pair3D (c : Ctx K) (T : Tol K Γ) (ps : Point K n) (t : T3 n) (v : K) (L : Corners n) (w : K) :
    Option (Except Err (Point K n)) :=
  match order3D t [L 0, L 1, L 2] with
  | .error e => some (.error e)
  | .ok none => none
  | .ok (some (t', [A, B, C])) => some (run3D c T ps t' v A B C w)
  | .ok (some _) => some (.error .exception)

end Lips

import Verif.Model.PairLeft
import Verif.Lemmas.SetLeft

/-! Helper lemmas: what the setters of pairs of invariants leave behind. -/

namespace Lips

open Matrix

set_option linter.unusedSectionVars false
set_option linter.unusedVariables false

variable {K Γ : Type*} [Field K] [NeZero (2 : K)] [LinearOrder Γ] {n : ℕ}

/-- A check that follows changes nothing. -/
theorem leaves_check {c : Ctx K} {m : ℕ} {fix : Bool} {ps : Point K n} {r r' : Except Err (Point K n)} {l : Point K n}
    (h : Leaves c m fix ps r l) (hr : ∀ qs, r' = .ok qs → r = .ok qs) : Leaves c m true ps r' l :=
  ⟨fun qs e => h.ret _ (hr _ e), h.shell, fun _ h => (nomatch h), h.frame⟩

theorem leaves_setThen {c : Ctx K} {m : ℕ} {fix : Bool} {ps : Point K n} {r : Except Err (Point K n)} {l : Point K n}
    (T : Tol K Γ) (h : Leaves c m fix ps r l) (val : Point K n → Except Err K) (X : K) :
    Leaves c m true ps (setThen T r val X) l := by
  refine leaves_check h fun qs e => ?_
  unfold setThen at e
  rcases r with er | q
  · cases e
  · dsimp only at e
    split at e
    · cases e
    · split at e
      · exact e
      · cases e

theorem leaves_andThen {c : Ctx K} {m m' : ℕ} {fix : Bool} {ps : Point K n} {r : Except Err (Point K n)} {l : Point K n}
    {f : Point K n → Except Err (Point K n)} {g : Point K n → Point K n} (h : Leaves c m fix ps r l)
    (h' : ∀ qs, Leaves c m' true qs (f qs) (g qs)) : Leaves c (m + m') true ps (andThen r f) (stepLeft r l g) := by
  rcases r with e | qs
  · exact leaves_check (leaves_weaken h (by omega) id) fun _ h => h
  · exact leaves_then h rfl (h' qs)

theorem leaves_and2 {c : Ctx K} {m m' k : ℕ} {fix : Bool} {ps : Point K n} {r : Except Err (Point K n)} {l : Point K n}
    {f : Point K n → Except Err (Point K n)} {g : Point K n → Point K n} {f' : Point K n → Except Err (Point K n)}
    {g' : Point K n → Point K n} (h : Leaves c m fix ps r l)
    (h' : ∀ qs, Leaves c m' true qs (f qs) (g qs)) (h'' : ∀ qs, Leaves c k true qs (f' qs) (g' qs)) :
    Leaves c (m + (m' + k)) true ps (andThen (andThen r f) f') (stepLeft r l fun qs => stepLeft (f qs) (g qs) g') := by
  rcases r with e | qs
  · exact leaves_check (leaves_weaken h (by omega) id) fun _ h => h
  · exact leaves_then h rfl (leaves_andThen (h' qs) h'')

/-! ### Steps -/

theorem leaves_two (c : Ctx K) (T : Tol K Γ) (ang : Bool) (a b : Fin n) (X : K) (ps : Point K n) :
    Leaves c 1 true ps (setTwo c T ang a b X ps) (leftTwo c ang a b X ps) := by
  unfold setTwo leftTwo
  cases ang
  · exact leaves_setThen T (leaves_S2 c ps a b X false) _ _
  · exact leaves_setThen T (leaves_A2 c ps a b X false) _ _

theorem leaves_mandel (c : Ctx K) (T : Tol K Γ) (ls : List (Fin n)) (mode : ℕ) (X : K) (ps : Point K n) :
    Leaves c 1 true ps (setMandel c T ls mode X ps) (leftMandel c ls mode X ps) :=
  leaves_setThen T (leaves_S c ps ls X false mode) _ _

theorem leaves_str (c : Ctx K) (T : Tol K Γ) (t : Str n) (mode : ℕ) (X : K) (ps : Point K n) :
    Leaves c 1 true ps (setStr c T t mode X ps) (leftStr c t mode X ps) :=
  leaves_setThen T (leaves_NB c 3 ps t X false mode) _ _

theorem leaves_three (c : Ctx K) (T : Tol K Γ) (t : T3 n) (mode : ℕ) (X : K) (ps : Point K n) :
    Leaves c 1 true ps (setThree c T t mode X ps) (leftStr c t.str mode X ps) :=
  leaves_setThen T (leaves_NB c 3 ps t.str X false mode) _ _

theorem leaves_delta (c : Ctx K) (T : Tol K Γ) (L : Corners n) (mode : ℕ) (fix : Bool) (X : K) (ps : Point K n) :
    Leaves c (width fix) true ps (setDelta c T L mode fix X ps) (leftDelta c L mode fix X ps) := by
  refine leaves_check (leaves_D c ps (L 0) (L 1) (L 2) X fix mode) fun qs e => ?_
  unfold setDelta at e
  rcases hr : setD c ps (L 0) (L 1) (L 2) X fix mode with er | q <;> rw [hr] at e
  · cases e
  · dsimp only at e
    split at e
    · cases e
    · split at e
      · exact e
      · cases e

theorem leaves_fix (c : Ctx K) (ax : Bool) (ps : Point K n) (p q : Fin n) :
    Leaves c 2 true ps (if ax then fixAxis2 c ps p q else fixAxis1 c ps p q) (fixLeft c ax ps p q) := by
  unfold fixLeft
  cases ax
  · exact leaves_fix1 c ps p q
  · exact leaves_fix2 c ps p q

theorem leaves_fixChecked (c : Ctx K) (T : Tol K Γ) (ps : Point K n) (p q : Fin n) :
    Leaves c 2 true ps (andThen (fixAxis1 c ps p q) fun qs =>
      match momentumConservationCheck T.abs T.tol qs with
      | .ok true => .ok qs
      | .ok false => .error .exception
      | .error e => .error e) (fixLeft c false ps p q) := by
  refine leaves_check (leaves_fix1 c ps p q) fun qs e => ?_
  rcases hr : fixAxis1 c ps p q with er | z <;> rw [hr] at e
  · cases e
  · simp only [andThen] at e
    split at e
    · exact e
    · cases e
    · cases e

theorem leaves_fixAfter (c : Ctx K) (T : Tol K Γ) (ang : Bool) (a b : Fin n) (used : List (Fin n)) (ps : Point K n) :
    Leaves c 2 true ps (fixAfter c T ang a b used ps) (fixAfterLeft c ang a b used ps) := by
  unfold fixAfter fixAfterLeft
  rcases freeLabels used with _ | ⟨p, _ | ⟨q, pl⟩⟩ <;> dsimp only
  · exact leaves_fixChecked c T ps a b
  · exact leaves_fix c ang ps a p
  · exact leaves_fix c false ps p q

theorem leaves_fixThree (c : Ctx K) (t u : T3 n) (ps : Point K n) :
    Leaves c 2 true ps (fixThree c t u ps) (fixThreeLeft c t u ps) := by
  unfold fixThree fixThreeLeft
  rcases fix33 t u with _ | ⟨p, q, ax⟩ <;> dsimp only
  · exact leaves_error _ _ _ _ _
  · exact leaves_fix c ax ps p q

theorem leaves_fix3S (c : Ctx K) (T : Tol K Γ) (t : T3 n) (ls : List (Fin n)) (ps : Point K n) :
    Leaves c 2 true ps (fix3S c T t ls ps) (fix3SLeft c t ls ps) := by
  unfold fix3S fix3SLeft
  rcases freeLabels (ls ++ t.labels) with _ | ⟨p, _ | ⟨q, pl⟩⟩ <;> dsimp only
  · rcases ls with _ | ⟨i, _ | ⟨j, ls⟩⟩
    · exact leaves_error _ _ _ _ _
    · exact leaves_error _ _ _ _ _
    · exact leaves_fixChecked c T ps i j
  · by_cases hs : t.s ∉ ls <;> by_cases he : t.e ∉ ls <;> rcases ha : t.ang <;>
      simp only [hs, he, not_false_eq_true, if_true, if_false, and_self, and_true, and_false, reduceCtorEq, Bool.not_true, Bool.not_false]
    all_goals first
      | exact leaves_ok _ _ _ _
      | exact leaves_fix c true ps p _
      | exact leaves_fix c false ps p _
  · exact leaves_fix c false ps p q

theorem leaves_custom33 (c : Ctx K) (ps : Point K n) (A B C : Fin n) (X Y : K) :
    Leaves c 1 true ps (custom33 c ps A B C X Y) (leftCustom33 c ps A B C X Y) := by
  unfold custom33 leftCustom33
  rcases need (ps A).l_d with e | l1 <;> rcases need (ps B).r_d with e | r6 <;> rcases need (ps B).l_d with e | l6 <;>
    rcases need (ps C).r_d with e | r2 <;> rcases need (ps C).l_d with e | l2 <;> dsimp only <;> try exact leaves_error _ _ _ _ _
  generalize pyDiv (_ : K) _ = d1
  generalize pyDiv (_ : K) _ = d2
  rcases d1 with e | m <;> rcases d2 with e | b <;> dsimp only <;> try exact leaves_error _ _ _ _ _
  exact leaves_store (safe_rd _ _ _ _) le_rfl

/-! ### Methods -/

theorem leaves_22 (c : Ctx K) (T : Tol K Γ) (ps : Point K n) (x : Bool) (a b : Fin n) (v : K) (y : Bool) (d e : Fin n) (w : K) :
    Leaves c 4 true ps (pair22 c T ps x a b v y d e w) (left22 c T ps x a b v y d e w) := by
  unfold pair22 left22
  rcases jobs22 x a b y d e with er | ⟨j, k⟩
  · exact leaves_error _ _ _ _ _
  · exact leaves_and2 (leaves_two c T _ _ _ _ _) (leaves_two c T _ _ _ _) (leaves_fixAfter c T _ _ _ _)

theorem leaves_2SRun (c : Ctx K) (T : Tol K Γ) (ps : Point K n) (x : Bool) (a b : Fin n) (v : K) (ls : List (Fin n)) (w : K) :
    Leaves c 4 true ps (pair2SRun c T ps x a b v ls w) (left2SRun c T ps x a b v ls w) :=
  leaves_and2 (leaves_two c T _ _ _ _ _) (leaves_mandel c T _ _ _) (leaves_fixAfter c T _ _ _ _)

theorem leaves_2S (c : Ctx K) (T : Tol K Γ) (ps : Point K n) (x : Bool) (a b : Fin n) (v : K) (ls : List (Fin n)) (w : K) :
    Leaves c 4 true ps (pair2S c T ps x a b v ls w) (left2S c T ps x a b v ls w) := by
  unfold pair2S left2S
  split
  · exact leaves_2SRun c T ps x a b v ls w
  split
  · exact leaves_2SRun c T ps x a b v _ w
  split
  · exact leaves_2SRun c T ps x a b v ls w
  · exact leaves_error _ _ _ _ _

theorem leaves_2N (c : Ctx K) (T : Tol K Γ) (ps : Point K n) (x : Bool) (a b : Fin n) (v : K) (t : Str n) (w : K) :
    Leaves c 4 true ps (pair2N c T ps x a b v t w) (left2N c T ps x a b v t w) := by
  unfold pair2N left2N
  rcases plan2N x a b t with er | ⟨u, mode⟩ <;> dsimp only
  · exact leaves_error _ _ _ _ _
  · refine leaves_and2 (k := 2) (leaves_two c T _ _ _ _ _) (leaves_str c T _ _ _) fun qs => ?_
    unfold fixStr
    rcases canFix x a b u with _ | ⟨p, q, ax⟩
    · exact leaves_ok _ _ _ _
    · exact leaves_fix c ax qs p q

theorem leaves_2D (c : Ctx K) (T : Tol K Γ) (ps : Point K n) (x : Bool) (a b : Fin n) (v : K) (L : Corners n) (w : K) :
    Leaves c 4 true ps (pair2D c T ps x a b v L w) (left2D c T ps x a b v L w) := by
  unfold pair2D left2D
  rcases order2D a b L with _ | L'
  · exact leaves_error _ _ _ _ _
  · exact leaves_andThen (leaves_two c T _ _ _ _ _) (leaves_delta c T L' _ true w)

theorem leaves_direct3S (c : Ctx K) (T : Tol K Γ) (ps : Point K n) (t : T3 n) (v : K) (ls : List (Fin n)) (w : K) :
    Leaves c 4 true ps (direct3S c T ps t v ls w) (leftDirect3S c T ps t v ls w) := by
  unfold direct3S leftDirect3S
  rcases plan3S t ls with _ | ⟨t', mode⟩ <;> dsimp only
  · rcases t.m with _ | ⟨j, _ | ⟨k, m⟩⟩
    · exact leaves_error _ _ _ _ _
    · exact leaves_error _ _ _ _ _
    · exact leaves_2S c T ps true j k w ls v
  · exact leaves_and2 (leaves_mandel c T _ _ _ _) (leaves_three c T _ _ _) (leaves_fix3S c T _ _)

theorem leaves_3S (c : Ctx K) (T : Tol K Γ) (ps : Point K n) (t : T3 n) (v : K) (ls : List (Fin n)) (w : K) :
    Leaves c 4 true ps (pair3S c T ps t v ls w) (left3S c T ps t v ls w) := by
  unfold pair3S left3S
  split
  · exact leaves_direct3S c T ps t v ls w
  split
  · exact leaves_direct3S c T ps t v _ w
  · exact leaves_direct3S c T ps t.flip v ls w

theorem leaves_run3D (c : Ctx K) (T : Tol K Γ) (ps : Point K n) (t : T3 n) (v : K) (A B C : List (Fin n)) (w : K) :
    Leaves c 4 true ps (run3D c T ps t v A B C w) (leftRun3D c T ps t v A B C w) := by
  refine leaves_andThen (m' := 3) (leaves_three c T _ _ _ _) fun ps1 => ?_
  rcases A with _ | ⟨k, A⟩ <;> dsimp only
  · exact leaves_error _ _ _ _ _
  · refine leaves_andThen (m' := 2) (leaves_delta c T _ _ false w ps1) fun ps2 => ?_
    rcases C with _ | ⟨p, _ | ⟨q, C⟩⟩ <;> dsimp only
    · exact leaves_error _ _ _ _ _
    · exact leaves_error _ _ _ _ _
    · rcases t.ang
      · exact leaves_fix2 c ps2 p q
      · exact leaves_fix1 c ps2 p q

theorem leaves_runSD (c : Ctx K) (root : K → Option K) (ps : Point K n) (A B C D E F : Fin n) (v w : K) :
    Leaves c 4 true ps (runSD c root ps A B C D E F v w) (leftRunSD c root ps A B C D E F v w) := by
  unfold runSD leftRunSD
  rcases bothSpinors (ps A) with e | ⟨rA, lA⟩ <;> rcases bothSpinors (ps B) with e | ⟨rB, lB⟩ <;>
    rcases bothSpinors (ps C) with e | ⟨rC, lC⟩ <;> rcases bothSpinors (ps D) with e | ⟨rD, lD⟩ <;> dsimp only <;>
    try exact leaves_error _ _ _ _ _
  generalize SD.solve root _ = z
  rcases z with er | ⟨a, e⟩ <;> dsimp only
  · exact leaves_error _ _ _ _ _
  · exact leaves_andThen (m := 1) (m' := 3) (fix := true) (leaves_store (safe_rd _ _ _ _) le_rfl) fun ps1 =>
      leaves_andThen (m := 1) (m' := 2) (fix := true) (leaves_store (safe_rd _ _ _ _) le_rfl) fun ps2 => leaves_fix1 c ps2 E F

/-! ### Methods that may give up -/

theorem leaves_SS (c : Ctx K) (T : Tol K Γ) (ps : Point K n) (A : List (Fin n)) (v : K) (B : List (Fin n)) (w : K) :
    LeavesText c 4 true ps (pairSS c T ps A v B w) (leftSS c T ps A v B w) := by
  unfold pairSS leftSS
  rcases stepSS A v B w with ⟨A', v', B', w', p, q⟩ | ⟨C, v', D, w'⟩ <;> dsimp only
  · exact .some (leaves_and2 (leaves_mandel c T _ _ _ _) (leaves_mandel c T _ _ _) fun qs => leaves_fix1 c qs p q)
  · exact .none

theorem leaves_unbound (c : Ctx K) (longer : Bool) (ps : Point K n) (t : T3 n) (v : K) (u : T3 n) (w : K) :
    Leaves c 4 true ps (.error .exception) (unboundLeft c longer ps t v u w) := by
  have key : ∀ t' : T3 n, Leaves c 4 true ps (.error .exception)
      (if longer then leftStr c u.str 1 w ps else leftStr c t'.str 1 v ps) := by
    intro t'
    cases longer
    · exact leaves_check (leaves_weaken (fix' := false) (leaves_NB c 3 ps t'.str v false 1) (by decide) id) fun _ h => (nomatch h)
    · exact leaves_check (leaves_weaken (fix' := false) (leaves_NB c 3 ps u.str w false 1) (by decide) id) fun _ h => (nomatch h)
  exact key _

theorem leaves_33 (c : Ctx K) (T : Tol K Γ) (longer : Bool) (ps : Point K n) (t₀ : T3 n) (v : K) (u₀ : T3 n) (w : K) :
    LeavesText c 4 true ps (pair33 c T longer ps t₀ v u₀ w) (left33 c T longer ps t₀ v u₀ w) := by
  unfold pair33 left33
  generalize norm33 t₀ u₀ = z
  rcases z with ⟨t, u⟩
  dsimp only
  rcases plan33 longer t u with ⟨A, B, C⟩ | ⟨t', u', mode, _ | _⟩ | _ | _ <;> dsimp only
  · exact .some (leaves_weaken (leaves_andThen (leaves_custom33 c ps A B C v w) (leaves_fixThree c t u)) (by decide) id)
  · exact .some (leaves_and2 (leaves_three c T _ _ _ _) (leaves_three c T _ _ _) (leaves_fixThree c _ _))
  · exact .some (leaves_and2 (leaves_three c T _ _ _ _) (leaves_three c T _ _ _) (leaves_fixThree c _ _))
  · exact .none
  · exact .some (leaves_unbound c longer ps t v u w)

end Lips

import Verif.Model.PairAll
import Verif.Lemmas.Pair2N

/-! Helper lemmas: no setter leaves the mass shell. -/

namespace Lips

open Matrix

set_option linter.unusedSectionVars false
set_option linter.unusedVariables false

variable {K Γ : Type*} [Field K] [NeZero (2 : K)] [LinearOrder Γ] {n : ℕ}

/-- Every particle is consistent, massless and has spinors. -/
def OnShell (c : Ctx K) (ps : Point K n) : Prop := ∃ r l, Spin c ps r l

/-- What is returned, if anything, is on the mass shell. -/
def Keeps (c : Ctx K) (r : Except Err (Point K n)) : Prop := ∀ qs, r = .ok qs → OnShell c qs

theorem keeps_error (c : Ctx K) (e : Err) : Keeps c (.error e : Except Err (Point K n)) := fun _ h => nomatch h

theorem keeps_ok {c : Ctx K} {ps : Point K n} (h : OnShell c ps) : Keeps c (.ok ps) := fun _ e => by
  injection e with e; exact e ▸ h

theorem keeps_rd {c : Ctx K} {ps : Point K n} (h : OnShell c ps) (k : Fin n) (s : V2 K) :
    Keeps c (store ps k (setRd c (ps k) s)) := by
  intro qs e
  obtain ⟨r, l, hs⟩ := h
  obtain ⟨q, e1, hq⟩ := setRd_massless (hs k) s
  obtain ⟨ps', e2, h2, -⟩ := store_r hs k e1 hq
  rw [e2] at e; injection e with e; exact ⟨_, _, e ▸ h2⟩

theorem keeps_ru {c : Ctx K} {ps : Point K n} (h : OnShell c ps) (k : Fin n) (s : V2 K) :
    Keeps c (store ps k (setRu c (ps k) s)) := by
  intro qs e
  obtain ⟨r, l, hs⟩ := h
  obtain ⟨q, e1, hq⟩ := setRu_massless (hs k) s
  obtain ⟨ps', e2, h2, -⟩ := store_r hs k e1 hq
  rw [e2] at e; injection e with e; exact ⟨_, _, e ▸ h2⟩

theorem keeps_ld {c : Ctx K} {ps : Point K n} (h : OnShell c ps) (k : Fin n) (s : V2 K) :
    Keeps c (store ps k (setLd c (ps k) s)) := by
  intro qs e
  obtain ⟨r, l, hs⟩ := h
  obtain ⟨q, e1, hq⟩ := setLd_massless (hs k) s
  obtain ⟨ps', e2, h2, -⟩ := store_l hs k e1 hq
  rw [e2] at e; injection e with e; exact ⟨_, _, e ▸ h2⟩

theorem keeps_lu {c : Ctx K} {ps : Point K n} (h : OnShell c ps) (k : Fin n) (s : V2 K) :
    Keeps c (store ps k (setLu c (ps k) s)) := by
  intro qs e
  obtain ⟨r, l, hs⟩ := h
  obtain ⟨q, e1, hq⟩ := setLu_massless (hs k) s
  obtain ⟨ps', e2, h2, -⟩ := store_l hs k e1 hq
  rw [e2] at e; injection e with e; exact ⟨_, _, e ▸ h2⟩

/-- Fixing momentum, when it returns, keeps the mass shell and conserves momentum. -/
theorem fix1_good {c : Ctx K} {ps qs : Point K n} (h : OnShell c ps) {a b : Fin n} (e : fixAxis1 c ps a b = .ok qs) :
    OnShell c qs ∧ Conserves qs := by
  obtain ⟨r, l, hs⟩ := h
  have hd := fixAxis1_ne hs e
  have hab : a ≠ b := by rintro rfl; exact hd (specSquare_self _)
  obtain ⟨ps', r', e', hc, h', -⟩ := fixAxis1_spin hs hab hd
  rw [e'] at e; injection e with e; subst e
  exact ⟨⟨_, _, h'⟩, hc⟩

theorem fix2_good {c : Ctx K} {ps qs : Point K n} (h : OnShell c ps) {a b : Fin n} (e : fixAxis2 c ps a b = .ok qs) :
    OnShell c qs ∧ Conserves qs := by
  obtain ⟨r, l, hs⟩ := h
  have hd := fixAxis2_ne hs e
  have hab : a ≠ b := by rintro rfl; exact hd (specAngle_self _)
  obtain ⟨ps', r', e', hc, h', -⟩ := fixAxis2_spin hs hab hd
  rw [e'] at e; injection e with e; subst e
  exact ⟨⟨_, _, h'⟩, hc⟩

theorem keeps_fix1 {c : Ctx K} {ps : Point K n} (h : OnShell c ps) (a b : Fin n) : Keeps c (fixAxis1 c ps a b) :=
  fun _ e => (fix1_good h e).1

theorem keeps_fix2 {c : Ctx K} {ps : Point K n} (h : OnShell c ps) (a b : Fin n) : Keeps c (fixAxis2 c ps a b) :=
  fun _ e => (fix2_good h e).1

theorem keeps_fixFirstTwo {c : Ctx K} {ps : Point K n} (h : OnShell c ps) (pl : List (Fin n)) (ax : Bool) :
    Keeps c (fixFirstTwo c ps pl ax) := by
  unfold fixFirstTwo
  split
  · split
    · exact keeps_fix2 h _ _
    · exact keeps_fix1 h _ _
  · exact keeps_error c _

theorem keeps_fixIf {c : Ctx K} {r : Except Err (Point K n)} (h : Keeps c r) (fix ax : Bool) (pl : List (Fin n)) :
    Keeps c (fixIf c fix ax pl r) := by
  unfold fixIf
  split
  · exact keeps_error c _
  · rename_i ps
    have hp : OnShell c ps := h ps rfl
    split
    · exact keeps_fixFirstTwo hp _ _
    · exact keeps_ok hp

theorem keeps_andThen {c : Ctx K} {r : Except Err (Point K n)} {f : Point K n → Except Err (Point K n)} (h : Keeps c r)
    (hf : ∀ ps, OnShell c ps → Keeps c (f ps)) : Keeps c (andThen r f) := by
  unfold andThen
  split
  · exact keeps_error c _
  · exact hf _ (h _ rfl)

theorem keeps_setThen {c : Ctx K} (T : Tol K Γ) {r : Except Err (Point K n)} (h : Keeps c r)
    (val : Point K n → Except Err K) (X : K) : Keeps c (setThen T r val X) := by
  unfold setThen
  split
  · exact keeps_error c _
  · rename_i ps
    have hp : OnShell c ps := h ps rfl
    split
    · exact keeps_error c _
    · split
      · exact keeps_ok hp
      · exact keeps_error c _

/-- A result inspected further on. -/
theorem keeps_of {c : Ctx K} {r : Except Err (Point K n)} {qs : Point K n} (h : Keeps c r) (e : r = .ok qs) : OnShell c qs :=
  h qs e

/-! ### One invariant -/

theorem keeps_setA2 {c : Ctx K} {ps : Point K n} (h : OnShell c ps) (A B : Fin n) (X : K) (fix : Bool) :
    Keeps c (setA2 c ps A B X fix) := by
  unfold setA2
  repeat' split
  all_goals first | exact keeps_error c _ | exact keeps_fixIf (keeps_rd h _ _) _ _ _

theorem keeps_setS2 {c : Ctx K} {ps : Point K n} (h : OnShell c ps) (A B : Fin n) (X : K) (fix : Bool) :
    Keeps c (setS2 c ps A B X fix) := by
  unfold setS2
  repeat' split
  all_goals first | exact keeps_error c _ | exact keeps_fixIf (keeps_lu h _ _) _ _ _

theorem keeps_setHead {c : Ctx K} {ps : Point K n} (h : OnShell c ps) (t : Str n) (X : K) : Keeps c (setHead c ps t X) := by
  unfold setHead
  dsimp only
  repeat' split
  all_goals first | exact keeps_error c _ | exact keeps_rd h _ _ | exact keeps_ru h _ _ | exact keeps_ld h _ _

theorem keeps_setMiddle {c : Ctx K} {ps : Point K n} (h : OnShell c ps) (t : Str n) (i j : ℕ) (X : K) :
    Keeps c (setMiddle c ps t i j X) := by
  unfold setMiddle
  dsimp only
  repeat' split
  all_goals first | exact keeps_error c _ | exact keeps_setA2 h _ _ _ _ | exact keeps_setS2 h _ _ _ _

theorem keeps_fixNB {c : Ctx K} {ps : Point K n} (h : OnShell c ps) (t : Str n) (a : Fin n) (first : Char) :
    Keeps c (fixNB c ps t a first) := by
  unfold fixNB
  dsimp only
  split
  · exact keeps_fixFirstTwo h _ _
  · exact keeps_fixFirstTwo h _ _

theorem keeps_setNB {c : Ctx K} (fuel : ℕ) {ps : Point K n} (h : OnShell c ps) (t : Str n) (X : K) (fix : Bool) (mode : ℕ) :
    Keeps c (setNB c fuel ps t X fix mode) := by
  induction fuel generalizing t X with
  | zero => exact keeps_error c _
  | succ k ih =>
    rw [setNB]
    generalize (if (freeLabels t.labels).length < 2 ∧ fix = true then t.findFlip else none) = flipped
    generalize flipped.getD t = u
    generalize (if flipped.isSome = true then -X else X) = Y
    split
    · split
      · exact ih _ _
      · split
        · exact keeps_error c _
        · rename_i ps' e
          have hp := keeps_of (keeps_setHead h u Y) e
          split
          · exact keeps_fixNB hp _ _ _
          · exact keeps_ok hp
    · split
      · exact keeps_error c _
      · split
        · exact keeps_error c _
        · rename_i ps' e
          have hp := keeps_of (keeps_setMiddle h _ _ _ _) e
          split
          · exact keeps_fixNB hp _ _ _
          · exact keeps_ok hp

theorem keeps_setS {c : Ctx K} {ps : Point K n} (h : OnShell c ps) (ls : List (Fin n)) (X : K) (fix : Bool) (mode : ℕ) :
    Keeps c (setS c ps ls X fix mode) := by
  unfold setS
  dsimp only
  repeat' split
  all_goals first | exact keeps_error c _ | exact keeps_ok h | exact keeps_setNB _ h _ _ _ _

theorem keeps_setD {c : Ctx K} {ps : Point K n} (h : OnShell c ps) (A B C : List (Fin n)) (X : K) (fix : Bool) (mode : ℕ) :
    Keeps c (setD c ps A B C X fix mode) := by
  unfold setD
  dsimp only
  split
  · exact keeps_error c _
  · split
    · split
      · split
        · exact keeps_error c _
        · split
          · exact keeps_error c _
          · split
            · exact keeps_error c _
            · rename_i ps' e
              have hp : OnShell c ps' := by
                by_cases hm : mode % 2 = 1
                · rw [if_pos hm] at e; exact keeps_of (keeps_ru h _ _) e
                · rw [if_neg hm] at e; exact keeps_of (keeps_lu h _ _) e
              split
              · exact keeps_fixFirstTwo hp _ _
              · exact keeps_ok hp
      · exact keeps_error c _
      · exact keeps_error c _
    · exact keeps_error c _

theorem keeps_setO {c : Ctx K} {ps : Point K n} (h : OnShell c ps) (A B C : List (Fin n)) (X : K) :
    Keeps c (setO c ps A B C X) := by
  unfold setO
  dsimp only
  split
  · split
    · split
      · exact keeps_error c _
      · split
        · exact keeps_error c _
        · split
          · exact keeps_error c _
          · rename_i e
            exact keeps_fix1 (keeps_of (keeps_rd h _ _) e) _ _
    all_goals exact keeps_error c _
  · exact keeps_error c _

theorem keeps_setP {c : Ctx K} {ps : Point K n} (h : OnShell c ps) (A B C : List (Fin n)) (X : K) :
    Keeps c (setP c ps A B C X) := by
  unfold setP
  split
  · split
    · split
      · exact keeps_error c _
      · split
        · exact keeps_error c _
        · rename_i e
          exact keeps_fix1 (keeps_of (keeps_rd h _ _) e) _ _
    all_goals exact keeps_error c _
  · exact keeps_error c _

theorem keeps_setTr5 {c : Ctx K} {ps : Point K n} (h : OnShell c ps) (w x y z : Slot n) (X : K) (fix : Bool) :
    Keeps c (setTr5 c ps w x y z X fix) := by
  unfold setTr5
  repeat' split
  all_goals first | exact keeps_error c _ | exact keeps_fixIf (keeps_rd h _ _) _ _ _

theorem keeps_storeBoth {c : Ctx K} {ps : Point K n} (h : OnShell c ps) (k : Fin n) (r l : V2 K) :
    Keeps c (storeBoth c ps k r l) := by
  unfold storeBoth
  split
  · exact keeps_error c _
  · rename_i e
    exact keeps_ld (keeps_of (keeps_rd h _ _) e) _ _

theorem keeps_setTr5Five {c : Ctx K} {ps : Point K 5} (h : OnShell c ps) (X : K) : Keeps c (setTr5Five c ps X) := by
  unfold setTr5Five
  split
  · exact keeps_error c _
  · split
    · exact keeps_error c _
    · split
      · exact keeps_error c _
      · rename_i e0
        have h0 := keeps_of (keeps_storeBoth h _ _ _) e0
        split
        · exact keeps_error c _
        · rename_i e1
          have h1 := keeps_of (keeps_storeBoth h0 _ _ _) e1
          split
          · exact keeps_error c _
          · rename_i e2
            have h2 := keeps_of (keeps_storeBoth h1 _ _ _) e2
            split
            · exact keeps_error c _
            · rename_i e3
              exact keeps_storeBoth (keeps_of (keeps_storeBoth h2 _ _ _) e3) _ _ _

theorem keeps_setTr5All {c : Ctx K} {ps : Point K n} (h : OnShell c ps) (w x y z : Slot n) (X : K) (fix : Bool) :
    Keeps c (setTr5All c ps w x y z X fix) := by
  unfold setTr5All
  split
  · split
    · exact keeps_setTr5Five h _
    · exact keeps_error c _
  · exact keeps_setTr5 h _ _ _ _ _ _
  · split
    · exact keeps_error c _
    · exact keeps_error c _

theorem keeps_set5B {c : Ctx K} {ps : Point K n} (h : OnShell c ps) (a b x y e f : Fin n) (X : K) (fix : Bool) :
    Keeps c (set5B c ps a b x y e f X fix) := by
  unfold set5B
  repeat' split
  all_goals first | exact keeps_error c _ | exact keeps_fixIf (keeps_lu h _ _) _ _ _

/-! ### Texts -/

/-- The same for texts, which may be outside the model. -/
def KeepsText (c : Ctx K) (r : Option (Except Err (Point K n))) : Prop := ∀ z, r = some z → Keeps c z

theorem keepsText_none (c : Ctx K) : KeepsText c (none : Option (Except Err (Point K n))) := fun _ h => nomatch h

theorem keepsText_some {c : Ctx K} {r : Except Err (Point K n)} (h : Keeps c r) : KeepsText c (some r) := fun _ e => by
  injection e with e; exact e ▸ h

theorem keepsText_error (c : Ctx K) (e : Err) : KeepsText c (some (.error e) : Option (Except Err (Point K n))) :=
  keepsText_some (keeps_error c e)

theorem keeps_setNBText {c : Ctx K} {ps : Point K n} (h : OnShell c ps) (t : List Char) (p q : Char) (X : K) (fix : Bool)
    (mode : ℕ) : KeepsText c (setNBText c ps t p q X fix mode) := by
  unfold setNBText
  repeat' split
  all_goals first
    | exact keepsText_error c _ | exact keepsText_none c | exact keepsText_some (keeps_setNB _ h _ _ _ _)

theorem keeps_setSText {c : Ctx K} {ps : Point K n} (h : OnShell c ps) (ds : List Char) (X : K) (fix : Bool) (mode : ℕ) :
    KeepsText c (setSText c ps ds X fix mode) := by
  unfold setSText
  repeat' split
  all_goals first
    | exact keepsText_error c _ | exact keepsText_none c | exact keepsText_some (keeps_ok h)
    | exact keepsText_some (keeps_setS h _ _ _ _)

theorem keeps_setDText {c : Ctx K} {ps : Point K n} (h : OnShell c ps) (fuel : ℕ) (cs : List (List Char)) (X : K) (fix : Bool)
    (mode : ℕ) : KeepsText c (setDText c ps fuel cs X fix mode) := by
  unfold setDText
  repeat' split
  all_goals first
    | exact keepsText_error c _ | exact keepsText_none c | exact keepsText_some (keeps_setD h _ _ _ _ _ _)

theorem keeps_setTr5Text {c : Ctx K} {ps : Point K n} (h : OnShell c ps) (m : List Char) (X : K) (fix : Bool) :
    KeepsText c (setTr5Text c ps m X fix) := by
  unfold setTr5Text
  repeat' split
  all_goals first
    | exact keepsText_error c _ | exact keepsText_none c | exact keepsText_some (keeps_setTr5All h _ _ _ _ _ _)

theorem keeps_set5BText {c : Ctx K} {ps : Point K n} (h : OnShell c ps) (a b cd e f : List Char) (X : K) (fix : Bool) :
    KeepsText c (set5BText c ps a b cd e f X fix) := by
  unfold set5BText
  repeat' split
  all_goals first
    | exact keepsText_error c _ | exact keepsText_none c | exact keepsText_some (keeps_set5B h _ _ _ _ _ _ _ _)

theorem keeps_setForm {c : Ctx K} {ps : Point K n} (h : OnShell c ps) (fuel : ℕ) (t : List Char) (X : K) (fix : Bool)
    (mode : ℕ) (f : SetForm) : KeepsText c (setForm c ps fuel t X fix mode f) := by
  cases f with
  | angle a b =>
    rw [setForm]; apply keepsText_some; repeat' split
    all_goals first | exact keeps_error c _ | exact keeps_setA2 h _ _ _ _
  | square a b =>
    rw [setForm]; apply keepsText_some; repeat' split
    all_goals first | exact keeps_error c _ | exact keeps_setS2 h _ _ _ _
  | string o a m d e => exact keeps_setNBText h _ _ _ _ _ _
  | mandelstam ds => exact keeps_setSText h _ _ _ _
  | delta cs => exact keeps_setDText h _ _ _ _ _
  | omega ds =>
    rw [setForm]
    rcases shortCorners n fuel ds with _ | (e | ⟨A, B, C⟩)
    · exact keepsText_none c
    · exact keepsText_error c e
    · exact keepsText_some (keeps_setO h _ _ _ _)
  | pi ds =>
    rw [setForm]
    rcases shortCorners n fuel ds with _ | (e | ⟨A, B, C⟩)
    · exact keepsText_none c
    · exact keepsText_error c e
    · exact keepsText_some (keeps_setP h _ _ _ _)
  | tr5 m => exact keeps_setTr5Text h _ _ _
  | diff a b cd e f => exact keeps_set5BText h _ _ _ _ _ _ _
  | nothing => exact keepsText_some (keeps_ok h)

theorem keeps_setInner {c : Ctx K} {ps : Point K n} (h : OnShell c ps) (fuel : ℕ) (t : List Char) (X : K) (fix : Bool)
    (mode : ℕ) : KeepsText c (setInner c ps fuel t X fix mode) := by
  unfold setInner
  split
  · split
    · exact keepsText_error c _
    · exact keeps_setForm h _ _ _ _ _ _
  · exact keepsText_none c

theorem keeps_setText {c : Ctx K} {ps : Point K n} (h : OnShell c ps) (abs : K → Γ) (tol : Γ) (fuel : ℕ) (t : List Char)
    (X : K) (fix : Bool) (mode : ℕ) : KeepsText c (setText abs tol c ps fuel t X fix mode) := by
  unfold setText
  split
  · exact keepsText_none c
  · exact keepsText_error c _
  · rename_i ps' e
    have hp := keeps_setInner h fuel t X fix mode _ e _ rfl
    split
    · exact keepsText_error c _
    · apply keepsText_some
      unfold setChecks
      repeat' split
      all_goals first | exact keeps_error c _ | exact keeps_ok hp
    · exact keepsText_none c

/-! ### Pairs -/

theorem keeps_setTwo {c : Ctx K} {ps : Point K n} (h : OnShell c ps) (T : Tol K Γ) (ang : Bool) (a b : Fin n) (X : K) :
    Keeps c (setTwo c T ang a b X ps) := by
  apply keeps_setThen
  split
  · exact keeps_setA2 h _ _ _ _
  · exact keeps_setS2 h _ _ _ _

theorem keeps_setMandel {c : Ctx K} {ps : Point K n} (h : OnShell c ps) (T : Tol K Γ) (ls : List (Fin n)) (mode : ℕ) (X : K) :
    Keeps c (setMandel c T ls mode X ps) := keeps_setThen T (keeps_setS h _ _ _ _) _ _

theorem keeps_setStr {c : Ctx K} {ps : Point K n} (h : OnShell c ps) (T : Tol K Γ) (t : Str n) (mode : ℕ) (X : K) :
    Keeps c (setStr c T t mode X ps) := keeps_setThen T (keeps_setNB _ h _ _ _ _) _ _

theorem keeps_setThree {c : Ctx K} {ps : Point K n} (h : OnShell c ps) (T : Tol K Γ) (t : T3 n) (mode : ℕ) (X : K) :
    Keeps c (setThree c T t mode X ps) := keeps_setThen T (keeps_setNB _ h _ _ _ _) _ _

theorem keeps_setDelta {c : Ctx K} {ps : Point K n} (h : OnShell c ps) (T : Tol K Γ) (L : Corners n) (mode : ℕ) (fix : Bool)
    (X : K) : Keeps c (setDelta c T L mode fix X ps) := by
  unfold setDelta
  split
  · exact keeps_error c _
  · rename_i qs e
    have hp := keeps_of (keeps_setD h _ _ _ _ _ _) e
    split
    · exact keeps_error c _
    · split
      · exact keeps_ok hp
      · exact keeps_error c _

theorem keeps_checked {c : Ctx K} {ps : Point K n} (h : OnShell c ps) (T : Tol K Γ) :
    Keeps c (match momentumConservationCheck T.abs T.tol ps with
      | .ok true => .ok ps
      | .ok false => .error .exception
      | .error e => .error e) := by
  split
  · exact keeps_ok h
  · exact keeps_error c _
  · exact keeps_error c _

theorem keeps_fixAfter {c : Ctx K} {ps : Point K n} (h : OnShell c ps) (T : Tol K Γ) (ang : Bool) (a b : Fin n)
    (used : List (Fin n)) : Keeps c (fixAfter c T ang a b used ps) := by
  unfold fixAfter
  split
  · exact keeps_fix1 h _ _
  · split
    · exact keeps_fix2 h _ _
    · exact keeps_fix1 h _ _
  · exact keeps_andThen (keeps_fix1 h _ _) fun qs hq => keeps_checked hq T

theorem keeps_pair22 {c : Ctx K} {ps : Point K n} (h : OnShell c ps) (T : Tol K Γ) (x : Bool) (a b : Fin n) (v : K) (y : Bool)
    (d e : Fin n) (w : K) : Keeps c (pair22 c T ps x a b v y d e w) := by
  unfold pair22
  split
  · exact keeps_error c _
  · exact keeps_andThen (keeps_andThen (keeps_setTwo h _ _ _ _ _) fun q hq => keeps_setTwo hq _ _ _ _ _)
      fun q hq => keeps_fixAfter hq _ _ _ _ _

theorem keeps_pair2SRun {c : Ctx K} {ps : Point K n} (h : OnShell c ps) (T : Tol K Γ) (x : Bool) (a b : Fin n) (v : K)
    (ls : List (Fin n)) (w : K) : Keeps c (pair2SRun c T ps x a b v ls w) :=
  keeps_andThen (keeps_andThen (keeps_setTwo h _ _ _ _ _) fun q hq => keeps_setMandel hq _ _ _ _)
    fun q hq => keeps_fixAfter hq _ _ _ _ _

theorem keeps_pair2S {c : Ctx K} {ps : Point K n} (h : OnShell c ps) (T : Tol K Γ) (x : Bool) (a b : Fin n) (v : K)
    (ls : List (Fin n)) (w : K) : Keeps c (pair2S c T ps x a b v ls w) := by
  unfold pair2S
  repeat' split
  all_goals first | exact keeps_error c _ | exact keeps_pair2SRun h _ _ _ _ _ _ _

theorem keeps_fixStr {c : Ctx K} {ps : Point K n} (h : OnShell c ps) (ang : Bool) (a b : Fin n) (t : Str n) :
    Keeps c (fixStr c ang a b t ps) := by
  unfold fixStr
  repeat' split
  all_goals first | exact keeps_ok h | exact keeps_fix2 h _ _ | exact keeps_fix1 h _ _

theorem keeps_pair2N {c : Ctx K} {ps : Point K n} (h : OnShell c ps) (T : Tol K Γ) (x : Bool) (a b : Fin n) (v : K) (t : Str n)
    (w : K) : Keeps c (pair2N c T ps x a b v t w) := by
  unfold pair2N
  split
  · exact keeps_error c _
  · exact keeps_andThen (keeps_andThen (keeps_setTwo h _ _ _ _ _) fun q hq => keeps_setStr hq _ _ _ _)
      fun q hq => keeps_fixStr hq _ _ _ _

theorem keeps_pair2D {c : Ctx K} {ps : Point K n} (h : OnShell c ps) (T : Tol K Γ) (x : Bool) (a b : Fin n) (v : K)
    (L : Corners n) (w : K) : Keeps c (pair2D c T ps x a b v L w) := by
  unfold pair2D
  split
  · exact keeps_error c _
  · exact keeps_andThen (keeps_setTwo h _ _ _ _ _) fun q hq => keeps_setDelta hq _ _ _ _ _

theorem keeps_custom33 {c : Ctx K} {ps : Point K n} (h : OnShell c ps) (A B C : Fin n) (X Y : K) :
    Keeps c (custom33 c ps A B C X Y) := by
  unfold custom33
  dsimp only
  repeat' split
  all_goals first | exact keeps_error c _ | exact keeps_rd h _ _

theorem keeps_fixThree {c : Ctx K} {ps : Point K n} (h : OnShell c ps) (t u : T3 n) : Keeps c (fixThree c t u ps) := by
  unfold fixThree
  repeat' split
  all_goals first | exact keeps_error c _ | exact keeps_fix2 h _ _ | exact keeps_fix1 h _ _

theorem keeps_pair33 {c : Ctx K} {ps : Point K n} (h : OnShell c ps) (T : Tol K Γ) (longer : Bool) (t : T3 n) (v : K) (u : T3 n)
    (w : K) : KeepsText c (pair33 c T longer ps t v u w) := by
  unfold pair33
  split
  split
  · exact keepsText_some (keeps_andThen (keeps_custom33 h _ _ _ _ _) fun q hq => keeps_fixThree hq _ _)
  · apply keepsText_some
    split
    · exact keeps_andThen (keeps_andThen (keeps_setThree h _ _ _ _) fun q hq => keeps_setThree hq _ _ _ _)
        fun q hq => keeps_fixThree hq _ _
    · exact keeps_andThen (keeps_andThen (keeps_setThree h _ _ _ _) fun q hq => keeps_setThree hq _ _ _ _)
        fun q hq => keeps_fixThree hq _ _
  · exact keepsText_none c
  · exact keepsText_error c _

theorem keeps_fix3S {c : Ctx K} {ps : Point K n} (h : OnShell c ps) (T : Tol K Γ) (t : T3 n) (ls : List (Fin n)) :
    Keeps c (fix3S c T t ls ps) := by
  unfold fix3S
  split
  · exact keeps_fix1 h _ _
  · repeat' split
    all_goals first | exact keeps_ok h | exact keeps_fix2 h _ _ | exact keeps_fix1 h _ _
  · split
    · exact keeps_andThen (keeps_fix1 h _ _) fun qs hq => keeps_checked hq T
    · exact keeps_error c _

theorem keeps_direct3S {c : Ctx K} {ps : Point K n} (h : OnShell c ps) (T : Tol K Γ) (t : T3 n) (v : K) (ls : List (Fin n))
    (w : K) : Keeps c (direct3S c T ps t v ls w) := by
  unfold direct3S
  split
  · exact keeps_andThen (keeps_andThen (keeps_setMandel h _ _ _ _) fun q hq => keeps_setThree hq _ _ _ _)
      fun q hq => keeps_fix3S hq _ _ _
  · split
    · exact keeps_pair2S h _ _ _ _ _ _ _
    · exact keeps_error c _

theorem keeps_pair3S {c : Ctx K} {ps : Point K n} (h : OnShell c ps) (T : Tol K Γ) (t : T3 n) (v : K) (ls : List (Fin n))
    (w : K) : Keeps c (pair3S c T ps t v ls w) := by
  unfold pair3S
  repeat' split
  all_goals exact keeps_direct3S h _ _ _ _ _

theorem keeps_run3D {c : Ctx K} {ps : Point K n} (h : OnShell c ps) (T : Tol K Γ) (t : T3 n) (v : K) (A B C : List (Fin n))
    (w : K) : Keeps c (run3D c T ps t v A B C w) := by
  unfold run3D
  refine keeps_andThen (keeps_setThree h _ _ _ _) fun q hq => ?_
  split
  · exact keeps_error c _
  · refine keeps_andThen (keeps_setDelta hq _ _ _ _ _) fun q hq => ?_
    repeat' split
    all_goals first | exact keeps_error c _ | exact keeps_fix2 hq _ _ | exact keeps_fix1 hq _ _

theorem keeps_pair3D {c : Ctx K} {ps : Point K n} (h : OnShell c ps) (T : Tol K Γ) (t : T3 n) (v : K) (L : Corners n)
    (w : K) : KeepsText c (pair3D c T ps t v L w) := by
  unfold pair3D
  repeat' split
  all_goals first
    | exact keepsText_error c _ | exact keepsText_none c | exact keepsText_some (keeps_run3D h _ _ _ _ _ _ _)

theorem keeps_runSD {c : Ctx K} {ps : Point K n} (h : OnShell c ps) (root : K → Option K) (A B C D E F : Fin n) (v w : K) :
    Keeps c (runSD c root ps A B C D E F v w) := by
  unfold runSD
  split
  · split
    · exact keeps_error c _
    · exact keeps_andThen (keeps_rd h _ _) fun q hq => keeps_andThen (keeps_rd hq _ _) fun q hq => keeps_fix1 hq _ _
  all_goals exact keeps_error c _

theorem keeps_pairSD {c : Ctx K} {ps : Point K n} (h : OnShell c ps) (root : K → Option K) (S : List (Fin n)) (v : K)
    (L : Corners n) (w : K) : KeepsText c (pairSD c root ps S v L w) := by
  unfold pairSD
  split
  · exact keepsText_none c
  · apply keepsText_some
    split
    · exact keeps_runSD h _ _ _ _ _ _ _ _ _
    · exact keeps_error c _

theorem keeps_pairSS {c : Ctx K} {ps : Point K n} (h : OnShell c ps) (T : Tol K Γ) (A : List (Fin n)) (v : K) (B : List (Fin n))
    (w : K) : KeepsText c (pairSS c T ps A v B w) := by
  unfold pairSS
  split
  · exact keepsText_some (keeps_andThen (keeps_andThen (keeps_setMandel h _ _ _ _) fun q hq => keeps_setMandel hq _ _ _ _)
      fun q hq => keeps_fix1 hq _ _)
  · exact keepsText_none c

theorem keeps_fixLabels {c : Ctx K} {ps : Point K n} (h : OnShell c ps) (p q : ℕ) : Keeps c (fixLabels c ps p q) := by
  unfold fixLabels
  split
  · exact keeps_fix1 h _ _
  · exact keeps_error c _
  · exact keeps_error c _

theorem keeps_hardPair {c : Ctx K} {ps : Point K n} (h : OnShell c ps) (abs : K → Γ) (tol : Γ) (fuel : ℕ) (z : HardPair)
    (v w : K) : KeepsText c (z.run abs tol c fuel v w ps) := by
  unfold HardPair.run
  have k1 := keeps_setText h abs tol fuel z.one.text.toList (if z.one.second then w else v) false z.one.mode
  split
  · rename_i ps1 e1
    have h1 := k1 _ e1 _ rfl
    have k2 := keeps_setText h1 abs tol fuel z.two.text.toList (if z.two.second then w else v) false z.two.mode
    split
    · rename_i ps2 e2
      exact keepsText_some (keeps_fixLabels (k2 _ e2 _ rfl) _ _)
    · exact k2
  · exact k1

end Lips

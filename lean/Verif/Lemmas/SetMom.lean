import Verif.Lemmas.SetLeft
import Verif.Props.SetTr5

/-! Helper lemmas: a setter that fixes momentum and returns leaves momentum conserved, if it was. -/

namespace Lips

open Matrix

set_option linter.unusedSectionVars false
set_option linter.unusedVariables false

variable {K Γ : Type*} [Field K] [NeZero (2 : K)] [LinearOrder Γ] {n : ℕ}

/-- What is returned, if anything, conserves momentum if `ps` does. -/
def Fixes (ps : Point K n) (r : Except Err (Point K n)) : Prop := ∀ qs, r = .ok qs → Conserves ps → Conserves qs

theorem fixes_error (ps : Point K n) (e : Err) : Fixes ps (.error e) := fun _ h => nomatch h

theorem fixes_ok (ps : Point K n) : Fixes ps (.ok ps) := fun _ h => by injection h with h; exact h ▸ id

theorem fixes_firstTwo {c : Ctx K} {ps ps' : Point K n} (h : OnShell c ps') (pl : List (Fin n)) (ax : Bool) :
    Fixes ps (fixFirstTwo c ps' pl ax) := by
  intro qs e _
  unfold fixFirstTwo at e
  split at e
  · split at e
    · exact (fix2_good h e).2
    · exact (fix1_good h e).2
  · cases e

theorem fixes_fixIf {c : Ctx K} {ps : Point K n} {r : Except Err (Point K n)} (h : Keeps c r) (ax : Bool) (pl : List (Fin n)) :
    Fixes ps (fixIf c true ax pl r) := by
  rcases r with e | ps'
  · exact fixes_error _ _
  · exact fixes_firstTwo (h _ rfl) pl ax

theorem fixes_A2 {c : Ctx K} {ps : Point K n} (h : OnShell c ps) (A B : Fin n) (X : K) : Fixes ps (setA2 c ps A B X true) := by
  unfold setA2
  repeat' split
  all_goals first | exact fixes_error _ _ | exact fixes_fixIf (keeps_rd h _ _) _ _

theorem fixes_S2 {c : Ctx K} {ps : Point K n} (h : OnShell c ps) (A B : Fin n) (X : K) : Fixes ps (setS2 c ps A B X true) := by
  unfold setS2
  repeat' split
  all_goals first | exact fixes_error _ _ | exact fixes_fixIf (keeps_lu h _ _) _ _

theorem fixes_fixNB {c : Ctx K} {ps ps' : Point K n} (h : OnShell c ps') (t : Str n) (a : Fin n) (first : Char) :
    Fixes ps (fixNB c ps' t a first) := by
  unfold fixNB
  dsimp only
  split
  · exact fixes_firstTwo h _ _
  · exact fixes_firstTwo h _ _

theorem fixes_NB {c : Ctx K} (fuel : ℕ) {ps : Point K n} (h : OnShell c ps) (t : Str n) (X : K) (mode : ℕ) :
    Fixes ps (setNB c fuel ps t X true mode) := by
  induction fuel generalizing t X with
  | zero => exact fixes_error _ _
  | succ k ih =>
    rw [setNB]
    generalize (if (freeLabels t.labels).length < 2 ∧ true = true then t.findFlip else none) = flipped
    generalize flipped.getD t = u
    generalize (if flipped.isSome = true then -X else X) = Y
    split
    · split
      · exact ih _ _
      · split
        · exact fixes_error _ _
        · rename_i ps' e
          rw [if_pos rfl]
          exact fixes_fixNB (keeps_of (keeps_setHead h u Y) e) _ _ _
    · split
      · exact fixes_error _ _
      · split
        · exact fixes_error _ _
        · rename_i ps' e
          rw [if_pos rfl]
          exact fixes_fixNB (keeps_of (keeps_setMiddle h _ _ _ _) e) _ _ _

theorem fixes_S {c : Ctx K} {ps : Point K n} (h : OnShell c ps) (ls : List (Fin n)) (X : K) (mode : ℕ) :
    Fixes ps (setS c ps ls X true mode) := by
  unfold setS
  dsimp only
  repeat' split
  all_goals first | exact fixes_error _ _ | exact fixes_ok _ | exact fixes_NB _ h _ _ _

theorem fixes_D {c : Ctx K} {ps : Point K n} (h : OnShell c ps) (A B C : List (Fin n)) (X : K) (mode : ℕ) :
    Fixes ps (setD c ps A B C X true mode) := by
  unfold setD
  dsimp only
  split
  · exact fixes_error _ _
  · split
    · split
      · split
        · exact fixes_error _ _
        · split
          · exact fixes_error _ _
          · split
            · exact fixes_error _ _
            · rename_i ps' e
              have hp : OnShell c ps' := by
                by_cases hm : mode % 2 = 1
                · rw [if_pos hm] at e; exact keeps_of (keeps_ru h _ _) e
                · rw [if_neg hm] at e; exact keeps_of (keeps_lu h _ _) e
              rw [if_pos rfl]
              exact fixes_firstTwo hp _ _
      · exact fixes_error _ _
      · exact fixes_error _ _
    · exact fixes_error _ _

theorem fixes_fix1 {c : Ctx K} {ps ps' : Point K n} (h : OnShell c ps') (a b : Fin n) : Fixes ps (fixAxis1 c ps' a b) :=
  fun _ e _ => (fix1_good h e).2

theorem fixes_O {c : Ctx K} {ps : Point K n} (h : OnShell c ps) (A B C : List (Fin n)) (X : K) :
    Fixes ps (setO c ps A B C X) := by
  unfold setO
  dsimp only
  split
  · split
    · split
      · exact fixes_error _ _
      · split
        · exact fixes_error _ _
        · split
          · exact fixes_error _ _
          · rename_i e
            exact fixes_fix1 (keeps_of (keeps_rd h _ _) e) _ _
    all_goals exact fixes_error _ _
  · exact fixes_error _ _

theorem fixes_P {c : Ctx K} {ps : Point K n} (h : OnShell c ps) (A B C : List (Fin n)) (X : K) :
    Fixes ps (setP c ps A B C X) := by
  unfold setP
  split
  · split
    · split
      · exact fixes_error _ _
      · split
        · exact fixes_error _ _
        · rename_i e
          exact fixes_fix1 (keeps_of (keeps_rd h _ _) e) _ _
    all_goals exact fixes_error _ _
  · exact fixes_error _ _

theorem fixes_tr5 {c : Ctx K} {ps : Point K n} (h : OnShell c ps) (w x y z : Slot n) (X : K) :
    Fixes ps (setTr5 c ps w x y z X true) := by
  unfold setTr5
  repeat' split
  all_goals first | exact fixes_error _ _ | exact fixes_fixIf (keeps_rd h _ _) _ _

theorem fixes_tr5Five {c : Ctx K} {ps : Point K 5} (h : OnShell c ps) (X : K) : Fixes ps (setTr5Five c ps X) := by
  intro qs e _
  obtain ⟨r, l, hs⟩ := h
  rcases hv : tr5Solve r l X with er | ⟨r1, r5, l5⟩
  · rw [setTr5Five, fiveSpinors_eq hs] at e
    simp only [hv] at e
    cases e
  · obtain ⟨ps2, e2, h2⟩ := setTr5Five_spec hs hv
    rw [e2] at e
    injection e with e
    subst e
    exact (tr5Five_value hv h2).1.1

theorem fixes_tr5All {c : Ctx K} {ps : Point K n} (h : OnShell c ps) (w x y z : Slot n) (X : K) :
    Fixes ps (setTr5All c ps w x y z X true) := by
  generalize hf : true = fix
  unfold setTr5All
  split
  · split
    · exact fixes_tr5Five h _
    · exact fixes_error _ _
  · subst hf; exact fixes_tr5 h _ _ _ _ _
  · split
    · exact fixes_error _ _
    · exact fixes_error _ _

theorem fixes_5B {c : Ctx K} {ps : Point K n} (h : OnShell c ps) (a b x y e f : Fin n) (X : K) :
    Fixes ps (set5B c ps a b x y e f X true) := by
  unfold set5B
  repeat' split
  all_goals first | exact fixes_error _ _ | exact fixes_fixIf (keeps_lu h _ _) _ _

theorem fixes_inner {c : Ctx K} {ps qs : Point K n} (h : OnShell c ps) (fuel : ℕ) (t : List Char) (X : K) (mode : ℕ)
    (e : setInner c ps fuel t X true mode = some (.ok qs)) (hc : Conserves ps) : Conserves qs := by
  unfold setInner at e
  split at e
  · split at e
    · cases e
    · revert e
      generalize setClassify t = f
      intro e
      rcases f with ⟨a, b⟩ | ⟨a, b⟩ | ⟨o, a, m, d, z⟩ | ds | cs | ds | ds | m | ⟨a, b, cd, e', f⟩ | _
      · simp only [setForm, Option.some.injEq] at e
        split at e
        · exact fixes_A2 h _ _ _ _ e hc
        · cases e
        · cases e
      · simp only [setForm, Option.some.injEq] at e
        split at e
        · exact fixes_S2 h _ _ _ _ e hc
        · cases e
        · cases e
      · simp only [setForm, setNBText] at e
        split at e
        · cases e
        · split at e
          · cases e
          · split at e
            · split at e
              · injection e with e; exact fixes_NB _ h _ _ _ _ e hc
              · cases e
            · cases e
      · simp only [setForm, setSText] at e
        split at e
        · injection e with e; exact fixes_ok _ _ e hc
        · split at e
          · cases e
          · split at e
            · cases e
            · injection e with e; exact fixes_S h _ _ _ _ e hc
      · simp only [setForm, setDText] at e
        split at e
        · cases e
        · split at e
          · split at e
            · cases e
            · cases e
            · injection e with e; exact fixes_D h _ _ _ _ _ _ e hc
          · split at e
            · injection e with e; exact fixes_D h _ _ _ _ _ _ e hc
            · cases e
          · cases e
      · simp only [setForm] at e
        rcases hq : shortCorners n fuel ds with _ | (er | ⟨A, B, C⟩) <;> rw [hq] at e
        · cases e
        · cases e
        · simp only [Option.map_some, Option.some.injEq] at e; exact fixes_O h _ _ _ _ _ e hc
      · simp only [setForm] at e
        rcases hq : shortCorners n fuel ds with _ | (er | ⟨A, B, C⟩) <;> rw [hq] at e
        · cases e
        · cases e
        · simp only [Option.map_some, Option.some.injEq] at e; exact fixes_P h _ _ _ _ _ e hc
      · simp only [setForm, setTr5Text] at e
        split at e
        · cases e
        · split at e
          · injection e with e; exact fixes_tr5All h _ _ _ _ _ _ e hc
          · cases e
      · simp only [setForm, set5BText] at e
        split at e
        · split at e
          · injection e with e; exact fixes_5B h _ _ _ _ _ _ _ _ e hc
          · cases e
        · cases e
        · cases e
      · simp only [setForm, Option.some.injEq] at e
        exact fixes_ok _ _ e hc
  · cases e

end Lips

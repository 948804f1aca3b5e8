import Verif.Lemmas.PairSet
import Verif.Props.SetMiddle
import Verif.Props.SetPairThree

/-! Outcomes of the steps that set a three-bracket without restoring momentum conservation. -/

namespace Lips

open Matrix

set_option linter.unusedSectionVars false

variable {K Γ : Type*} [Field K] [LinearOrder Γ] {n : ℕ}

/-- The component by which the step through the head divides is not zero. -/
def HeadGuard (ps : Point K n) (t : T3 n) : Prop :=
  ∃ v, computeOpenBegin ps [plusOf t.m] t.e (closeOf !t.ang) = .ok v ∧ v 0 ≠ 0

theorem openOf_ang {t : T3 n} : t.str.first = '⟨' ↔ t.ang = true := by
  unfold T3.str openOf; cases t.ang <;> simp

theorem openOf_sq {t : T3 n} : t.str.first = '[' ↔ t.ang = false := by
  unfold T3.str openOf; cases t.ang <;> simp

/-- Through the head. -/
theorem setThree_head [NeZero (2 : K)] {c : Ctx K} {T : Tol K Γ} (hT : T.abs 0 ≤ T.tol) {ps : Point K n}
    {r l : Fin n → V2 K} (h : Spin c ps r l) {t : T3 n} (hs : t.s ∉ t.m) (X : K) (hg : HeadGuard ps t) :
    ∃ ps' r' l', setThree c T t 1 X ps = .ok ps' ∧ Spin c ps' r' l' ∧ t.str.value ps' = .ok X ∧
      (∀ k, k ≠ t.s → ps' k = ps k ∧ r' k = r k ∧ l' k = l k) ∧ (if t.ang then l' = l else r' = r) ∧
      (if t.ang then r' t.s 0 = r t.s 0 else l' t.s 1 = l t.s 1) := by
  obtain ⟨v, hv, hv0⟩ := hg
  have w := t.wf
  have hs' : t.str.s ∉ t.str.ms.flatten := by simpa [T3.str] using hs
  have hne : t.str.ms.length % 2 = 1 ∨ t.str.s ≠ t.str.e := Or.inl rfl
  have hv' := openBegin_eq h w
  have e1 : t.str.ms.map plusOf = [plusOf t.m] := rfl
  have e2 : t.str.e = t.e := rfl
  have e3 : t.str.last = closeOf !t.ang := rfl
  rw [e1, e2, e3, hv] at hv'
  injection hv' with hv'
  obtain ⟨ps1, r1, l1, e1, h1, v1, o1, m1, m2, o2, g1, g2⟩ := setHead_linear_comp h w hs' hne X (by
    rw [e1, ← hv']; exact hv0)
  refine ⟨ps1, r1, l1, ?_, h1, v1, fun k hk => ⟨o1 k hk, o2 k hk⟩, ?_, ?_⟩
  · have run : setNB c 3 ps t.str X false 1 = .ok ps1 := by
      have hu := uniqueEnd_head hs' hne
      simp only [setNB, Bool.false_eq_true, and_false, if_false, Option.getD_none, Option.isSome_none]
      rw [if_pos (Or.inl ⟨Or.inl (by rw [hu]; rfl), trivial⟩), hu, if_neg (by simp)]
      simp only [e1]
    unfold setThree
    rw [run]
    exact setThen_ok hT v1
  · split
    · exact m1 (openOf_ang.mpr (by assumption))
    · exact m2 (openOf_sq.mpr (Bool.eq_false_iff.mpr (by assumption)))
  · split
    · exact g1 (openOf_ang.mpr (by assumption))
    · exact g2 (openOf_sq.mpr (Bool.eq_false_iff.mpr (by assumption)))

/-- `b` is the first label in the middle that is not an end, and occurs there once. -/
structure FirstMiddle (t : T3 n) (b : Fin n) : Prop where
  split : ∃ xs ys, t.m = xs ++ b :: ys ∧ b ∉ xs ∧ b ∉ ys ∧ ∀ x ∈ xs, x = t.s ∨ x = t.e
  start : b ≠ t.s
  tail : b ≠ t.e

/-- Through a label in the middle. -/
theorem setThree_middle [NeZero (2 : K)] {c : Ctx K} {T : Tol K Γ} (hT : T.abs 0 ≤ T.tol) {ps : Point K n}
    {r l : Fin n → V2 K} (h : Spin c ps r l) {t : T3 n} {b : Fin n} (hb : FirstMiddle t b) (X : K)
    (h1 : HeadOk t.ang (r t.s) (l t.s)) (h2 : if t.ang then SpecSquare (l b) (l t.e) ≠ 0 else SpecAngle (r b) (r t.e) ≠ 0) :
    ∃ ps' r' l', setThree c T t 2 X ps = .ok ps' ∧ Spin c ps' r' l' ∧ t.str.value ps' = .ok X ∧
      (∀ k, k ≠ b → ps' k = ps k ∧ r' k = r k ∧ l' k = l k) ∧ (if t.ang then l' = l else r' = r) := by
  obtain ⟨⟨xs, ys, hm, hx, hys, hxs⟩, bs, be⟩ := hb
  have w := t.wf
  have hb : FirstUnique t.str 0 xs b ys := by
    refine ⟨by simp [T3.str, hm], ⟨bs, be, by simp [T3.str]⟩, fun x hx => ?_⟩
    rcases hxs x hx with e | e
    · exact Or.inl e
    · exact Or.inr (Or.inl e)
  have hum : t.str.uniqueMiddle = some (0, xs.length) := by unfold Str.uniqueMiddle; rw [hb.uniqueIn]
  obtain ⟨zs, hz, hzp⟩ := toFront_perm xs ys b
  have hu : t.str.toFirst 0 xs.length = ⟨t.str.first, t.s, [b :: zs], t.e, t.str.last⟩ := by
    simp only [Str.toFirst, T3.str, List.getD_cons_zero, List.set_cons_zero, hm, hz, if_true]
  have same : SameSlots t.str.ms [b :: zs] := by
    have : t.str.ms = [xs ++ b :: ys] := by simp [T3.str, hm]
    rw [this]
    exact .cons (List.perm_middle.trans (hzp.symm.cons b)) (SameSlots.refl _)
  have w' : (⟨t.str.first, t.s, [b :: zs], t.e, t.str.last⟩ : Str n).Wf := w
  have hend := endOfPart_eq h w' rfl b
  simp only at hend
  set y : K := if t.str.first = '⟨' then bil (l b) (chain ps false (([] : List (List (Fin n))).map plusOf)) (tailSp r l ⟨t.str.first, t.s, [b :: zs], t.e, t.str.last⟩)
      else bil ![r b 1, -r b 0] (chain ps true (([] : List (List (Fin n))).map plusOf)) (tailSp r l ⟨t.str.first, t.s, [b :: zs], t.e, t.str.last⟩) with hy
  have hy0 : y ≠ 0 := by
    rw [hy]
    by_cases ha : t.ang
    · rw [if_pos (openOf_ang.mpr ha)]
      rw [if_pos ha] at h2
      have : t.str.last ≠ '⟩' := by simp [T3.str, closeOf, ha]
      simp only [tailSp, this, if_false]
      simpa [chain, bil_eq, SpecSquare, sub_eq_add_neg] using h2
    · rw [if_neg (fun hc => ha (openOf_ang.mp hc))]
      rw [if_neg ha] at h2
      have : t.str.last = '⟩' := by simp [T3.str, closeOf, ha]
      simp only [tailSp, this, if_true]
      simpa [chain, bil_eq, SpecAngle, sub_eq_add_neg] using h2
  obtain ⟨ps1, r1, l1, e1, s1, v1, o1, m1, m2⟩ := setMiddle_kept h hu w' rfl (b := b) rfl
    (fun hh => (List.mem_append.mp (hzp.mem_iff.mp hh)).elim hx hys) (by simp) bs be X hend hy0
    (fun hc => by simpa [HeadOk, openOf_ang.mp hc] using h1) (fun hc => by simpa [HeadOk, openOf_sq.mp hc] using h1)
  have v1' : t.str.value ps1 = .ok X := by rw [← v1]; exact same.value _ _ _ _ _
  refine ⟨ps1, r1, l1, ?_, s1, v1', o1, ?_⟩
  · have run : setNB c 3 ps t.str X false 2 = .ok ps1 := by
      have hmode : NotAtEnds t.str 2 := Or.inl (by decide)
      simp only [setNB, Bool.false_eq_true, and_false, if_false, Option.getD_none, Option.isSome_none]
      have hc := hmode.cond (by rw [hum]; simp)
      rw [if_neg hc, hum]
      simp only [e1]
    unfold setThree
    rw [run]
    exact setThen_ok hT v1'
  · split
    · exact m1 (openOf_ang.mpr (by assumption))
    · exact m2 (openOf_sq.mpr (Bool.eq_false_iff.mpr (by assumption)))

/-- The formula for two three-brackets. -/
theorem custom33_spec [NeZero (2 : K)] {c : Ctx K} {ps : Point K n} {r l : Fin n → V2 K} (h : Spin c ps r l) {A B C : Fin n}
    (X Y : K) (h1 : SpecAngle (r B) (r C) ≠ 0) (h2 : SpecSquare (l C) (l A) ≠ 0)
    (h3 : SpecSquare (l B) (l A) ≠ 0) :
    ∃ ps' r', custom33 c ps A B C X Y = .ok ps' ∧ Spin c ps' r' l ∧ (∀ k, k ≠ A → ps' k = ps k ∧ r' k = r k) ∧
      SpecAngle (r' A) (r B) * SpecSquare (l B) (l A) + SpecAngle (r' A) (r C) * SpecSquare (l C) (l A) = X ∧
      SpecAngle (r B) (r' A) * SpecSquare (l A) (l B) + SpecAngle (r B) (r C) * SpecSquare (l C) (l B) = Y := by
  have d2 : (-(r B 0 * r C 1) + r C 0 * r B 1) * (l C 0 * l A 1 - l A 0 * l C 1) * (l B 0 * l A 1 - l A 0 * l B 1) ≠ 0 := by
    refine mul_ne_zero (mul_ne_zero ?_ ?_) ?_
    · intro e; exact h1 (by unfold SpecAngle; linear_combination e)
    · intro e; exact h2 (by unfold SpecSquare; linear_combination e)
    · intro e; exact h3 (by unfold SpecSquare; linear_combination e)
  have ed : -((r C 0 * l C 0 * l A 1 + r B 0 * l B 0 * l A 1 - r C 0 * l A 0 * l C 1 - r B 0 * l A 0 * l B 1) *
        (-(r B 1 * l B 0 * l A 1) + r B 1 * l A 0 * l B 1)) +
      (r B 0 * l B 0 * l A 1 - r B 0 * l A 0 * l B 1) *
        (-(r C 1 * l C 0 * l A 1) - r B 1 * l B 0 * l A 1 + r C 1 * l A 0 * l C 1 + r B 1 * l A 0 * l B 1) =
      (-(r B 0 * r C 1) + r C 0 * r B 1) * (l C 0 * l A 1 - l A 0 * l C 1) * (l B 0 * l A 1 - l A 0 * l B 1) := by ring
  have d1 := d2
  rw [← ed] at d1
  obtain ⟨q, e1, hq⟩ := setRd_massless (h A) ![-((-((r B 0 * l B 0 * l A 1 - r B 0 * l A 0 * l B 1) * X) -
        (r C 0 * l C 0 * l A 1 + r B 0 * l B 0 * l A 1 - r C 0 * l A 0 * l C 1 - r B 0 * l A 0 * l B 1) *
          (r B 0 * r C 1 * l B 0 * l C 1 - r C 0 * r B 1 * l B 0 * l C 1 - r B 0 * r C 1 * l C 0 * l B 1 + r C 0 * r B 1 * l C 0 * l B 1 - Y)) /
      (-((r C 0 * l C 0 * l A 1 + r B 0 * l B 0 * l A 1 - r C 0 * l A 0 * l C 1 - r B 0 * l A 0 * l B 1) *
        (-(r B 1 * l B 0 * l A 1) + r B 1 * l A 0 * l B 1)) +
      (r B 0 * l B 0 * l A 1 - r B 0 * l A 0 * l B 1) *
        (-(r C 1 * l C 0 * l A 1) - r B 1 * l B 0 * l A 1 + r C 1 * l A 0 * l C 1 + r B 1 * l A 0 * l B 1))),
    (r B 0 * r C 1 ^ 2 * l C 0 * l B 0 * l A 1 * l C 1 - r C 0 * r C 1 * r B 1 * l C 0 * l B 0 * l A 1 * l C 1 +
      r B 0 * r C 1 * r B 1 * l B 0 ^ 2 * l A 1 * l C 1 -
          r C 0 * r B 1 ^ 2 * l B 0 ^ 2 * l A 1 * l C 1 - r B 0 * r C 1 ^ 2 * l A 0 * l B 0 * l C 1 ^ 2 + r C 0 * r C 1 * r B 1 * l A 0 * l B 0 * l C 1 ^ 2 -
          r B 0 * r C 1 ^ 2 * l C 0 ^ 2 * l A 1 * l B 1 + r C 0 * r C 1 * r B 1 * l C 0 ^ 2 * l A 1 * l B 1 - r B 0 * r C 1 * r B 1 * l C 0 * l B 0 * l A 1 * l B 1 +
          r C 0 * r B 1 ^ 2 * l C 0 * l B 0 * l A 1 * l B 1 + r B 0 * r C 1 ^ 2 * l A 0 * l C 0 * l C 1 * l B 1 - r C 0 * r C 1 * r B 1 * l A 0 * l C 0 * l C 1 * l B 1 -
          r B 0 * r C 1 * r B 1 * l A 0 * l B 0 * l C 1 * l B 1 + r C 0 * r B 1 ^ 2 * l A 0 * l B 0 * l C 1 * l B 1 + r B 0 * r C 1 * r B 1 * l A 0 * l C 0 * l B 1 ^ 2 -
          r C 0 * r B 1 ^ 2 * l A 0 * l C 0 * l B 1 ^ 2 + r B 1 * l B 0 * l A 1 * X - r B 1 * l A 0 * l B 1 * X - r C 1 * l C 0 * l A 1 * Y - r B 1 * l B 0 * l A 1 * Y +
          r C 1 * l A 0 * l C 1 * Y + r B 1 * l A 0 * l B 1 * Y) /
        ((-(r B 0 * r C 1) + r C 0 * r B 1) * (l C 0 * l A 1 - l A 0 * l C 1) * (l B 0 * l A 1 - l A 0 * l B 1))]
  obtain ⟨ps1, e2, s1, o1⟩ := store_r h A e1 hq
  refine ⟨ps1, _, ?_, s1, fun k hk => ⟨o1 k hk, Function.update_of_ne hk _ _⟩, ?_, ?_⟩
  · simp only [custom33, (h A).l_d, (h B).r_d, (h B).l_d, (h C).r_d, (h C).l_d, need_some, pyDiv_ok d1, pyDiv_ok d2]
    exact e2
  all_goals
    rw [Function.update_self, ed]
    simp only [SpecAngle, SpecSquare, Matrix.cons_val_zero, Matrix.cons_val_one]
    refine mul_right_cancel₀ d2 ?_
    have x0 := div_mul_cancel₀ (-((r B 0 * l B 0 * l A 1 - r B 0 * l A 0 * l B 1) * X) -
        (r C 0 * l C 0 * l A 1 + r B 0 * l B 0 * l A 1 - r C 0 * l A 0 * l C 1 - r B 0 * l A 0 * l B 1) *
          (r B 0 * r C 1 * l B 0 * l C 1 - r C 0 * r B 1 * l B 0 * l C 1 - r B 0 * r C 1 * l C 0 * l B 1 + r C 0 * r B 1 * l C 0 * l B 1 - Y)) d2
    have x1 := div_mul_cancel₀ (r B 0 * r C 1 ^ 2 * l C 0 * l B 0 * l A 1 * l C 1 - r C 0 * r C 1 * r B 1 * l C 0 * l B 0 * l A 1 * l C 1 +
      r B 0 * r C 1 * r B 1 * l B 0 ^ 2 * l A 1 * l C 1 -
          r C 0 * r B 1 ^ 2 * l B 0 ^ 2 * l A 1 * l C 1 - r B 0 * r C 1 ^ 2 * l A 0 * l B 0 * l C 1 ^ 2 + r C 0 * r C 1 * r B 1 * l A 0 * l B 0 * l C 1 ^ 2 -
          r B 0 * r C 1 ^ 2 * l C 0 ^ 2 * l A 1 * l B 1 + r C 0 * r C 1 * r B 1 * l C 0 ^ 2 * l A 1 * l B 1 - r B 0 * r C 1 * r B 1 * l C 0 * l B 0 * l A 1 * l B 1 +
          r C 0 * r B 1 ^ 2 * l C 0 * l B 0 * l A 1 * l B 1 + r B 0 * r C 1 ^ 2 * l A 0 * l C 0 * l C 1 * l B 1 - r C 0 * r C 1 * r B 1 * l A 0 * l C 0 * l C 1 * l B 1 -
          r B 0 * r C 1 * r B 1 * l A 0 * l B 0 * l C 1 * l B 1 + r C 0 * r B 1 ^ 2 * l A 0 * l B 0 * l C 1 * l B 1 + r B 0 * r C 1 * r B 1 * l A 0 * l C 0 * l B 1 ^ 2 -
          r C 0 * r B 1 ^ 2 * l A 0 * l C 0 * l B 1 ^ 2 + r B 1 * l B 0 * l A 1 * X - r B 1 * l A 0 * l B 1 * X - r C 1 * l C 0 * l A 1 * Y - r B 1 * l B 0 * l A 1 * Y +
          r C 1 * l A 0 * l C 1 * Y + r B 1 * l A 0 * l B 1 * Y) d2
  · linear_combination (r B 0 * (l B 0 * l A 1 - l B 1 * l A 0) + r C 0 * (l C 0 * l A 1 - l C 1 * l A 0)) * x1 +
      (r B 1 * (l B 0 * l A 1 - l B 1 * l A 0) + r C 1 * (l C 0 * l A 1 - l C 1 * l A 0)) * x0
  · linear_combination (-(r B 0) * (l A 0 * l B 1 - l A 1 * l B 0)) * x1 - (r B 1 * (l A 0 * l B 1 - l A 1 * l B 0)) * x0

/-- The coefficient of the component of the head that is computed, in a three-bracket. -/
def T3.slope (r l : Fin n → V2 K) (t : T3 n) : K :=
  (t.m.map fun k => if t.ang then r k 0 * SpecSquare (l k) (l t.e) else l k 1 * SpecAngle (r k) (r t.e)).sum

/-- The coefficient of the component of the head that is kept, with opposite sign. -/
def T3.rest (r l : Fin n → V2 K) (t : T3 n) : K :=
  (t.m.map fun k => if t.ang then r k 1 * SpecSquare (l k) (l t.e) else l k 0 * SpecAngle (r k) (r t.e)).sum

/-- The component of the head that is computed. -/
def T3.moved (r l : Fin n → V2 K) (t : T3 n) : K := if t.ang then r t.s 1 else l t.s 0

/-- The component of the head that is kept. -/
def T3.kept (r l : Fin n → V2 K) (t : T3 n) : K := if t.ang then r t.s 0 else l t.s 1

theorem T3.value_slope {c : Ctx K} {ps : Point K n} {r l : Fin n → V2 K} (h : Spin c ps r l) (t : T3 n) :
    t.str.value ps = .ok (t.moved r l * t.slope r l - t.kept r l * t.rest r l) := by
  rw [T3.value_eq h]
  unfold T3.moved T3.kept T3.slope T3.rest T3.term
  congr 1
  rw [← List.sum_map_mul_left, ← List.sum_map_mul_left]
  induction t.m with
  | nil => simp
  | cons k ks ih =>
    simp only [List.map_cons, List.sum_cons, ih]
    unfold SpecAngle SpecSquare
    split <;> ring

theorem headGuard_of_slope {c : Ctx K} {ps : Point K n} {r l : Fin n → V2 K} (h : Spin c ps r l) {t : T3 n}
    (hs : t.slope r l ≠ 0) : HeadGuard ps t := by
  have e := openBegin_eq h t.wf
  refine ⟨_, e, ?_⟩
  suffices hh : ((chain ps (decide (t.str.first = '⟨')) (t.str.ms.map plusOf)).mulVec (tailSp r l t.str)) 0 = t.slope r l by
    rw [hh]; exact hs
  clear e hs
  rcases t with ⟨_ | _, s, m, e⟩
  · simp only [T3.str, openOf, Bool.false_eq_true, if_false, List.map_cons, List.map_nil, tailSp, closeOf,
      Bool.not_false, if_true, T3.slope]
    rw [show decide ('[' = '⟨') = false by decide, chain, chain, mul_one, slotMat]
    induction m with
    | nil => simp [plusOf]
    | cons k ks ih =>
      simp only [plusOf, List.map_cons, List.sum_cons, if_true] at ih ⊢
      rw [Matrix.add_mulVec, Pi.add_apply, ih, (h k).r2]
      congr 1
      simp [Matrix.mulVec, dotProduct, outer_apply, SpecAngle]
      ring
  · simp only [T3.str, openOf, if_true, List.map_cons, List.map_nil, tailSp, closeOf,
      Bool.not_true, Bool.false_eq_true, if_false, T3.slope]
    rw [decide_true, chain, chain, mul_one, slotMat]
    rw [if_neg (by decide)]
    induction m with
    | nil => simp [plusOf]
    | cons k ks ih =>
      simp only [plusOf, List.map_cons, List.sum_cons, if_true] at ih ⊢
      rw [Matrix.add_mulVec, Pi.add_apply, ih, (h k).r2b]
      congr 1
      simp [Matrix.mulVec, dotProduct, outer_apply, SpecSquare]
      ring

/-- A three-bracket depends on the spinors of its middle, on one spinor of the start and on the other of the end. -/
theorem T3.value_congr {c : Ctx K} {ps ps' : Point K n} {r l r' l' : Fin n → V2 K} (h : Spin c ps r l) (h' : Spin c ps' r' l')
    {t : T3 n} (hm : ∀ k ∈ t.m, r' k = r k ∧ l' k = l k) (hs : if t.ang then r' t.s = r t.s else l' t.s = l t.s)
    (he : if t.ang then l' t.e = l t.e else r' t.e = r t.e) : t.str.value ps' = t.str.value ps := by
  rw [T3.value_eq h, T3.value_eq h']
  congr 2
  refine List.map_congr_left fun k hk => ?_
  unfold T3.term
  rw [(hm k hk).1, (hm k hk).2]
  split <;> rename_i ha <;> simp only [ha, if_true, Bool.false_eq_true, if_false] at hs he <;> rw [hs, he]

theorem T3.slope_congr {r l r' l' : Fin n → V2 K} {t : T3 n} (hm : ∀ k ∈ t.m, r' k = r k ∧ l' k = l k)
    (he : if t.ang then l' t.e = l t.e else r' t.e = r t.e) : t.slope r' l' = t.slope r l := by
  unfold T3.slope
  congr 1
  refine List.map_congr_left fun k hk => ?_
  rw [(hm k hk).1, (hm k hk).2]
  split <;> rename_i ha <;> simp only [ha, if_true, Bool.false_eq_true, if_false] at he <;> rw [he]

/-- Read backwards, a three-bracket has the same value. -/
theorem T3.value_rev {c : Ctx K} {ps : Point K n} {r l : Fin n → V2 K} (h : Spin c ps r l) (t : T3 n) :
    t.rev.str.value ps = t.str.value ps := by
  rw [T3.value_eq h, T3.value_eq h]
  congr 2
  refine List.map_congr_left fun k _ => ?_
  unfold T3.term T3.rev SpecAngle SpecSquare
  rcases t.ang <;> simp <;> ring

theorem T3.value_orient {c : Ctx K} {ps : Point K n} {r l : Fin n → V2 K} (h : Spin c ps r l) (t : T3 n) (b : Bool) :
    (t.orient b).str.value ps = t.str.value ps := by
  unfold T3.orient; split
  · rfl
  · exact t.value_rev h

theorem T3.value_perm {c : Ctx K} {ps : Point K n} {r l : Fin n → V2 K} (h : Spin c ps r l) {t u : T3 n} (ha : t.ang = u.ang)
    (hs : t.s = u.s) (he : t.e = u.e) (hm : t.m.Perm u.m) : t.str.value ps = u.str.value ps := by
  rw [T3.value_eq h, T3.value_eq h]
  congr 1
  have : t.term r l = u.term r l := by funext k; unfold T3.term; rw [ha, hs, he]
  rw [this]
  exact (hm.map _).sum_eq

theorem T3.orient_ang (t : T3 n) (b : Bool) : (t.orient b).ang = b := by
  unfold T3.orient T3.rev; split
  · assumption
  · rename_i h; cases b <;> simp_all

theorem T3.orient_m (t : T3 n) (b : Bool) : (t.orient b).m = t.m := by
  unfold T3.orient T3.rev; split <;> rfl

theorem T3.orient_ends (t : T3 n) (b : Bool) : ((t.orient b).s = t.s ∧ (t.orient b).e = t.e) ∨ ((t.orient b).s = t.e ∧ (t.orient b).e = t.s) := by
  unfold T3.orient T3.rev; split <;> simp

theorem T3.mem_rev {t : T3 n} {k : Fin n} : k ∈ t.rev.labels ↔ k ∈ t.labels := by
  simp only [mem_t3, T3.rev]; tauto

theorem T3.mem_orient {t : T3 n} {b : Bool} {k : Fin n} : k ∈ (t.orient b).labels ↔ k ∈ t.labels := by
  unfold T3.orient; split
  · rfl
  · exact T3.mem_rev

/-- Two three-brackets of the same kind: the first through its head, the second through a label in its middle. -/
theorem steps_middle [NeZero (2 : K)] {c : Ctx K} {T : Tol K Γ} (hT : T.abs 0 ≤ T.tol) {ps : Point K n}
    {r l : Fin n → V2 K} (h : Spin c ps r l) {t u : T3 n} (ha : u.ang = t.ang) (hs : t.s ∉ t.m) (v w : K)
    (h1 : t.slope r l ≠ 0) {x : Fin n} (hx : FirstMiddle u x)
    (h2 : if u.s = t.s then v + t.kept r l * t.rest r l ≠ 0 else u.moved r l ≠ 0)
    (h3 : if u.ang then SpecSquare (l x) (l u.e) ≠ 0 else SpecAngle (r x) (r u.e) ≠ 0) :
    ∃ ps1 r1 l1 ps' r' l', setThree c T t 1 v ps = .ok ps1 ∧ Spin c ps1 r1 l1 ∧ t.str.value ps1 = .ok v ∧
      setThree c T u 2 w ps1 = .ok ps' ∧ Spin c ps' r' l' ∧ u.str.value ps' = .ok w ∧
      (∀ k, k ≠ t.s → ps1 k = ps k ∧ r1 k = r k ∧ l1 k = l k) ∧ (if t.ang then l1 = l else r1 = r) ∧
      (∀ k, k ≠ x → ps' k = ps1 k ∧ r' k = r1 k ∧ l' k = l1 k) ∧ (if t.ang then l' = l1 else r' = r1) ∧
      t.moved r1 l1 * t.slope r l = v + t.kept r l * t.rest r l ∧ t.kept r1 l1 = t.kept r l := by
  obtain ⟨ps1, r1, l1, e1, s1, v1, o1, k1, g1⟩ := setThree_head hT h hs v (headGuard_of_slope h h1)
  have sl : t.slope r1 l1 = t.slope r l := T3.slope_congr (fun k hk => (o1 k fun e => hs (e ▸ hk)).2) (by
    split <;> rename_i b <;> simp only [b, if_true, if_false, Bool.false_eq_true] at k1 <;> rw [k1])
  have rs : t.rest r1 l1 = t.rest r l := by
    unfold T3.rest
    congr 1
    refine List.map_congr_left fun k hk => ?_
    have := (o1 k fun e => hs (e ▸ hk)).2
    rw [this.1, this.2]
    split <;> rename_i b <;> simp only [b, if_true, if_false, Bool.false_eq_true] at k1 <;> rw [k1]
  have kp : t.kept r1 l1 = t.kept r l := by
    unfold T3.kept
    split <;> rename_i b <;> simp only [b, if_true, if_false, Bool.false_eq_true] at g1 <;> rw [g1]
  have val := t.value_slope s1
  rw [v1, sl, rs, kp] at val
  injection val with val
  have mv : t.moved r1 l1 * t.slope r l = v + t.kept r l * t.rest r l := by rw [val]; ring
  have hh : HeadOk u.ang (r1 u.s) (l1 u.s) := by
    split at h2
    · rename_i e
      have : t.moved r1 l1 ≠ 0 := fun z => h2 (by rw [← mv, z, zero_mul])
      unfold T3.moved at this
      unfold HeadOk
      rw [ha, e]
      split <;> rename_i b <;> simpa [b] using this
    · rename_i e
      rw [(o1 _ e).2.1, (o1 _ e).2.2]
      unfold T3.moved at h2
      unfold HeadOk
      split <;> rename_i b <;> simpa [b] using h2
  obtain ⟨ps2, r2, l2, e2, s2, v2, o2, k2⟩ := setThree_middle hT s1 hx w hh (by
    rw [ha] at h3 ⊢
    split <;> rename_i b <;> simp only [b, if_true, if_false, Bool.false_eq_true] at k1 h3 <;> rw [k1] <;> exact h3)
  exact ⟨ps1, r1, l1, ps2, r2, l2, e1, s1, v1, e2, s2, v2, o1, k1, o2, ha ▸ k2, mv, kp⟩

/-- Two three-brackets of the same kind, each through its head. -/
theorem steps_ends [NeZero (2 : K)] {c : Ctx K} {T : Tol K Γ} (hT : T.abs 0 ≤ T.tol) {ps : Point K n}
    {r l : Fin n → V2 K} (h : Spin c ps r l) {t u : T3 n} (ha : u.ang = t.ang) (hs : t.s ∉ t.m) (hu : u.s ∉ u.m)
    (htu : t.s ∉ u.m) (v w : K) (h1 : t.slope r l ≠ 0) (h2 : u.slope r l ≠ 0) :
    ∃ ps1 r1 l1 ps' r' l', setThree c T t 1 v ps = .ok ps1 ∧ Spin c ps1 r1 l1 ∧ t.str.value ps1 = .ok v ∧
      setThree c T u 1 w ps1 = .ok ps' ∧ Spin c ps' r' l' ∧ u.str.value ps' = .ok w ∧
      (∀ k, k ≠ t.s → ps1 k = ps k ∧ r1 k = r k ∧ l1 k = l k) ∧ (if t.ang then l1 = l else r1 = r) ∧
      (∀ k, k ≠ u.s → ps' k = ps1 k ∧ r' k = r1 k ∧ l' k = l1 k) ∧ (if t.ang then l' = l1 else r' = r1) ∧
      u.kept r' l' = u.kept r1 l1 := by
  obtain ⟨ps1, r1, l1, e1, s1, v1, o1, k1, -⟩ := setThree_head hT h hs v (headGuard_of_slope h h1)
  have sl : u.slope r1 l1 = u.slope r l := T3.slope_congr (fun k hk => (o1 k fun e => htu (e ▸ hk)).2) (by
    rw [ha]
    split <;> rename_i b <;> simp only [b, if_true, if_false, Bool.false_eq_true] at k1 <;> rw [k1])
  obtain ⟨ps2, r2, l2, e2, s2, v2, o2, k2, g2⟩ := setThree_head hT s1 hu w (headGuard_of_slope s1 (by rw [sl]; exact h2))
  refine ⟨ps1, r1, l1, ps2, r2, l2, e1, s1, v1, e2, s2, v2, o1, k1, o2, ha ▸ k2, ?_⟩
  unfold T3.kept
  split <;> rename_i b <;> simp only [b, if_true, if_false, Bool.false_eq_true] at g2 <;> rw [g2]

/-- Restoring momentum conservation with two particles that occur in neither string. -/
theorem fixThree_free [NeZero (2 : K)] {c : Ctx K} {ps : Point K n} {r l : Fin n → V2 K} (h : Spin c ps r l) {t u : T3 n}
    {p q : Fin n} (hpq : FirstTwoFree (t.labels ++ u.labels) p q) (hd : SpecSquare (l p) (l q) ≠ 0) :
    ∃ ps', fixThree c t u ps = .ok ps' ∧ Conserves ps' ∧ GoodPoint c ps' ∧ t.str.value ps' = t.str.value ps ∧ u.str.value ps' = u.str.value ps ∧
      ∀ k, k ≠ p → k ≠ q → ps' k = ps k := by
  obtain ⟨rest, e⟩ := freeLabels_firstTwo hpq
  have e' : fix33 t u = some (p, q, false) := by unfold fix33; rw [e]
  obtain ⟨h1, h2, h3⟩ := fix33_safe e'
  obtain ⟨ps', r', l', e2, hc, ho⟩ := fixPair_only c ps r l h h1 false (by simpa using hd)
  exact ⟨ps', by unfold fixThree; rw [e']; simpa [fixPair] using e2, hc, Spin.good ho.after hc, h2.value ho, h3.value ho, ho.rest⟩

end Lips

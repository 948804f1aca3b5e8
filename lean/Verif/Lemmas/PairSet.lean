import Verif.Model.PairSet
import Verif.Props.SetMandelstam
import Verif.Props.SetPairThree
import Verif.Props.SetPairStops
import Verif.Props.Slices

/-! Helper lemmas on setting two invariants. -/

namespace Lips

open Matrix

set_option linter.unusedSectionVars false

variable {K Γ : Type*} [Field K] [LinearOrder Γ] {n : ℕ}

/-- The component by which setting `⟨a|...⟩` or `[a|...]` divides. -/
def HeadOk (ang : Bool) (r l : V2 K) : Prop := if ang then r 1 ≠ 0 else l 0 ≠ 0

theorem setThen_ok {T : Tol K Γ} (hT : T.abs 0 ≤ T.tol) {ps : Point K n} {val : Point K n → Except Err K} {X : K}
    (h : val ps = .ok X) : setThen T (.ok ps) val X = .ok ps := by
  simp [setThen, h, hT]

/-- Outcome of setting a two-bracket without restoring momentum conservation. -/
theorem setTwo_spec [NeZero (2 : K)] {c : Ctx K} {T : Tol K Γ} (hT : T.abs 0 ≤ T.tol) {ps : Point K n}
    {r l : Fin n → V2 K} (h : Spin c ps r l) {ang : Bool} {a b : Fin n} (hab : a ≠ b) (X : K) (hh : HeadOk ang (r a) (l a)) :
    ∃ ps' r' l', setTwo c T ang a b X ps = .ok ps' ∧ Spin c ps' r' l' ∧ twoVal ang a b ps' = .ok X ∧
      (∀ k, k ≠ b → ps' k = ps k ∧ r' k = r k ∧ l' k = l k) ∧ (if ang then l' = l else r' = r) := by
  cases ang
  · simp only [HeadOk, Bool.false_eq_true, if_false] at hh
    obtain ⟨q, e1, hq⟩ := setLu_massless (h b) ![(X - l a 1 * (-l b 0)) / l a 0, -l b 0]
    obtain ⟨ps1, e2, h1, o1⟩ := store_l h b e1 hq
    have hv : twoVal false a b ps1 = .ok X := by
      have hB := (h1 b).l_u
      rw [Function.update_self] at hB
      simp only [twoVal, Bool.false_eq_true, if_false, square, o1 a hab, (h a).l_d, hB, dot2, Matrix.cons_val_zero, Matrix.cons_val_one]
      congr 1; field_simp; ring
    refine ⟨ps1, r, _, ?_, h1, hv, fun k hk => ⟨o1 k hk, rfl, Function.update_of_ne hk _ _⟩, by simp⟩
    have run : setS2 c ps a b X false = .ok ps1 := by
      simp only [setS2, (h a).l_d, (h b).l_u, need_some, Matrix.cons_val_zero, Matrix.cons_val_one,
        pyDiv_ok hh, e2, fixIf]
      simp
    simp only [setTwo, Bool.false_eq_true, if_false, run]
    exact setThen_ok hT hv
  · simp only [HeadOk, if_true] at hh
    obtain ⟨q, e1, hq⟩ := setRd_massless (h b) ![(X - (-r a 0) * r b 1) / r a 1, r b 1]
    obtain ⟨ps1, e2, h1, o1⟩ := store_r h b e1 hq
    have hv : twoVal true a b ps1 = .ok X := by
      have hB := (h1 b).r_d
      rw [Function.update_self] at hB
      simp only [twoVal, if_true, angle, o1 a hab, (h a).r_u, hB, dot2, Matrix.cons_val_zero, Matrix.cons_val_one]
      congr 1; field_simp; ring
    refine ⟨ps1, _, l, ?_, h1, hv, fun k hk => ⟨o1 k hk, Function.update_of_ne hk _ _, rfl⟩, by simp⟩
    have run : setA2 c ps a b X false = .ok ps1 := by
      simp only [setA2, (h a).r_u, (h b).r_d, need_some, Matrix.cons_val_zero, Matrix.cons_val_one,
        pyDiv_ok hh, e2, fixIf]
      simp
    simp only [setTwo, if_true, run]
    exact setThen_ok hT hv

/-- Outcome of setting a Mandelstam invariant without restoring momentum conservation. -/
theorem setMandel_comp [NeZero (2 : K)] {c : Ctx K} {T : Tol K Γ} (hT : T.abs 0 ≤ T.tol) {ps : Point K n}
    {r l : Fin n → V2 K} (h : Spin c ps r l) {i : Fin n} {rest : List (Fin n)} (hi : i ∉ rest) (hlen : 2 ≤ rest.length)
    {mode : ℕ} (hmode : mode = 1 ∨ mode = 2) (X : K) {v : V2 K}
    (hv : computeOpenBegin ps [plusOf rest] i (if mode = 1 then ']' else '⟩') = .ok v) (hv0 : v 0 ≠ 0) :
    ∃ ps' r' l', setMandel c T (i :: rest) mode X ps = .ok ps' ∧ Spin c ps' r' l' ∧ computeS ps' (i :: rest) = X ∧
      (∀ k, k ≠ i → ps' k = ps k ∧ r' k = r k ∧ l' k = l k) ∧ (mode = 1 → l' = l) ∧ (mode = 2 → r' = r) ∧
      (mode = 1 → r' i 0 = r i 0) ∧ (mode = 2 → l' i 1 = l i 1) := by
  have hms : (sString i rest mode).ms = [rest] := by unfold sString; split <;> rfl
  have hs : (sString i rest mode).s = i := by unfold sString; split <;> rfl
  have he : (sString i rest mode).e = i := by unfold sString; split <;> rfl
  have hl : (sString i rest mode).last = if mode = 1 then ']' else '⟩' := by unfold sString; split <;> rfl
  have hf : (sString i rest mode).first = if mode = 1 then '⟨' else '[' := by unfold sString; split <;> rfl
  have hw := sString_wf i rest mode
  have hv' := openBegin_eq h hw
  rw [hms, he, hl] at hv'
  simp only [List.map_cons, List.map_nil] at hv'
  rw [hv'] at hv
  injection hv with hv
  have hs' : (sString i rest mode).s ∉ (sString i rest mode).ms.flatten := by rw [hs, hms]; simpa using hi
  have hne : (sString i rest mode).ms.length % 2 = 1 ∨ (sString i rest mode).s ≠ (sString i rest mode).e := Or.inl (by rw [hms]; rfl)
  obtain ⟨ps1, r1, l1, e1, h1, v1, o1, m1, m2, o2, g1, g2⟩ := setHead_linear_comp h hw hs' hne
    (X - (computeS ps (i :: rest) - (computeS ps (i :: rest) - computeS ps rest)))
    (by rw [hms]; simp only [List.map_cons, List.map_nil]; rw [hv]; exact hv0)
  rw [hs] at o1 o2 g1 g2
  have hval := sString_value h i rest mode
  have hval1 := sString_value h1 i rest mode
  have e2 : computeS ps1 rest = computeS ps rest := by
    unfold computeS
    rw [sumR2_congr fun k hk => o1 k (fun e => hi (e ▸ hk))]
  have hX : computeS ps1 (i :: rest) = X := by
    rw [v1] at hval1
    injection hval1 with hval1
    rw [e2] at hval1
    linear_combination -hval1
  refine ⟨ps1, r1, l1, ?_, h1, hX, fun k hk => ⟨o1 k hk, o2 k hk⟩, ?_, ?_, ?_, ?_⟩
  · have run : setS c ps (i :: rest) X false mode = .ok ps1 := by
      match rest, hlen with
      | y :: z :: ys, _ =>
        rw [setS]
        · rw [if_neg (by rintro ⟨a, b⟩; rcases hmode with h | h <;> contradiction)]
          have : (if mode = 1 then (⟨'⟨', i, [y :: z :: ys], i, ']'⟩ : Str n) else ⟨'[', i, [y :: z :: ys], i, '⟩'⟩) =
              sString i (y :: z :: ys) mode := rfl
          simp only [this, hval]
          have hu := uniqueEnd_head hs' hne
          simp only [setNB, Bool.false_eq_true, and_false, if_false, Option.getD_none, Option.isSome_none]
          rw [if_pos (Or.inl ⟨Or.inl (by rw [hu]; rfl), trivial⟩), hu, if_neg (by simp)]
          simp only [e1]
        · simp
    unfold setMandel
    rw [run]
    exact setThen_ok hT (by simp [hX])
  · intro hm; exact m1 (by rw [hf, if_pos hm])
  · intro hm; exact m2 (by rw [hf, if_neg (by omega)])
  · intro hm; exact g1 (by rw [hf, if_pos hm])
  · intro hm; exact g2 (by rw [hf, if_neg (by omega)])

/-- A Mandelstam invariant set through the first label. -/
theorem setMandel_spec [NeZero (2 : K)] {c : Ctx K} {T : Tol K Γ} (hT : T.abs 0 ≤ T.tol) {ps : Point K n}
    {r l : Fin n → V2 K} (h : Spin c ps r l) {i : Fin n} {rest : List (Fin n)} (hi : i ∉ rest) (hlen : 2 ≤ rest.length)
    {mode : ℕ} (hmode : mode = 1 ∨ mode = 2) (X : K) {v : V2 K}
    (hv : computeOpenBegin ps [plusOf rest] i (if mode = 1 then ']' else '⟩') = .ok v) (hv0 : v 0 ≠ 0) :
    ∃ ps' r' l', setMandel c T (i :: rest) mode X ps = .ok ps' ∧ Spin c ps' r' l' ∧ computeS ps' (i :: rest) = X ∧
      (∀ k, k ≠ i → ps' k = ps k ∧ r' k = r k ∧ l' k = l k) ∧ (mode = 1 → l' = l) ∧ (mode = 2 → r' = r) := by
  obtain ⟨ps', r', l', h1, h2, h3, h4, h5, h6, -⟩ := setMandel_comp hT h hi hlen hmode X hv hv0
  exact ⟨ps', r', l', h1, h2, h3, h4, h5, h6⟩

theorem twoVal_congr {ang : Bool} {a b : Fin n} {ps ps' : Point K n} (ha : ps' a = ps a) (hb : ps' b = ps b) :
    twoVal ang a b ps' = twoVal ang a b ps := by simp [twoVal, ha, hb]

/-- The value of a two-bracket in terms of the spinors of its kind. -/
theorem twoVal_eq {c : Ctx K} {ps : Point K n} {r l : Fin n → V2 K} (h : Spin c ps r l) (ang : Bool) (a b : Fin n) :
    twoVal ang a b ps = .ok (if ang then SpecAngle (r a) (r b) else SpecSquare (l a) (l b)) := by
  cases ang
  · simp [twoVal, square, (h a).l_d, (h b).l_u, dot2, SpecSquare]; ring
  · simp [twoVal, angle, (h a).r_u, (h b).r_d, dot2, SpecAngle]; ring

/-- It depends on the spinors of its kind only. -/
theorem twoVal_kind {c : Ctx K} {ps ps' : Point K n} {r l r' l' : Fin n → V2 K} (h : Spin c ps r l) (h' : Spin c ps' r' l')
    {ang : Bool} {a b : Fin n} (e : if ang then r' = r else l' = l) : twoVal ang a b ps' = twoVal ang a b ps := by
  rw [twoVal_eq h, twoVal_eq h']
  cases ang <;> simp at e <;> subst e <;> rfl

theorem computeS_congr {ps ps' : Point K n} {ls : List (Fin n)} (h : ∀ k ∈ ls, ps' k = ps k) : computeS ps' ls = computeS ps ls := by
  unfold computeS; rw [sumR2_congr h]

end Lips

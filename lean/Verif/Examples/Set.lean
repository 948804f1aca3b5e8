import Verif.Props.SetTr5
import Verif.Props.SetMiddle
import Verif.Props.SetBracket
import Verif.Props.SetPoly
import Verif.Examples.Compute

/-! Concrete cases meeting the hypotheses of the theorems on setting one invariant. -/

namespace Lips

open Matrix

/-- The spinors of the example points. -/
abbrev r6 (k : Fin 6) : V2 F13 := (spin6 k).1
abbrev l6 (k : Fin 6) : V2 F13 := (spin6 k).2
abbrev r5 (k : Fin 5) : V2 F13 := (spin5 k).1
abbrev l5 (k : Fin 5) : V2 F13 := (spin5 k).2

/-- A vector whose first component is not zero. -/
def headOk (e : Except Err (V2 F13)) : Bool := match e with | .ok v => decide (v 0 ≠ 0) | _ => false
/-- A number that is not zero. -/
def numOk (e : Except Err F13) : Bool := match e with | .ok v => decide (v ≠ 0) | _ => false

theorem of_headOk {e : Except Err (V2 F13)} (h : headOk e = true) : ∃ v, e = .ok v ∧ v 0 ≠ 0 := by
  rcases e with e | v
  · simp [headOk] at h
  · exact ⟨v, rfl, by simpa [headOk] using h⟩

theorem of_numOk {e : Except Err F13} (h : numOk e = true) : ∃ v, e = .ok v ∧ v ≠ 0 := by
  rcases e with e | v
  · simp [numOk] at h
  · exact ⟨v, rfl, by simpa [numOk] using h⟩

instance (L : List (Fin n)) (p q : Fin n) : Decidable (FirstTwoFree L p q) := by unfold FirstTwoFree; infer_instance

/-- C61: setting `⟨1|2⟩` to 7 with particles three and four compensating. -/
example : ∃ ps', setA2 (f13 .symmetric) pt5 0 1 7 true = .ok ps' ∧ angle (ps' 0) (ps' 1) = .ok 7 ∧ Conserves ps' := by
  obtain ⟨ps', h1, h2, h3, -⟩ := C61_set_angle (f13 .symmetric) pt5 r5 l5 pt5_massless 0 1 2 3 (by decide) (by decide) 7
    (by decide) (by decide)
  exact ⟨ps', h1, h2, h3⟩

/-- C62, linear: setting `⟨1|2+3|4]` to 7. -/
example : ∃ ps', setNB (f13 .symmetric) 1 pt6 ⟨'⟨', 0, [[1, 2]], 3, ']'⟩ 7 true 1 = .ok ps' ∧
    (⟨'⟨', 0, [[1, 2]], 3, ']'⟩ : Str 6).value ps' = .ok 7 := by
  obtain ⟨v, hv, hv0⟩ := of_headOk (e := computeOpenBegin pt6 ([[1, 2]].map plusOf) 3 ']') (by decide +kernel)
  obtain ⟨ps', h1, h2, -⟩ := C62_head_linear (f13 .symmetric) pt6 r6 l6 pt6_massless ⟨'⟨', 0, [[1, 2]], 3, ']'⟩
    (Or.inl ⟨rfl, by decide⟩) (by decide) (Or.inl rfl) 4 5 (by decide) 7 hv hv0 (by decide) 0
  exact ⟨ps', h1, h2⟩

/-- C62, quadratic: setting `⟨1|2+3|2+4|1⟩` to 4. -/
example : ∃ ps', setNB (f13 .symmetric) 1 pt6 ⟨'⟨', 0, [[1, 2], [1, 3]], 0, '⟩'⟩ 4 true 1 = .ok ps' ∧
    (⟨'⟨', 0, [[1, 2], [1, 3]], 0, '⟩'⟩ : Str 6).value ps' = .ok 4 := by
  obtain ⟨ps', h1, h2, -⟩ := C62_head_quadratic (f13 .symmetric) pt6 r6 l6 pt6_massless ⟨'⟨', 0, [[1, 2], [1, 3]], 0, '⟩'⟩
    (Or.inl ⟨rfl, by decide⟩) (by decide) rfl rfl 4 5 (by decide) 4 1 rfl
    ⟨fun _ => by decide +kernel, fun h => by simp at h⟩ (by decide) 0
  exact ⟨ps', h1, h2⟩

/-- C62 (finding): `⟨1|1+2|2+3|4⟩` has only a tail that occurs once; asked for 7 it becomes 6 = -7. -/
example : ∃ ps', setNB (f13 .symmetric) 2 pt6 ⟨'⟨', 0, [[0, 1], [1, 2]], 3, '⟩'⟩ 7 true 1 = .ok ps' ∧
    (⟨'⟨', 0, [[0, 1], [1, 2]], 3, '⟩'⟩ : Str 6).value ps' = .ok (-7) := by
  obtain ⟨v, hv, hv0⟩ := of_headOk (e := computeOpenBegin pt6
    ((Str.reverse (n := 6) ⟨'⟨', 0, [[0, 1], [1, 2]], 3, '⟩'⟩).ms.map plusOf) 0
    (Str.reverse (n := 6) ⟨'⟨', 0, [[0, 1], [1, 2]], 3, '⟩'⟩).last) (by decide +kernel)
  obtain ⟨ps', h1, h2, -⟩ := C62_tail_partial (f13 .symmetric) pt6 r6 l6 pt6_massless ⟨'⟨', 0, [[0, 1], [1, 2]], 3, '⟩'⟩
    (Or.inl ⟨rfl, by decide⟩) (by decide) (by decide) 4 5 (by decide) 7 hv hv0 (by decide) 0
  exact ⟨ps', h1, h2⟩

/-- C62: `⟨1|2+3+4|5]` at six points leaves one label free, and becomes `⟨1|5+6|5]`. -/
example : (⟨'⟨', 0, [[1, 2, 3]], 4, ']'⟩ : Str 6).findFlip = some ⟨'⟨', 0, [[4, 5]], 4, ']'⟩ ∧
    (freeLabels (⟨'⟨', 0, [[1, 2, 3]], 4, ']'⟩ : Str 6).labels).length < 2 := ⟨rfl, by decide⟩

/-- C63: setting `⟨1|2+3|4]` through particle two. -/
example : ∃ ps', setNB (f13 .symmetric) 1 pt6 ⟨'⟨', 0, [[1, 2]], 3, ']'⟩ 7 true 2 = .ok ps' ∧
    (⟨'⟨', 0, [[1, 2]], 3, ']'⟩ : Str 6).value ps' = .ok 7 := by
  obtain ⟨y, hy, hy0⟩ := of_numOk (e := endOfPart pt6 '⟨' 1 [] 3 ']') (by decide +kernel)
  obtain ⟨ps', h1, h2, -⟩ := C63_first_slot (f13 .symmetric) pt6 r6 l6 pt6_massless ⟨'⟨', 0, [[1, 2]], 3, ']'⟩
    (Or.inl ⟨rfl, by decide⟩) [] [2] 1 ⟨rfl, by decide, by decide⟩ (by decide) (by decide) 2 (Or.inl (by decide))
    4 5 (by decide) 7 y hy hy0 (fun _ => by decide) (fun h => by simp at h) (by decide) 0
  exact ⟨ps', h1, h2⟩

/-- C63 (finding): `⟨1|2|2+3|4⟩` is set through particle three, to minus the value. -/
example : ∃ ps', setNB (f13 .symmetric) 1 pt6 ⟨'⟨', 0, [[1], [1, 2]], 3, '⟩'⟩ 7 true 2 = .ok ps' ∧
    (⟨'⟨', 0, [[1], [1, 2]], 3, '⟩'⟩ : Str 6).value ps' = .ok (-7) := by
  obtain ⟨y, hy, hy0⟩ := of_numOk (e := endOfPart pt6 '⟨' 2 [[1]] 0 '⟩') (by decide +kernel)
  obtain ⟨ps', h1, h2, -⟩ := C63_last_slot_even_partial (f13 .symmetric) pt6 r6 l6 pt6_massless '⟨' '⟩' 0 3 [[1]] [1] [] 2
    (Or.inl ⟨rfl, by decide⟩) (by decide) rfl (by unfold NoUnique; decide) ⟨rfl, by decide, by decide⟩ (by decide) (by decide) 2
    (Or.inl (by decide)) 4 5 (by decide) 7 y hy hy0 (fun _ => by decide) (fun h => by simp at h) (by decide) 0
  exact ⟨ps', h1, h2⟩

/-- C63 (finding): `⟨1|2|2|2+3|4]` raises. -/
example : setNB (f13 .symmetric) 1 pt6 ⟨'⟨', 0, [[1], [1], [1, 2]], 3, ']'⟩ 7 true 2 = .error .syntaxError :=
  C63_last_slot_odd_partial (f13 .symmetric) pt6 r6 l6 pt6_massless '⟨' ']' 0 3 [[1], [1]] [1] [] 2
    (Or.inl ⟨rfl, by decide⟩) (by decide) rfl (by unfold NoUnique; decide) ⟨rfl, by decide, by decide⟩ 2
    (Or.inl (by decide)) 4 5 (by decide) 7 0

/-- C64: setting `s_123` to 7 in the second mode. -/
example : ∃ ps', setS (f13 .symmetric) pt6 [0, 1, 2] 7 true 2 = .ok ps' ∧ computeS ps' [0, 1, 2] = 7 := by
  obtain ⟨v, hv, hv0⟩ := of_headOk (e := computeOpenBegin pt6 [plusOf [1, 2]] 0 (if 2 = 1 then ']' else '⟩')) (by decide +kernel)
  obtain ⟨ps', h1, h2, -⟩ := C64_set_mandelstam (f13 .symmetric) pt6 r6 l6 pt6_massless 0 [1, 2] (by decide) (by decide) 2
    (Or.inr rfl) 3 4 (by decide) 7 hv hv0 (by decide)
  exact ⟨ps', h1, h2⟩

/-- C65: the guards hold for `Δ_12|34|56` at the six-point configuration, in the first mode. -/
example : ∃ Q1 Q2 Q3 : Particle F13, clusterLeg (f13 .symmetric) pt6 [1] = some Q1 ∧
    clusterLeg (f13 .symmetric) pt6 [2, 3] = some Q2 ∧ clusterLeg (f13 .symmetric) pt6 [4, 5] = some Q3 ∧
    (Q2.r2b.mulVec ![l6 0 1, -l6 0 0]) 0 ≠ 0 ∧ SpecSquare (l6 5) (l6 4) ≠ 0 := by
  have leg : ∀ ls : List (Fin 6), ls ≠ [] → ∃ Q, clusterLeg (f13 .symmetric) pt6 ls = some Q := by
    intro ls h
    obtain ⟨s, hs⟩ := C06_sum_total (f13 .symmetric) rfl (ls.map pt6) (by simpa using h)
    exact ⟨s, by simp [clusterLeg, hs]⟩
  obtain ⟨Q1, h1⟩ := leg [1] (by simp)
  obtain ⟨Q2, h2⟩ := leg [2, 3] (by simp)
  obtain ⟨Q3, h3⟩ := leg [4, 5] (by simp)
  refine ⟨Q1, Q2, Q3, h1, h2, h3, ?_, by decide⟩
  rw [(clusterLeg_spec (fun k => (pt6_massless k).cons) h2).2]
  decide +kernel

/-- C66: the guards for corners 12, 34, 56, and what they give. -/
example : (∃ x, (f13 .symmetric).sqrt x = none ∧ setO (f13 .symmetric) pt6 [0, 1] [2, 3] [4, 5] 7 = .error .valueError) ∨
    ∃ ps', setO (f13 .symmetric) pt6 [0, 1] [2, 3] [4, 5] 7 = .ok ps' ∧ computeOmega ps' [0, 1] [2, 3] [4, 5] = .ok 7 := by
  rcases C66_set_omega (f13 .symmetric) pt6 r6 l6 pt6_massless 4 5 0 1 2 3 (by decide) 7 (by decide +kernel) (by decide) with h | ⟨ps', h1, h2, -⟩
  · exact Or.inl h
  · exact Or.inr ⟨ps', h1, h2⟩

example : ∃ ps', setP (f13 .symmetric) pt6 [0, 1] [2, 3] [4, 5] 7 = .ok ps' ∧ computePi ps' [0, 1] [4, 5] = .ok 7 := by
  obtain ⟨ps', h1, h2, -⟩ := C66_set_pi (f13 .symmetric) pt6 r6 l6 pt6_massless 4 5 0 1 2 3 (by decide) 7 (by decide +kernel) (by decide)
  exact ⟨ps', h1, h2⟩

/-- C67: at five points the method returns and sets tr5(1|2|3|4) to 7, but tr5(2|1|3|4) to -7 when asked for 7. -/
example : ∃ ps', setTr5All (f13 .symmetric) pt5 (single 0) (single 1) (single 2) (single 3) 7 true = .ok ps' ∧
    computeTr5 ps' (single 0) (single 1) (single 2) (single 3) = .ok 7 := by
  obtain ⟨ps', h⟩ := C67_five_points_returns (f13 .symmetric) pt5 r5 l5 pt5_massless 0 1 2 3 7 true
    (by decide +kernel) (by decide +kernel) (by decide +kernel) (by decide +kernel) (by decide) (by decide)
  exact ⟨ps', h, C67_five_points_even (f13 .symmetric) pt5 r5 l5 pt5_massless 1 (by decide) 7 true ps' h⟩

example : ∃ ps', setTr5All (f13 .symmetric) pt5 (single 1) (single 0) (single 2) (single 3) 7 true = .ok ps' ∧
    computeTr5 ps' (single 1) (single 0) (single 2) (single 3) ≠ .ok 7 := by
  obtain ⟨ps', h⟩ := C67_five_points_returns (f13 .symmetric) pt5 r5 l5 pt5_massless 1 0 2 3 7 true
    (by decide +kernel) (by decide +kernel) (by decide +kernel) (by decide +kernel) (by decide) (by decide)
  exact ⟨ps', h, C67_five_points_odd_wrong (f13 .symmetric) pt5 r5 l5 pt5_massless (Equiv.swap 0 1)
    (Equiv.Perm.sign_swap (by decide)) 7 (by decide) true ps' h⟩

/-- C67: at six points. -/
example : ∃ ps', setTr5All (f13 .symmetric) pt6 (single 0) (single 1) (single 2) (single 3) 7 true = .ok ps' ∧
    computeTr5 ps' (single 0) (single 1) (single 2) (single 3) = .ok 7 := by
  have e : ∀ k, (pt6 k).r2 = outer (lDownUp (spin6 k).2) (rDownUp (spin6 k).1) := fun k => ofSpinors_r2 _ _ _
  obtain ⟨ps', h1, h2, -⟩ := C67_six_points (m := 0) (f13 .symmetric) pt6 r6 l6 pt6_massless (single 0) (single 1) (single 2)
    (single 3) (single 1) (single 2) (single 3) 0 4 5 (by rfl) (by decide) 7 (by decide)
    (by simp only [slotMom_single]; rw [specTr5_expand]; decide +kernel) (by decide)
  exact ⟨ps', h1, h2⟩

end Lips

import Verif.Props.PairDelta3
import Verif.Props.ArcsOrder
import Verif.Examples.Pair

/-! Concrete cases meeting the hypotheses of the theorems on setting Δ together with another invariant. -/

namespace Lips

/-- Three corners at six points. -/
def triple6 : Corners 6 := ![[0, 1], [2, 3], [4, 5]]

theorem triple6_partition : Partition triple6 := List.Perm.refl _

/-- The guard of Δ at a point that differs from the six-point configuration in the second particle only. -/
theorem guard6 {qs : Point F13 6} {r l : Fin 6 → V2 F13} (s : Spin (f13 .symmetric) qs r l) (o : ∀ k, k ≠ 1 → qs k = pt6 k)
    {mode : ℕ} (hm : mode = 1 ∨ mode = 2) : DeltaGuard (f13 .symmetric) qs r l [0, 1] [2, 3] [4, 5] 0 mode := by
  have hr : r 0 = r6 0 := by
    have e1 := (s 0).r_d
    rw [o 0 (by decide), (pt6_massless 0).r_d] at e1
    injection e1 with e1
    exact e1.symm
  have hl : l 0 = l6 0 := by
    have e1 := (s 0).l_d
    rw [o 0 (by decide), (pt6_massless 0).l_d] at e1
    injection e1 with e1
    exact e1.symm
  have e2 : sumR2 qs [2, 3] = sumR2 pt6 [2, 3] := sumR2_congr fun k hk => o k (by rintro rfl; revert hk; decide)
  rcases hm with rfl | rfl
  · refine deltaGuard_of rfl s (by decide) (by decide) (by decide) ?_
    rw [hr, hl, e2]; decide +kernel
  · refine deltaGuard_of rfl s (by decide) (by decide) (by decide) ?_
    rw [hr, hl, e2]; decide +kernel

/-- C95: `⟨1|2⟩` to 7 and `Δ_12|34|56` to 5. -/
example : (∃ D, (f13 .symmetric).sqrt D = none ∧ pair2D (f13 .symmetric) T13 pt6 true 0 1 7 triple6 5 = .error .valueError) ∨
    ∃ ps', pair2D (f13 .symmetric) T13 pt6 true 0 1 7 triple6 5 = .ok ps' ∧ GoodPoint (f13 .symmetric) ps' ∧
      twoVal true 0 1 ps' = .ok 7 ∧ computeDelta ps' 1 triple6 = 5 := by
  have hh : HeadOk true (r6 0) (l6 0) := by unfold HeadOk; decide
  rcases C95_two_delta (f13 .symmetric) T13 T13_zero pt6 r6 l6 pt6_massless true 0 1 (by decide) triple6 triple6_partition 0
      (.inl (by decide)) 0 [1] [] 5 4 rfl rfl 7 5 hh
      (fun qs r' l' e s => guard6 s (setTwo_others pt6_massless (by decide) hh e) (.inr rfl)) (by decide) with h | ⟨ps', h1, h2, h3, h4, -⟩
  · exact .inl h
  · exact .inr ⟨ps', h1, h2, h3, h4⟩

/-- C95: the two labels in different corners, `[2|3]` and the corners `56`, `12`, `34`: they are taken as `12`, `34`, `56`. -/
example : order2D (n := 6) 1 2 ![[4, 5], [0, 1], [2, 3]] = some (rotCorners ![[4, 5], [0, 1], [2, 3]] 1) ∧
    FirstFor (n := 6) 1 2 ![[4, 5], [0, 1], [2, 3]] 1 := ⟨by decide, .inr ⟨by decide, by decide, by decide⟩⟩

/-- C96: `⟨2|3+4|4]` to 7 and `Δ_12|34|56` to 5, and the string of the other kind. -/
example (x : Bool) :
    (∃ D, (f13 .symmetric).sqrt D = none ∧ pair3D (f13 .symmetric) T13 pt6 ⟨x, 1, [2, 3], 3⟩ 7 triple6 5 = some (.error .valueError)) ∨
    ∃ ps', pair3D (f13 .symmetric) T13 pt6 ⟨x, 1, [2, 3], 3⟩ 7 triple6 5 = some (.ok ps') ∧ GoodPoint (f13 .symmetric) ps' ∧
      (⟨x, 1, [2, 3], 3⟩ : T3 6).str.value ps' = .ok 7 ∧ computeDelta ps' 1 triple6 = 5 := by
  have hg : (⟨x, 1, [2, 3], 3⟩ : T3 6).slope r6 l6 ≠ 0 := by cases x <;> decide +kernel
  have key := C96_three_delta_partial (f13 .symmetric) T13 T13_zero pt6 r6 l6 pt6_massless ⟨x, 1, [2, 3], 3⟩ ⟨x, 1, [2, 3], 3⟩
      triple6 triple6_partition [0, 1] [2, 3] [] 4 5 0 (by cases x <;> decide) (by cases x <;> decide) (by decide : (1 : Fin 6) ∉ [2, 3])
      (by cases x <;> simp [Undisturbed, mode3D]) 7 5 hg
      (fun qs r' l' e s => guard6 s (fun k hk => by
        obtain ⟨ps', r'', l'', e', -, -, o, -⟩ := setThree_head (c := f13 .symmetric) T13_zero pt6_massless (t := ⟨x, 1, [2, 3], 3⟩)
          (by decide : (1 : Fin 6) ∉ [2, 3]) 7 (headGuard_of_slope pt6_massless hg)
        rw [e] at e'; injection e' with e'; rw [e']; exact (o k hk).1) (by cases x <;> simp [mode3D])) (by cases x <;> decide)
  rcases key with h | ⟨ps', h1, h2, h3, h4, -⟩
  · exact .inl h
  · exact .inr ⟨ps', h1, h2, h3, h4⟩

/-- C96_ends: `⟨1|3|2]` to 7 and `Δ_12|34|56` to 5. The string starts with the first label of the first corner. -/
example :
    (∃ D, (f13 .symmetric).sqrt D = none ∧ pair3D (f13 .symmetric) T13 pt6 ⟨true, 0, [2], 1⟩ 7 triple6 5 = some (.error .valueError)) ∨
    ∃ ps', pair3D (f13 .symmetric) T13 pt6 ⟨true, 0, [2], 1⟩ 7 triple6 5 = some (.ok ps') ∧ GoodPoint (f13 .symmetric) ps' ∧
      (⟨true, 0, [2], 1⟩ : T3 6).str.value ps' = .ok 7 ∧ computeDelta ps' 1 triple6 = 5 := by
  have hg : (⟨true, 0, [2], 1⟩ : T3 6).slope r6 l6 ≠ 0 := by decide +kernel
  have key := C96_ends (f13 .symmetric) T13 T13_zero pt6 r6 l6 pt6_massless ⟨true, 0, [2], 1⟩ ⟨true, 0, [2], 1⟩ (by decide)
    ⟨by decide, by decide⟩ triple6 triple6_partition ⟨0, .inl rfl⟩ [0, 1] [2, 3] [] 4 5 (by decide) 7 5 hg (fun qs r' l' e s => by
      obtain ⟨qs', r'', l'', e', s', hv, o, -, h0⟩ := setThree_head (c := f13 .symmetric) T13_zero pt6_massless (t := ⟨true, 0, [2], 1⟩)
        (by decide : (0 : Fin 6) ∉ [2]) 7 (headGuard_of_slope pt6_massless hg)
      rw [e] at e'
      injection e' with e'
      subst e'
      have hr : r' 0 = r'' 0 := by
        have := (s 0).r_d
        rw [(s' 0).r_d] at this
        injection this with this
        exact this.symm
      rw [T3.value_eq s'] at hv
      injection hv with hv
      simp only [List.map_cons, List.map_nil, List.sum_cons, List.sum_nil, T3.term, if_true, (o 2 (by decide : (2 : Fin 6) ≠ 0)).2,
        (o 1 (by decide : (1 : Fin 6) ≠ 0)).2] at hv
      have e2 : sumR2 qs [2, 3] = sumR2 pt6 [2, 3] := sumR2_congr fun k hk => (o k (by rintro rfl; revert hk; decide)).1
      refine deltaGuard_of rfl s (by decide) (by decide) (by decide) ?_
      rw [if_neg (by decide), hr, e2]
      have h0' : r'' 0 0 = r6 0 0 := h0
      rw [SpecAngle, h0'] at hv
      rw [h0']
      generalize r'' 0 1 = y at hv ⊢
      revert y
      decide +kernel) (by decide)
  rcases key with h | ⟨ps', h1, h2, h3, h4, -⟩
  · exact .inl h
  · exact .inr ⟨ps', h1, h2, h3, h4⟩

/-- C96 (finding): `⟨1|3+5|2]` has labels in every corner `12`, `34`, `56`; rewritten by momentum conservation as
`⟨1|4+6|2]` it still does. With `⟨1|3+4+5|2]` it becomes `⟨1|6|2]`, which is set in place of its negative. -/
example : order3D (n := 6) ⟨true, 0, [2, 4], 1⟩ [[0, 1], [2, 3], [4, 5]] = .ok none ∧
    reorder3D (n := 6) ⟨true, 0, [2, 3, 4], 1⟩ [[0, 1], [2, 3], [4, 5]] = .ok none ∧
    order3D (n := 6) ⟨true, 0, [2, 3, 4], 1⟩ [[0, 1], [2, 3], [4, 5]] = .ok (some (⟨true, 0, [5], 1⟩, [[0, 1], [4, 5], [2, 3]])) := by
  decide

/-- C96 (finding): in mode three the second label of the first corner is the head of the string, whose value is lost. -/
example : order3D (n := 6) ⟨true, 1, [0, 2], 3⟩ [[0, 1], [2, 3], [4, 5]] = .ok (some (⟨true, 1, [0, 2], 3⟩, [[0, 1], [2, 3], [4, 5]])) ∧
    mode3D (n := 6) ⟨true, 1, [0, 2], 3⟩ [0, 1] = 3 ∧ ¬ Undisturbed (n := 6) ⟨true, 1, [0, 2], 3⟩ [0, 1] 1 := by
  refine ⟨by decide, by decide, ?_⟩
  simp [Undisturbed, mode3D]

end Lips

import Verif.Props.Pol
import Verif.Examples.Ctx

/-! Concrete massless momentum-conserving points meeting the hypotheses of the theorems on
invariants, with the values the theorems are about shown to be non-zero. -/

namespace Lips

open Matrix

variable {K : Type*} [Field K] {n : ℕ}

/-- The point built from the given spinors. -/
def spinPoint (c : Ctx K) (s : Fin n → V2 K × V2 K) : Point K n := fun k => (ofSpinors c (s k).1 (s k).2).st

theorem ofSpinors_r2 (c : Ctx K) (r l : V2 K) :
    (ofSpinors c r l).st.r2 = outer (lDownUp l) (rDownUp r) := by
  unfold ofSpinors setLd rebuildFromSpinors
  simp only
  exact (momFromR2b_fields c _).2.2.2.2.1

theorem ofSpinors_isMassless [NeZero (2 : K)] (c : Ctx K) (r l : V2 K) :
    IsMassless c (ofSpinors c r l).st r l := by
  refine ⟨⟨((C01_constructors_consistent c).2.2 _ _).2, ?_, (C02_assign_then_read c _).2.1 _⟩, ?_⟩
  · unfold ofSpinors setLd rebuildFromSpinors
    simp only
    exact (momFromR2b_fields c _).1
  · rw [massless_iff, ofSpinors_r2, det_fin_two]
    simp only [outer_apply]; ring

theorem spinPoint_isMassless [NeZero (2 : K)] (c : Ctx K) (s : Fin n → V2 K × V2 K) (k : Fin n) :
    IsMassless c (spinPoint c s k) (s k).1 (s k).2 := ofSpinors_isMassless c _ _

theorem spinPoint_conserves (c : Ctx K) (s : Fin n → V2 K × V2 K)
    (h : ∑ k, outer (lDownUp (s k).2) (rDownUp (s k).1) = 0) : Conserves (spinPoint c s) := by
  rw [conserves_iff, totalMom, ← h]
  exact Finset.sum_congr rfl fun k _ => ofSpinors_r2 c _ _

/-- Five massless particles over `F13` conserving momentum, no bracket vanishing. -/
def spin5 : Fin 5 → V2 F13 × V2 F13 :=
  ![(![2, 9], ![10, 2]), (![12, 12], ![11, 12]), (![1, 4], ![3, 1]), (![1, 7], ![7, 0]), (![12, 7], ![6, 6])]

/-- Six of them. -/
def spin6 : Fin 6 → V2 F13 × V2 F13 :=
  ![(![11, 8], ![0, 3]), (![6, 8], ![8, 11]), (![10, 3], ![11, 12]), (![4, 4], ![6, 6]),
    (![9, 7], ![10, 2]), (![8, 6], ![5, 8])]

/-- See `spin5`. -/
abbrev pt5 : Point F13 5 := spinPoint (f13 .symmetric) spin5
/-- See `spin6`. -/
abbrev pt6 : Point F13 6 := spinPoint (f13 .symmetric) spin6

theorem pt5_conserves : Conserves pt5 := spinPoint_conserves _ _ (by decide)
theorem pt6_conserves : Conserves pt6 := spinPoint_conserves _ _ (by decide)
theorem pt5_massless (k : Fin 5) : IsMassless (f13 .symmetric) (pt5 k) (spin5 k).1 (spin5 k).2 :=
  spinPoint_isMassless _ _ _
theorem pt6_massless (k : Fin 6) : IsMassless (f13 .symmetric) (pt6 k) (spin6 k).1 (spin6 k).2 :=
  spinPoint_isMassless _ _ _

/-- C15, C16: `s_12 = ⟨12⟩[21]` is not zero, and equals `s_345`. -/
example : computeS pt5 [0, 1] ≠ 0 ∧ computeS pt5 [0, 1] = computeS pt5 [2, 3, 4] := by
  refine ⟨?_, C16_complement pt5 pt5_conserves (by decide)⟩
  rw [C15_sum_of_pairs (f13 .symmetric) pt5 [0, 1] _ _ (fun k _ => pt5_massless k)]
  decide

/-- C17, C18, C19, C28 apply to `⟨1|2+3|4]`; its value is not zero. -/
example : ∃ x : F13, x ≠ 0 ∧ computeNB pt5 '⟨' 0 [[(true, 1), (true, 2)]] 3 ']' = .ok x := by
  have := ((C17_expansion (f13 .symmetric) pt5 (fun k => (spin5 k).1) (fun k => (spin5 k).2) 0 3
    [[(true, 1), (true, 2)]] (pt5_massless 0).toHasSpinors (pt5_massless 3).toHasSpinors
    (fun k _ => pt5_massless k)).2 (by simp)).1
  exact ⟨_, by decide, this⟩

/-- C20: a boost with matrices of determinant one other than the identity. -/
example : LorentzImage (f13 .symmetric) !![2, 3; 1, 2] !![1, 4; 0, 1] pt5
    (fun k => (ofSpinors (f13 .symmetric) ((!![2, 3; 1, 2] : M2 F13).mulVec (spin5 k).1)
      (vecMul (spin5 k).2 !![1, 4; 0, 1])).st) :=
  C20_images_exist (f13 .symmetric) _ _ (by decide) (by decide) pt5 _ _ pt5_massless

/-- C21: rescaling the spinors of the third particle by 5. -/
example : LittleGroup (f13 .symmetric) 2 5 pt5
    (Function.update pt5 2 (ofSpinors (f13 .symmetric) ((5 : F13) • (spin5 2).1) ((5 : F13)⁻¹ • (spin5 2).2)).st) where
  t0 := by decide
  others := fun k hk => Function.update_of_ne hk _ _
  cons := (pt5_massless 2).cons
  cons' := by rw [Function.update_self]; exact (ofSpinors_isMassless _ _ _).cons
  massless := (pt5_massless 2).massless
  spinors := by
    refine ⟨_, _, (pt5_massless 2).r_d, (pt5_massless 2).l_d, ?_, ?_⟩
    · rw [Function.update_self]; exact (ofSpinors_isMassless _ _ _).r_d
    · rw [Function.update_self]; exact (ofSpinors_isMassless _ _ _).l_d
  massless' := by rw [Function.update_self]; exact (ofSpinors_isMassless _ _ _).massless

/-- C23, C24: tr5 is not zero on the five-point configuration, so antisymmetry and the sign
finding are about non-zero numbers. -/
example : ∃ x : F13, x ≠ 0 ∧ computeTr5 pt5 (single 0) (single 1) (single 2) (single 3) = .ok x := by
  have ok : ∀ k, SlotOk (f13 .symmetric) pt5 (single k) := by
    intro k b' k' h
    simp only [single, List.mem_singleton, Prod.mk.injEq] at h
    rw [h.2]; exact (pt5_massless k).cons
  refine ⟨_, ?_, tr5_value (f13 .symmetric) pt5 (pt5_massless 0) (by decide) _ _ _ (ok 1) (ok 2) (ok 3)⟩
  simp only [slotMom_single]
  rw [specTr5_expand]
  decide

/-- C23 (finding): a value with the wrong sign. -/
example : ∃ x y : F13, computeTr5 pt5 (single 0) (single 2) (single 3) (single 0) = .ok x ∧
    computeTr5 pt5 (single 1) (single 2) (single 3) (single 0) = .ok y ∧ x + y ≠ -(x + y) ∧
    computeTr5 pt5 (single 0 ++ single 1) (single 2) (single 3) (single 0) = .ok (-(x + y)) := by
  have ok : ∀ k, SlotOk (f13 .symmetric) pt5 (single k) := by
    intro k b' k' h
    simp only [single, List.mem_singleton, Prod.mk.injEq] at h
    rw [h.2]; exact (pt5_massless k).cons
  obtain ⟨u, v, hu, hv, h⟩ := C23_first_slot_not_additive (f13 .symmetric) pt5 (pt5_massless 0) (pt5_massless 1)
    (pt5_massless 2) (by decide) (by decide) (by decide) (single 3) (single 0) (ok 3) (ok 0)
  refine ⟨u, v, hu, hv, ?_, h⟩
  have a := tr5_value (f13 .symmetric) pt5 (pt5_massless 0) (by decide) _ _ _ (ok 2) (ok 3) (ok 0)
  have b := tr5_value (f13 .symmetric) pt5 (pt5_massless 1) (by decide) _ _ _ (ok 2) (ok 3) (ok 0)
  rw [← single] at a b
  rw [hu] at a
  rw [hv] at b
  injection a with a
  injection b with b
  rw [a, b]
  simp only [slotMom_single]
  rw [specTr5_expand, specTr5_expand]
  decide

/-- C25, C27: three corners of two labels each at six points. -/
example : sumR2 pt6 [0, 1] + sumR2 pt6 [2, 3] + sumR2 pt6 [4, 5] = 0 := by
  have := (conserves_iff pt6).mp pt6_conserves
  rw [← sumR2_finRange] at this
  rw [← sumR2_append, ← sumR2_append]
  exact this

example : ([0, 1] ++ [2, 3] ++ [4, 5] : List (Fin 6)).Perm (List.finRange 6) := by decide

/-- C30: a reference vector good for both helicities. -/
example : SpecPolDen true (spin5 0).1 (spin5 0).2 (spin5 4).1 (spin5 4).2 ≠ 0 ∧
    SpecPolDen false (spin5 0).1 (spin5 0).2 (spin5 4).1 (spin5 4).2 ≠ 0 := by decide

/-- C31: a helicity configuration on which `ee` never returns. -/
example : ¬ ∃ fuel, (ee ![.plus, .p, .minus, .m, .plus] pt5 (pt5 4) fuel 0 1).isSome := by
  rw [C31_ee_terminates_iff]; decide

end Lips

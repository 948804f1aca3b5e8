import Verif.Props.Invariance
import Verif.Lemmas.Det4
import Mathlib.GroupTheory.Perm.Sign
import Mathlib.GroupTheory.Perm.Closure
import Mathlib.LinearAlgebra.Matrix.NonsingularInverse
import Mathlib.Data.Int.Order.Units

/-!
Properties C23 (tr5), C24 (δ5), C25 (Δ), C27 (Ω and Π).
-/

namespace Lips

open Matrix

set_option linter.unusedSimpArgs false
set_option linter.unusedSectionVars false

variable {K : Type*} [Field K] {n : ℕ}

/-! ### C23 -/

/-- Components of a bispinor as a row. -/
def row4 (m : M2 K) : Fin 4 → K := ![m 0 0, m 0 1, m 1 0, m 1 1]

/-- Specification of tr5: the determinant of the components of the four momenta (up to the
constant change of basis to four-vectors this is `4 i ε(p₁,p₂,p₃,p₄)`). -/
def SpecTr5 (m : Fin 4 → M2 K) : K := Matrix.det (Matrix.of fun i => row4 (m i))

theorem specTr5_expand (a b c d : M2 K) : SpecTr5 ![a, b, c, d] =
    a 0 0 * (b 0 1 * (c 1 0 * d 1 1 - c 1 1 * d 1 0) - b 1 0 * (c 0 1 * d 1 1 - c 1 1 * d 0 1) +
      b 1 1 * (c 0 1 * d 1 0 - c 1 0 * d 0 1)) -
    a 0 1 * (b 0 0 * (c 1 0 * d 1 1 - c 1 1 * d 1 0) - b 1 0 * (c 0 0 * d 1 1 - c 1 1 * d 0 0) +
      b 1 1 * (c 0 0 * d 1 0 - c 1 0 * d 0 0)) +
    a 1 0 * (b 0 0 * (c 0 1 * d 1 1 - c 1 1 * d 0 1) - b 0 1 * (c 0 0 * d 1 1 - c 1 1 * d 0 0) +
      b 1 1 * (c 0 0 * d 0 1 - c 0 1 * d 0 0)) -
    a 1 1 * (b 0 0 * (c 0 1 * d 1 0 - c 1 0 * d 0 1) - b 0 1 * (c 0 0 * d 1 0 - c 1 0 * d 0 0) +
      b 1 0 * (c 0 0 * d 0 1 - c 0 1 * d 0 0)) := by
  rw [SpecTr5, det4]; rfl

theorem specTr5_eq (a b c d : M2 K) :
    SpecTr5 ![a, b, c, d] = trace (flip2 a * b * flip2 c * d) - trace (a * flip2 b * c * flip2 d) := by
  rw [specTr5_expand, flip2_eq, flip2_eq, flip2_eq, flip2_eq]
  simp only [trace_fin_two, Matrix.mul_apply, Fin.sum_univ_two, Matrix.of_apply, Matrix.cons_val_zero,
    Matrix.cons_val_one, Matrix.cons_val]
  ring

/-- Momentum of a slot. -/
def slotMom (ps : Point K n) (s : Slot n) : M2 K := slotMat Particle.r2 ps s

/-- Every particle in the slot is consistent. -/
def SlotOk (c : Ctx K) (ps : Point K n) (s : Slot n) : Prop := ∀ b l, (b, l) ∈ s → Consistent c (ps l)

theorem slot_bar {c : Ctx K} {ps : Point K n} {s : Slot n} (h : SlotOk c ps s) :
    slotMat Particle.r2b ps s = flip2 (slotMom ps s) := (flip2_slot h false).symm

theorem tr5_core (c : Ctx K) (ps : Point K n) {a : Fin n} {r l : V2 K} (ha : IsMassless c (ps a) r l)
    (x y z : Slot n) (hx : SlotOk c ps x) (hy : SlotOk c ps y) (hz : SlotOk c ps z) :
    ∃ u v, computeNB ps '[' a [x, y, z] a '⟩' = .ok u ∧ computeNB ps '⟨' a [x, y, z] a ']' = .ok v ∧
      u - v = SpecTr5 ![(ps a).r2, slotMom ps x, slotMom ps y, slotMom ps z] := by
  obtain ⟨-, h2, -, h4⟩ := computeNB_ok c ps ha.toHasSpinors ha.toHasSpinors [x, y, z]
  refine ⟨_, _, h4 (by simp), h2 (by simp), ?_⟩
  rw [specTr5_eq]
  have e1 : ∀ M : M2 K, bil l M r = trace (flip2 (ps a).r2 * M) := by
    intro M
    rw [ha.cons.r2_eq, flip2_flip2, ha.r2b, trace_fin_two]
    simp [bil_eq, Matrix.mul_apply, Fin.sum_univ_two, outer_apply]; ring
  have e2 : ∀ M : M2 K, bil ![r 1, -r 0] M ![l 1, -l 0] = trace ((ps a).r2 * M) := by
    intro M
    rw [ha.r2, trace_fin_two]
    simp [bil_eq, Matrix.mul_apply, Fin.sum_univ_two, outer_apply]; ring
  rw [e1, e2]
  simp only [chain, mul_one, slot_bar hx, slot_bar hy, slot_bar hz, mul_assoc]
  rfl

/-- `tr5` with a one-digit massless label in the first slot. -/
theorem tr5_value (c : Ctx K) (ps : Point K n) {a : Fin n} {r l : V2 K} (ha : IsMassless c (ps a) r l)
    (h10 : (a : ℕ) + 1 < 10) (x y z : Slot n) (hx : SlotOk c ps x) (hy : SlotOk c ps y)
    (hz : SlotOk c ps z) :
    computeTr5 ps [(true, a)] x y z =
      .ok (SpecTr5 ![(ps a).r2, slotMom ps x, slotMom ps y, slotMom ps z]) := by
  obtain ⟨u, v, hu, hv, e⟩ := tr5_core c ps ha x y z hx hy hz
  have : oneChar [(true, a)] = true := by simp [oneChar, h10]
  unfold computeTr5
  simp only [tr5Rotate, this, if_true, hu, hv, e]

/-- The slot of a single label. -/
def single (a : Fin n) : Slot n := [(true, a)]

theorem slotMom_single (ps : Point K n) (a : Fin n) : slotMom ps (single a) = (ps a).r2 := by
  simp [slotMom, single, slotMat]

/-- C23: on one-digit massless labels, tr5 is totally antisymmetric. -/
theorem C23_antisymmetric (c : Ctx K) (ps : Point K n) (q : Fin 4 → Fin n) (r l : Fin 4 → V2 K)
    (hq : ∀ i, IsMassless c (ps (q i)) (r i) (l i)) (h10 : ∀ i, (q i : ℕ) + 1 < 10)
    (σ : Equiv.Perm (Fin 4)) :
    ∃ x, computeTr5 ps (single (q 0)) (single (q 1)) (single (q 2)) (single (q 3)) = .ok x ∧
      computeTr5 ps (single (q (σ 0))) (single (q (σ 1))) (single (q (σ 2))) (single (q (σ 3))) =
        .ok ((Equiv.Perm.sign σ : ℤ) * x) := by
  have key : ∀ p : Fin 4 → Fin 4, computeTr5 ps (single (q (p 0))) (single (q (p 1)))
      (single (q (p 2))) (single (q (p 3))) = .ok (SpecTr5 fun i => (ps (q (p i))).r2) := by
    intro p
    have ok : ∀ i, SlotOk c ps (single (q i)) := by
      intro i b k hk
      simp only [single, List.mem_singleton, Prod.mk.injEq] at hk
      rw [hk.2]; exact (hq i).cons
    rw [single, tr5_value c ps (hq (p 0)) (h10 _) _ _ _ (ok _) (ok _) (ok _)]
    simp only [slotMom_single]
    congr 2
    funext i; fin_cases i <;> rfl
  refine ⟨_, key id, ?_⟩
  rw [key σ]
  congr 1
  have := det_permute σ (Matrix.of fun i => row4 (ps (q i)).r2)
  exact this

/-- C23: with a one-digit massless label in the first slot, tr5 is additive in every other slot,
and antisymmetric under exchanging any two of the others; these may be sums of labels, of massive
particles too. What is missing for the full claim is the first slot, where it fails (see
`C23_rotation_flips_sign`). -/
theorem C23_linear_partial (c : Ctx K) (ps : Point K n) {a : Fin n} {r l : V2 K}
    (ha : IsMassless c (ps a) r l) (h10 : (a : ℕ) + 1 < 10) (x x' y z : Slot n)
    (hx : SlotOk c ps x) (hx' : SlotOk c ps x') (hy : SlotOk c ps y) (hz : SlotOk c ps z) :
    ∃ u v w, computeTr5 ps (single a) x y z = .ok u ∧ computeTr5 ps (single a) x' y z = .ok v ∧
      computeTr5 ps (single a) (x ++ x') y z = .ok (u + v) ∧
      computeTr5 ps (single a) y x z = .ok (-u) ∧ computeTr5 ps (single a) x z y = .ok (-u) ∧
      computeTr5 ps (single a) z y x = .ok (-u) ∧
      computeTr5 ps (single a) x x z = .ok 0 ∧ computeTr5 ps (single a) (x ++ [(false, a)]) y z = .ok u
      ∧ computeTr5 ps (single a) y z x = .ok w ∧ w = u := by
  have hxx : SlotOk c ps (x ++ x') := fun b k hk => (List.mem_append.mp hk).elim (hx b k) (hx' b k)
  have hxa : SlotOk c ps (x ++ [(false, a)]) := fun b k hk => (List.mem_append.mp hk).elim (hx b k)
    (fun h => by
      simp only [List.mem_singleton, Prod.mk.injEq] at h
      rw [h.2]; exact ha.cons)
  have V := fun s t u hs ht hu => tr5_value c ps ha h10 s t u hs ht hu
  simp only [← single.eq_1] at V
  refine ⟨_, _, _, V _ _ _ hx hy hz, V _ _ _ hx' hy hz, ?_, ?_, ?_, ?_, ?_, ?_, V _ _ _ hy hz hx, ?_⟩
  · rw [V _ _ _ hxx hy hz, specTr5_eq, specTr5_eq, specTr5_eq]
    have : slotMom ps (x ++ x') = slotMom ps x + slotMom ps x' := slotMat_append _ _ _ _
    rw [this, flip2_add]
    simp only [mul_add, add_mul, trace_add]
    congr 1; ring
  · rw [V _ _ _ hy hx hz]
    congr 1
    simp only [specTr5_expand, Matrix.add_apply, Matrix.sub_apply]; ring
  · rw [V _ _ _ hx hz hy]
    congr 1
    simp only [specTr5_expand, Matrix.add_apply, Matrix.sub_apply]; ring
  · rw [V _ _ _ hz hy hx]
    congr 1
    simp only [specTr5_expand, Matrix.add_apply, Matrix.sub_apply]; ring
  · rw [V _ _ _ hx hx hz]
    congr 1
    simp only [specTr5_expand, Matrix.add_apply, Matrix.sub_apply]; ring
  · rw [V _ _ _ hxa hy hz]
    congr 1
    have : slotMom ps (x ++ [(false, a)]) = slotMom ps x - (ps a).r2 := by
      rw [slotMom, slotMat_append, slotMom, sub_eq_add_neg]
      simp [slotMat]
    rw [this]
    simp only [specTr5_expand, Matrix.add_apply, Matrix.sub_apply]; ring
  · simp only [specTr5_expand, Matrix.add_apply, Matrix.sub_apply]; ring

/-- C23 (finding): if the first slot is not a one-digit label, the slots are rotated until one
is, which is an odd permutation for one and three steps and the sign is not corrected. So the
value is minus tr5 of the momenta as written when the first one-digit label is in the second
slot. -/
theorem C23_rotation_flips_sign (c : Ctx K) (ps : Point K n) {a : Fin n} {r l : V2 K}
    (ha : IsMassless c (ps a) r l) (h10 : (a : ℕ) + 1 < 10) (w y z : Slot n) (hw1 : oneChar w = false)
    (hw : SlotOk c ps w) (hy : SlotOk c ps y) (hz : SlotOk c ps z) :
    computeTr5 ps w (single a) y z =
      .ok (-SpecTr5 ![slotMom ps w, (ps a).r2, slotMom ps y, slotMom ps z]) ∧
    (oneChar y = false → computeTr5 ps w y (single a) z =
      .ok (SpecTr5 ![slotMom ps w, slotMom ps y, (ps a).r2, slotMom ps z])) ∧
    (oneChar y = false → oneChar z = false → computeTr5 ps w y z (single a) =
      .ok (-SpecTr5 ![slotMom ps w, slotMom ps y, slotMom ps z, (ps a).r2])) := by
  have hone : oneChar [(true, a)] = true := by simp [oneChar, h10]
  refine ⟨?_, fun hy1 => ?_, fun hy1 hz1 => ?_⟩
  · obtain ⟨u, v, hu, hv, e⟩ := tr5_core c ps ha y z w hy hz hw
    unfold computeTr5
    simp only [tr5Rotate, single, hone, hw1, if_true, hu, hv, e]
    simp only [Bool.false_eq_true, if_false, hu, hv, e]
    simp only [specTr5_expand]
    congr 1; ring
  · obtain ⟨u, v, hu, hv, e⟩ := tr5_core c ps ha z w y hz hw hy
    unfold computeTr5
    simp only [tr5Rotate, single, hone, hw1, hy1, if_true, hu, hv, e]
    simp only [Bool.false_eq_true, if_false, hu, hv, e]
    simp only [specTr5_expand]
    congr 1; ring
  · obtain ⟨u, v, hu, hv, e⟩ := tr5_core c ps ha w y z hw hy hz
    unfold computeTr5
    simp only [tr5Rotate, single, hone, hw1, hy1, hz1, if_true, hu, hv, e]
    simp only [Bool.false_eq_true, if_false, hu, hv, e]
    simp only [specTr5_expand]
    congr 1; ring

/-- C23 (finding): hence tr5 is not additive in its first slot: a sum of two massless labels gives
minus the sum of the two values. -/
theorem C23_first_slot_not_additive (c : Ctx K) (ps : Point K n) {a b d : Fin n} {ra la rb lb rd ld : V2 K}
    (ha : IsMassless c (ps a) ra la) (hb : IsMassless c (ps b) rb lb) (hd : IsMassless c (ps d) rd ld)
    (ha10 : (a : ℕ) + 1 < 10) (hb10 : (b : ℕ) + 1 < 10) (hd10 : (d : ℕ) + 1 < 10) (y z : Slot n)
    (hy : SlotOk c ps y) (hz : SlotOk c ps z) :
    ∃ u v, computeTr5 ps (single a) (single d) y z = .ok u ∧
      computeTr5 ps (single b) (single d) y z = .ok v ∧
      computeTr5 ps (single a ++ single b) (single d) y z = .ok (-(u + v)) := by
  have ok : ∀ {k : Fin n}, Consistent c (ps k) → SlotOk c ps (single k) := by
    intro k hk b' k' h
    simp only [single, List.mem_singleton, Prod.mk.injEq] at h
    rw [h.2]; exact hk
  have hab : SlotOk c ps (single a ++ single b) := fun b' k hk =>
    (List.mem_append.mp hk).elim (ok ha.cons b' k) (ok hb.cons b' k)
  refine ⟨_, _, tr5_value c ps ha ha10 _ _ _ (ok hd.cons) hy hz,
    tr5_value c ps hb hb10 _ _ _ (ok hd.cons) hy hz, ?_⟩
  rw [(C23_rotation_flips_sign c ps hd hd10 (single a ++ single b) y z rfl hab hy hz).1]
  have : slotMom ps (single a ++ single b) = (ps a).r2 + (ps b).r2 := by
    rw [← slotMom_single ps a, ← slotMom_single ps b]; exact slotMat_append _ _ _ _
  rw [this, slotMom_single]
  congr 1
  simp only [specTr5_expand, Matrix.add_apply, Matrix.sub_apply]; ring

/-- C23 (finding): labels of two digits are never taken for massless ones, so tr5 of four of them
is refused. -/
theorem C23_two_digit_labels_refused (ps : Point K n) (a b d e : Fin n) (ha : 10 ≤ (a : ℕ) + 1)
    (hb : 10 ≤ (b : ℕ) + 1) (hd : 10 ≤ (d : ℕ) + 1) (he : 10 ≤ (e : ℕ) + 1) :
    computeTr5 ps (single a) (single b) (single d) (single e) = .error .notImplemented := by
  have one : ∀ k : Fin n, 10 ≤ (k : ℕ) + 1 → oneChar (single k) = false := by
    intro k hk
    simp only [single, oneChar, decide_eq_false_iff_not]
    exact Nat.not_lt.mpr hk
  simp [computeTr5, tr5Rotate, one a ha, one b hb, one d hd, one e he]

/-! ### C24 -/

/-- `2 p.q` for bispinors. -/
def dd (x y : M2 K) : K := x 0 0 * y 1 1 + x 1 1 * y 0 0 - x 0 1 * y 1 0 - x 1 0 * y 0 1

theorem dd_add_left (x y z : M2 K) : dd (x + y) z = dd x z + dd y z := by
  simp only [dd, Matrix.add_apply]; ring

theorem dd_comm (x y : M2 K) : dd x y = dd y x := by simp only [dd]; ring

theorem dd_neg_left (x z : M2 K) : dd (-x) z = -dd x z := by
  simp only [dd, Matrix.neg_apply]; ring

theorem dd_self (x : M2 K) : dd x x = 2 * SpecSq x := by simp only [dd, SpecSq]; ring

theorem specSq_neg (x : M2 K) : SpecSq (-x) = SpecSq x := by
  simp only [SpecSq, Matrix.neg_apply]; ring

theorem specSq_add (x y : M2 K) : SpecSq (x + y) = SpecSq x + SpecSq y + dd x y := by
  simp only [dd, SpecSq, Matrix.add_apply]; ring

/-- The square of tr5 is the Gram determinant of the four momenta. -/
theorem specTr5_sq (m : Fin 4 → M2 K) :
    SpecTr5 m ^ 2 = Matrix.det (Matrix.of fun i j => dd (m i) (m j)) := by
  have e : (Matrix.of fun i j => dd (m i) (m j)) =
      (Matrix.of fun i => row4 (m i)) * (!![0, 0, 0, 1; 0, 0, -1, 0; 0, -1, 0, 0; 1, 0, 0, 0] : Matrix (Fin 4) (Fin 4) K) *
        (Matrix.of fun i => row4 (m i))ᵀ := by
    ext i j
    simp [Matrix.mul_apply, Fin.sum_univ_four, row4, dd]; ring
  have d1 : Matrix.det (!![0, 0, 0, 1; 0, 0, -1, 0; 0, -1, 0, 0; 1, 0, 0, 0] : Matrix (Fin 4) (Fin 4) K) = 1 := by
    rw [det4]; simp
  rw [e, det_mul, det_mul, det_transpose, d1, SpecTr5]; ring

theorem gram4 (s12 s13 s14 s23 s24 s34 : K) :
    Matrix.det !![0, s12, s13, s14; s12, 0, s23, s24; s13, s23, 0, s34; s14, s24, s34, 0] =
      s12 ^ 2 * s34 ^ 2 + s13 ^ 2 * s24 ^ 2 + s14 ^ 2 * s23 ^ 2 - 2 * s12 * s34 * s13 * s24 -
        2 * s12 * s34 * s14 * s23 - 2 * s13 * s24 * s14 * s23 := by
  rw [det4]
  simp only [Matrix.of_apply, Matrix.cons_val_zero, Matrix.cons_val_one, Matrix.cons_val]; ring

/-- C24 for the labels in any order: δ5 written with those labels is the square of tr5. -/
theorem delta5_sq (ps : Point K 5) (hm : ∀ k, Massless (ps k)) (hc : Conserves ps)
    (σ : Equiv.Perm (Fin 5)) :
    computeD5 ps (σ 0) (σ 1) (σ 2) (σ 3) (σ 4) =
      SpecTr5 ![(ps (σ 0)).r2, (ps (σ 1)).r2, (ps (σ 2)).r2, (ps (σ 3)).r2] ^ 2 := by
  have hsq : ∀ k, SpecSq (ps k).r2 = 0 := by
    intro k; rw [specSq_det]; exact (massless_iff _).mp (hm k)
  have hself : ∀ k, dd (ps k).r2 (ps k).r2 = 0 := by intro k; rw [dd_self, hsq, mul_zero]
  have hs : ∀ i j : Fin 5, computeS ps [i, j] = dd (ps i).r2 (ps j).r2 := by
    intro i j
    rw [computeS_eq, sumR2_cons, sumR2_cons, specSq_add, hsq]
    simp [sumR2, hsq]
  have htot : (ps (σ 0)).r2 + (ps (σ 1)).r2 + (ps (σ 2)).r2 + (ps (σ 3)).r2 + (ps (σ 4)).r2 = 0 := by
    have := (conserves_iff ps).mp hc
    rw [totalMom, ← Equiv.sum_comp σ, Fin.sum_univ_five] at this
    exact this
  have hz : ∀ i : Fin 5, dd (ps (σ 0)).r2 (ps i).r2 + dd (ps (σ 1)).r2 (ps i).r2 +
      dd (ps (σ 2)).r2 (ps i).r2 + dd (ps (σ 3)).r2 (ps i).r2 + dd (ps (σ 4)).r2 (ps i).r2 = 0 := by
    intro i
    rw [← dd_add_left, ← dd_add_left, ← dd_add_left, ← dd_add_left, htot]
    simp [dd]
  rw [specTr5_sq]
  have hM : (Matrix.of fun i j => dd ((![(ps (σ 0)).r2, (ps (σ 1)).r2, (ps (σ 2)).r2, (ps (σ 3)).r2] : Fin 4 → M2 K) i)
      ((![(ps (σ 0)).r2, (ps (σ 1)).r2, (ps (σ 2)).r2, (ps (σ 3)).r2] : Fin 4 → M2 K) j)) =
      !![0, dd (ps (σ 0)).r2 (ps (σ 1)).r2, dd (ps (σ 0)).r2 (ps (σ 2)).r2, dd (ps (σ 0)).r2 (ps (σ 3)).r2;
        dd (ps (σ 0)).r2 (ps (σ 1)).r2, 0, dd (ps (σ 1)).r2 (ps (σ 2)).r2, dd (ps (σ 1)).r2 (ps (σ 3)).r2;
        dd (ps (σ 0)).r2 (ps (σ 2)).r2, dd (ps (σ 1)).r2 (ps (σ 2)).r2, 0, dd (ps (σ 2)).r2 (ps (σ 3)).r2;
        dd (ps (σ 0)).r2 (ps (σ 3)).r2, dd (ps (σ 1)).r2 (ps (σ 3)).r2, dd (ps (σ 2)).r2 (ps (σ 3)).r2, 0] := by
    ext i j
    fin_cases i <;> fin_cases j <;>
      simp only [Matrix.of_apply] <;> first | exact hself _ | rfl | exact dd_comm _ _
  rw [hM, gram4]
  simp only [computeD5, hs]
  have h3 := hz (σ 3)
  have hA : dd (ps (σ 3)).r2 (ps (σ 4)).r2 = dd (ps (σ 0)).r2 (ps (σ 1)).r2 +
      dd (ps (σ 0)).r2 (ps (σ 2)).r2 + dd (ps (σ 1)).r2 (ps (σ 2)).r2 := by
    have e : (ps (σ 3)).r2 + (ps (σ 4)).r2 = -((ps (σ 0)).r2 + (ps (σ 1)).r2 + (ps (σ 2)).r2) := by
      rw [eq_neg_iff_add_eq_zero, ← htot]; abel
    have := congrArg SpecSq e
    rw [specSq_add, specSq_neg, specSq_add, specSq_add, dd_add_left] at this
    simp only [hsq] at this
    linear_combination this
  have hB : dd (ps (σ 4)).r2 (ps (σ 0)).r2 = dd (ps (σ 1)).r2 (ps (σ 2)).r2 +
      dd (ps (σ 1)).r2 (ps (σ 3)).r2 + dd (ps (σ 2)).r2 (ps (σ 3)).r2 := by
    have e : (ps (σ 4)).r2 + (ps (σ 0)).r2 = -((ps (σ 1)).r2 + (ps (σ 2)).r2 + (ps (σ 3)).r2) := by
      rw [eq_neg_iff_add_eq_zero, ← htot]; abel
    have := congrArg SpecSq e
    rw [specSq_add, specSq_neg, specSq_add, specSq_add, dd_add_left] at this
    simp only [hsq] at this
    linear_combination this
  simp only [hself] at h3
  rw [dd_comm (ps (σ 4)).r2 (ps (σ 3)).r2] at h3
  generalize dd (ps (σ 0)).r2 (ps (σ 1)).r2 = s12 at *
  generalize dd (ps (σ 0)).r2 (ps (σ 2)).r2 = s13 at *
  generalize dd (ps (σ 0)).r2 (ps (σ 3)).r2 = s14 at *
  generalize dd (ps (σ 1)).r2 (ps (σ 2)).r2 = s23 at *
  generalize dd (ps (σ 1)).r2 (ps (σ 3)).r2 = s24 at *
  generalize dd (ps (σ 2)).r2 (ps (σ 3)).r2 = s34 at *
  generalize dd (ps (σ 4)).r2 (ps (σ 0)).r2 = s51 at *
  generalize dd (ps (σ 3)).r2 (ps (σ 4)).r2 = s45 at *
  obtain rfl : s13 = s45 - s12 - s23 := by linear_combination -hA
  obtain rfl : s24 = s51 - s23 - s34 := by linear_combination -hB
  obtain rfl : s14 = s23 - s45 - s51 := by linear_combination h3
  ring

/-- C24: δ5 is the square of tr5 of any four of the five labels, in any order. -/
theorem C24_delta5_is_tr5_squared (c : Ctx K) (ps : Point K 5) (r l : Fin 5 → V2 K)
    (hm : ∀ k, IsMassless c (ps k) (r k) (l k)) (hc : Conserves ps) (σ : Equiv.Perm (Fin 5)) :
    ∃ x, computeTr5 ps (single (σ 0)) (single (σ 1)) (single (σ 2)) (single (σ 3)) = .ok x ∧
      computeD5 ps 0 1 2 3 4 = x ^ 2 := by
  have ok : ∀ k, SlotOk c ps (single k) := by
    intro k b' k' h
    simp only [single, List.mem_singleton, Prod.mk.injEq] at h
    rw [h.2]; exact (hm k).cons
  have h10 : ((σ 0 : Fin 5) : ℕ) + 1 < 10 := by omega
  refine ⟨_, tr5_value c ps (hm (σ 0)) h10 _ _ _ (ok _) (ok _) (ok _), ?_⟩
  simp only [slotMom_single]
  rw [← delta5_sq ps (fun k => (hm k).massless) hc σ]
  -- the right-hand side does not depend on σ: adjacent transpositions generate
  have htot : ∀ τ : Equiv.Perm (Fin 5),
      (ps (τ 4)).r2 = -((ps (τ 0)).r2 + (ps (τ 1)).r2 + (ps (τ 2)).r2 + (ps (τ 3)).r2) := by
    intro τ
    have := (conserves_iff ps).mp hc
    rw [totalMom, ← Equiv.sum_comp τ, Fin.sum_univ_five] at this
    rw [eq_neg_iff_add_eq_zero, ← this]; abel
  have D := delta5_sq ps (fun k => (hm k).massless) hc
  have step : ∀ (τ : Equiv.Perm (Fin 5)) (i : Fin 4),
      SpecTr5 ![(ps ((τ * Equiv.swap i.castSucc i.succ) 0)).r2,
        (ps ((τ * Equiv.swap i.castSucc i.succ) 1)).r2, (ps ((τ * Equiv.swap i.castSucc i.succ) 2)).r2,
        (ps ((τ * Equiv.swap i.castSucc i.succ) 3)).r2] =
      -SpecTr5 ![(ps (τ 0)).r2, (ps (τ 1)).r2, (ps (τ 2)).r2, (ps (τ 3)).r2] := by
    intro τ i
    have w : ∀ k, (Equiv.swap i.castSucc i.succ) k = if k = i.castSucc then i.succ else
        if k = i.succ then i.castSucc else k := fun k => rfl
    have h4 := htot τ
    fin_cases i
    · show SpecTr5 ![(ps (τ 1)).r2, (ps (τ 0)).r2, (ps (τ 2)).r2, (ps (τ 3)).r2] = _
      simp only [specTr5_expand]; ring
    · show SpecTr5 ![(ps (τ 0)).r2, (ps (τ 2)).r2, (ps (τ 1)).r2, (ps (τ 3)).r2] = _
      simp only [specTr5_expand]; ring
    · show SpecTr5 ![(ps (τ 0)).r2, (ps (τ 1)).r2, (ps (τ 3)).r2, (ps (τ 2)).r2] = _
      simp only [specTr5_expand]; ring
    · show SpecTr5 ![(ps (τ 0)).r2, (ps (τ 1)).r2, (ps (τ 2)).r2, (ps (τ 4)).r2] = _
      rw [h4]
      simp only [specTr5_expand, Matrix.neg_apply, Matrix.add_apply]; ring
  have inv : ∀ τ : Equiv.Perm (Fin 5),
      SpecTr5 ![(ps (τ 0)).r2, (ps (τ 1)).r2, (ps (τ 2)).r2, (ps (τ 3)).r2] ^ 2 =
      SpecTr5 ![(ps 0).r2, (ps 1).r2, (ps 2).r2, (ps 3).r2] ^ 2 := by
    intro τ
    have hτ : τ ∈ Submonoid.closure (Set.range fun i : Fin 4 => Equiv.swap i.castSucc i.succ) := by
      rw [Equiv.Perm.mclosure_swap_castSucc_succ]; trivial
    induction hτ using Submonoid.closure_induction_right with
    | one => rfl
    | mul_right x hx y hy ih =>
      obtain ⟨i, rfl⟩ := hy
      simp only
      rw [step, neg_sq, ih]
  rw [D σ, inv σ]
  exact D 1

/-! ### C25 -/

/-- Källén function. -/
def SpecKallen (x y z : K) : K := x ^ 2 + y ^ 2 + z ^ 2 - 2 * x * y - 2 * y * z - 2 * z * x

theorem gram_apply [NeZero (2 : K)] (c : Ctx K) (ps : Point K n) (hps : ∀ k, Consistent c (ps k)) (m : ℕ)
    (corner : Fin m → List (Fin n)) (i j : Fin m) :
    gram ps m corner i j = SpecDot (sumR2 ps (corner i)) (sumR2 ps (corner j)) := by
  rw [gram, Matrix.of_apply, sumR2b_eq ps _ (fun l _ => hps l), trace_flip2_mul]

/-- C25: for three corners whose momenta add up to zero, `4Δ` is the Källén function of the three
squared momenta, `Δ = (P₁.P₂)² - P₁² P₂²`, and the shorthand gives the same number. -/
theorem C25_kallen [NeZero (2 : K)] (c : Ctx K) (ps : Point K n) (hps : ∀ k, Consistent c (ps k))
    (corner : Fin 3 → List (Fin n))
    (hsum : sumR2 ps (corner 0) + sumR2 ps (corner 1) + sumR2 ps (corner 2) = 0) :
    4 * computeDelta ps 1 corner = SpecKallen (computeS ps (corner 0)) (computeS ps (corner 1))
      (computeS ps (corner 2)) ∧
    computeDelta ps 1 corner = SpecDot (sumR2 ps (corner 0)) (sumR2 ps (corner 1)) ^ 2 -
      SpecSq (sumR2 ps (corner 0)) * SpecSq (sumR2 ps (corner 1)) ∧
    computeDeltaShort ps (corner 0) (corner 1) = computeDelta ps 1 corner := by
  have h2 : (2 : K) ≠ 0 := NeZero.ne 2
  have hdot : ∀ x : M2 K, SpecDot x x = SpecSq x := by
    intro x; rw [SpecDot, div_eq_iff h2, SpecSq]; ring
  have hcomm : ∀ x y : M2 K, SpecDot x y = SpecDot y x := by
    intro x y; simp only [SpecDot]; ring
  have e : computeDelta ps 1 corner = SpecDot (sumR2 ps (corner 0)) (sumR2 ps (corner 1)) ^ 2 -
      SpecSq (sumR2 ps (corner 0)) * SpecSq (sumR2 ps (corner 1)) := by
    rw [computeDelta, pyDet_two]
    simp only [SpecSq, submatrix_apply]
    have c0 : Fin.castSucc (0 : Fin 2) = (0 : Fin 3) := rfl
    have c1 : Fin.castSucc (1 : Fin 2) = (1 : Fin 3) := rfl
    rw [c0, c1, gram_apply c ps hps, gram_apply c ps hps, gram_apply c ps hps, gram_apply c ps hps,
      hdot, hdot, hcomm (sumR2 ps (corner 1)) (sumR2 ps (corner 0))]
    simp only [SpecSq]; ring
  refine ⟨?_, e, ?_⟩
  · have e2 : sumR2 ps (corner 2) = -(sumR2 ps (corner 0) + sumR2 ps (corner 1)) := by
      rw [eq_neg_iff_add_eq_zero, ← hsum]; abel
    rw [e, computeS_eq, computeS_eq, computeS_eq, e2, specSq_neg, specSq_add]
    have : dd (sumR2 ps (corner 0)) (sumR2 ps (corner 1)) =
        2 * SpecDot (sumR2 ps (corner 0)) (sumR2 ps (corner 1)) := by
      rw [SpecDot, mul_div_cancel₀ _ h2, dd]
    rw [this, SpecKallen]; ring
  · rw [e, computeDeltaShort, sumR2b_eq ps _ (fun l _ => hps l), trace_flip2_mul, pyDet_two, pyDet_two]
    congr 2
    rw [specSq_det, specSq_det, det_flip2]

/-- Coefficients of the momenta of all corners in terms of all but the last. -/
def cornerE (m : ℕ) : Matrix (Fin (m + 1)) (Fin m) ℤ :=
  Matrix.of fun i k => Fin.lastCases (-1) (fun i' => if i' = k then 1 else 0) i

/-- The corresponding change of basis for a permutation of the corners. -/
def cornerT {m : ℕ} (σ : Equiv.Perm (Fin (m + 1))) : Matrix (Fin m) (Fin m) ℤ :=
  (cornerE m).submatrix (fun i => σ i.castSucc) id

theorem cornerE_castSucc (m : ℕ) (i k : Fin m) : cornerE m i.castSucc k = if i = k then 1 else 0 := by
  simp [cornerE]

theorem cornerE_last (m : ℕ) (k : Fin m) : cornerE m (Fin.last m) k = -1 := by simp [cornerE]

theorem cornerE_sum (m : ℕ) (k : Fin m) : ∑ i, cornerE m i k = 0 := by
  rw [Fin.sum_univ_castSucc]
  simp [cornerE_castSucc, cornerE_last]

theorem cornerE_mul {m : ℕ} (σ : Equiv.Perm (Fin (m + 1))) (i : Fin (m + 1)) (k : Fin m) :
    (cornerE m * cornerT σ) i k = cornerE m (σ i) k := by
  rw [Matrix.mul_apply]
  induction i using Fin.lastCases with
  | cast i => simp [cornerE_castSucc, cornerT]
  | last =>
    simp only [cornerE_last, cornerT, submatrix_apply, id]
    have := cornerE_sum m k
    rw [← Equiv.sum_comp σ, Fin.sum_univ_castSucc] at this
    rw [← Finset.mul_sum]
    linear_combination -this

theorem cornerT_inv {m : ℕ} (σ : Equiv.Perm (Fin (m + 1))) : cornerT σ * cornerT σ⁻¹ = 1 := by
  ext i k
  have : (cornerT σ * cornerT σ⁻¹) i k = (cornerE m * cornerT σ⁻¹) (σ i.castSucc) k := rfl
  rw [this, cornerE_mul]
  simp [cornerE_castSucc, Matrix.one_apply]

theorem cornerT_det_sq {m : ℕ} (σ : Equiv.Perm (Fin (m + 1))) : (cornerT σ).det ^ 2 = 1 := by
  have h : (cornerT σ).det * (cornerT σ⁻¹).det = 1 := by rw [← det_mul, cornerT_inv, det_one]
  rcases Int.isUnit_iff.mp (IsUnit.of_mul_eq_one _ h) with h | h <;> rw [h] <;> rfl

/-- C25: for any number of corners whose momenta add up to zero, Δ does not depend on the order of
the corners; in particular not on which one is written last and dropped. -/
theorem C25_permutation [NeZero (2 : K)] (c : Ctx K) (ps : Point K n) (hps : ∀ k, Consistent c (ps k))
    (m : ℕ) (corner : Fin (m + 2) → List (Fin n)) (hsum : ∑ i, sumR2 ps (corner i) = 0)
    (σ : Equiv.Perm (Fin (m + 2))) :
    computeDelta ps m (corner ∘ σ) = computeDelta ps m corner := by
  set T : Matrix (Fin (m + 1)) (Fin (m + 1)) K := (cornerT σ).map (Int.cast : ℤ → K) with hT
  have hdet : T.det ^ 2 = 1 := by
    have : T.det = ((cornerT σ).det : K) := by
      rw [hT]; exact ((Int.castRingHom K).map_det (cornerT σ)).symm
    rw [this, ← Int.cast_pow, cornerT_det_sq, Int.cast_one]
  -- momenta of the corners in terms of the first ones
  have lin : ∀ j, sumR2 ps (corner j) =
      ∑ k : Fin (m + 1), ((cornerE (m + 1) j k : ℤ) : K) • sumR2 ps (corner k.castSucc) := by
    intro j
    induction j using Fin.lastCases with
    | cast j => simp [cornerE_castSucc]
    | last =>
      rw [Fin.sum_univ_castSucc] at hsum
      simp only [cornerE_last, Int.cast_neg, Int.cast_one, neg_smul, one_smul, Finset.sum_neg_distrib]
      rw [eq_neg_iff_add_eq_zero, ← hsum, add_comm]
  have dsum_l : ∀ (f : Fin (m + 1) → K) (g : Fin (m + 1) → M2 K) (y : M2 K),
      SpecDot (∑ k, f k • g k) y = ∑ k, f k * SpecDot (g k) y := by
    intro f g y
    simp only [SpecDot, Matrix.sum_apply, Matrix.smul_apply, smul_eq_mul, Finset.sum_mul, ← Finset.sum_add_distrib,
      ← Finset.sum_sub_distrib, div_eq_mul_inv]
    exact Finset.sum_congr rfl fun k _ => by ring
  have hcomm : ∀ x y : M2 K, SpecDot x y = SpecDot y x := by
    intro x y; simp only [SpecDot]; ring
  have hG : (gram ps (m + 2) (corner ∘ σ)).submatrix Fin.castSucc Fin.castSucc =
      T * (gram ps (m + 2) corner).submatrix Fin.castSucc Fin.castSucc * Tᵀ := by
    ext i j
    rw [submatrix_apply, gram_apply c ps hps, Matrix.mul_apply]
    simp only [Function.comp, Matrix.mul_apply, submatrix_apply, gram_apply c ps hps, transpose_apply]
    rw [hcomm, lin (σ j.castSucc), dsum_l]
    refine Finset.sum_congr rfl fun k _ => ?_
    rw [hcomm, lin (σ i.castSucc), dsum_l, mul_comm]
    rfl
  rw [computeDelta, computeDelta, pyDet_eq_det, pyDet_eq_det, hG, det_mul, det_mul, det_transpose]
  linear_combination (-1) ^ (m + 2) * ((gram ps (m + 2) corner).submatrix Fin.castSucc Fin.castSucc).det * hdet

/-! ### C27 -/

/-- C27: the relations among Ω, Π, Δ and the Mandelstams, for a first arc of two massless labels
`a1, a2` and two more arcs covering the rest. -/
theorem C27_omega_pi [NeZero (2 : K)] (c : Ctx K) (ps : Point K n) (hps : ∀ k, Consistent c (ps k))
    (hc : Conserves ps) (a1 a2 : Fin n) (b d : List (Fin n)) (h1 : Massless (ps a1))
    (h2 : Massless (ps a2)) (hperm : ([a1, a2] ++ b ++ d).Perm (List.finRange n)) :
    ∃ om om' pi : K, computeOmega ps [a1, a2] b d = .ok om ∧ computeOmega ps [a2, a1] b d = .ok om' ∧
      computePi ps [a1, a2] d = .ok pi ∧
      (let T := computeS ps b + computeS ps d - computeS ps [a1, a2]
       let Δ := computeDeltaShort ps [a1, a2] b
       computeS ps (d ++ [a1]) + computeS ps (d ++ [a2]) = T ∧
       pi = 2 * computeS ps (d ++ [a1]) - T ∧ 2 * om = -4 * Δ - T * pi ∧ om + om' = -4 * Δ) := by
  have h20 : (2 : K) ≠ 0 := NeZero.ne 2
  have hsq1 : SpecSq (ps a1).r2 = 0 := by rw [specSq_det]; exact (massless_iff _).mp h1
  have hsq2 : SpecSq (ps a2).r2 = 0 := by rw [specSq_det]; exact (massless_iff _).mp h2
  have htot : (ps a1).r2 + (ps a2).r2 + sumR2 ps b + sumR2 ps d = 0 := by
    have := (conserves_iff ps).mp hc
    rw [← sumR2_finRange, ← sumR2_perm ps hperm, sumR2_append, sumR2_append, sumR2_cons, sumR2_cons] at this
    simpa [sumR2] using this
  have hA : sumR2 ps [a1, a2] = (ps a1).r2 + (ps a2).r2 := by simp [sumR2]
  have hA' : sumR2 ps [a2, a1] = (ps a1).r2 + (ps a2).r2 := by simp [sumR2, add_comm]
  have hD1 : sumR2 ps (d ++ [a1]) = sumR2 ps d + (ps a1).r2 := by rw [sumR2_append]; simp [sumR2]
  have hD2 : sumR2 ps (d ++ [a2]) = sumR2 ps d + (ps a2).r2 := by rw [sumR2_append]; simp [sumR2]
  have hb : sumR2 ps b = -((ps a1).r2 + (ps a2).r2 + sumR2 ps d) := by
    rw [eq_neg_iff_add_eq_zero, ← htot]; abel
  refine ⟨_, _, _, rfl, rfl, rfl, ?_⟩
  simp only [computeS_eq, hA, hA', hD1, hD2, computeDeltaShort, sumR2b_eq ps b (fun l _ => hps l),
    trace_flip2_mul, pyDet_two]
  have hf : SpecSq (flip2 (sumR2 ps b)) = SpecSq (sumR2 ps b) := by
    rw [specSq_det, specSq_det, det_flip2]
  have hdot : SpecDot ((ps a1).r2 + (ps a2).r2) (sumR2 ps b) =
      dd ((ps a1).r2 + (ps a2).r2) (sumR2 ps b) / 2 := rfl
  rw [hf, hdot, hb]
  generalize sumR2 ps d = D at *
  have n1 : ∀ x y : M2 K, dd x (-y) = -dd x y := by intro x y; simp only [dd, Matrix.neg_apply]; ring
  have n2 : ∀ x y z : M2 K, dd x (y + z) = dd x y + dd x z := by
    intro x y z; simp only [dd, Matrix.add_apply]; ring
  simp only [specSq_neg, specSq_add, n1, n2, dd_add_left, hsq1, hsq2, dd_self, dd_comm D, dd_comm (ps a2).r2 (ps a1).r2]
  refine ⟨by ring, by ring, ?_, ?_⟩
  · field_simp; ring
  · field_simp; ring

end Lips

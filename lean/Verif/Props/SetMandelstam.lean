import Verif.Props.SetString
import Verif.Props.Gram
import Verif.Props.Cluster

/-! Properties C64 and C65: setting Mandelstam invariants and three-corner Gram determinants. -/

namespace Lips

open Matrix

set_option linter.unusedSectionVars false

variable {K : Type*} [Field K] {n : ℕ}

/-! ### C64 -/

/-- `⟨i|Q|i]` is twice the product of the momentum of `i` with `Q`. -/
theorem bil_dd {r l : V2 K} (Q : M2 K) :
    bil ![r 1, -r 0] (flip2 Q) ![l 1, -l 0] = dd (outer ![l 1, -l 0] ![r 1, -r 0]) Q := by
  rw [flip2_eq, bil_eq]
  simp only [dd, outer_apply, Matrix.cons_val_zero, Matrix.cons_val_one, Matrix.of_apply]
  ring

theorem bil_dd' {r l : V2 K} (Q : M2 K) : bil l Q r = dd (outer ![l 1, -l 0] ![r 1, -r 0]) Q := by
  rw [bil_eq]
  simp only [dd, outer_apply, Matrix.cons_val_zero, Matrix.cons_val_one]
  ring

theorem slotMat_plusOf (ps : Point K n) (ls : List (Fin n)) : slotMat Particle.r2 ps (plusOf ls) = sumR2 ps ls := by
  simp [slotMat, plusOf, sumR2, Function.comp_def]

theorem slotMat_plusOf_bar {c : Ctx K} (ps : Point K n) (ls : List (Fin n)) (h : ∀ k, Consistent c (ps k)) :
    slotMat Particle.r2b ps (plusOf ls) = flip2 (sumR2 ps ls) := by
  rw [← sumR2b_eq ps ls (fun k _ => h k)]
  simp [slotMat, plusOf, sumR2b, Function.comp_def]

/-- The string that is set in mode 1 or 2. -/
def sString (i : Fin n) (rest : List (Fin n)) (mode : ℕ) : Str n :=
  if mode = 1 then ⟨'⟨', i, [rest], i, ']'⟩ else ⟨'[', i, [rest], i, '⟩'⟩

theorem sString_wf (i : Fin n) (rest : List (Fin n)) (mode : ℕ) : (sString i rest mode).Wf := by
  unfold sString; split
  · exact Or.inl ⟨rfl, rfl⟩
  · exact Or.inr ⟨rfl, rfl⟩

/-- `s_{i...}` is `⟨i|...|i]` and what the other labels give. -/
theorem sString_value {c : Ctx K} {ps : Point K n} {r l : Fin n → V2 K} (h : Spin c ps r l) (i : Fin n)
    (rest : List (Fin n)) (mode : ℕ) :
    (sString i rest mode).value ps = .ok (computeS ps (i :: rest) - computeS ps rest) := by
  rw [Str.value_eq h (sString_wf i rest mode)]
  have e : computeS ps (i :: rest) - computeS ps rest =
      dd (outer ![l i 1, -l i 0] ![r i 1, -r i 0]) (sumR2 ps rest) := by
    rw [computeS_eq, computeS_eq, sumR2_cons, specSq_add, (h i).r2]
    simp only [SpecSq, outer_apply, Matrix.cons_val_zero, Matrix.cons_val_one]; ring
  rw [e]
  unfold sString
  split
  · simp only [headSp, tailSp, List.map_cons, List.map_nil, decide_true, if_true]
    rw [chain_single, if_neg (by decide), ← bil_dd, ← slotMat_plusOf_bar ps rest (fun k => (h k).cons)]
    rfl
  · simp only [headSp, tailSp, List.map_cons, List.map_nil]
    rw [if_neg (by decide), if_pos trivial, show (decide ('[' = '⟨')) = false from by decide, chain_single, ← bil_dd',
      ← slotMat_plusOf]
    rfl

/-- C64: for a label `i` followed by at least two others, all different, with two further labels `p`,
`q`, in both modes: the invariant is set to `X`, momentum is conserved, and only `i`, `p` and `q`
change. The guards: the first component of what stands behind the spinor that is set and the bracket
`[p|q]` are nonzero. -/
theorem C64_set_mandelstam [NeZero (2 : K)] (c : Ctx K) (ps : Point K n) (r l : Fin n → V2 K)
    (h : ∀ k, IsMassless c (ps k) (r k) (l k)) (i : Fin n) (rest : List (Fin n)) (hi : i ∉ rest)
    (hlen : 2 ≤ rest.length) (mode : ℕ) (hmode : mode = 1 ∨ mode = 2) (p q : Fin n)
    (hpq : FirstTwoFree (i :: rest) p q) (X : K) {v : V2 K}
    (hv : computeOpenBegin ps [plusOf rest] i (if mode = 1 then ']' else '⟩') = .ok v) (hv0 : v 0 ≠ 0)
    (hd : SpecSquare (l p) (l q) ≠ 0) :
    ∃ ps', setS c ps (i :: rest) X true mode = .ok ps' ∧ computeS ps' (i :: rest) = X ∧ GoodPoint c ps' ∧
      (∀ k, k ≠ i → k ≠ p → k ≠ q → ps' k = ps k) := by
  have lab : ∀ k, k ∈ i :: rest ↔ k ∈ (sString i rest mode).labels := by
    intro k; unfold sString Str.labels; split <;> simp <;> tauto
  have hms : (sString i rest mode).ms = [rest] := by unfold sString; split <;> rfl
  have hs : (sString i rest mode).s = i := by unfold sString; split <;> rfl
  have he : (sString i rest mode).e = i := by unfold sString; split <;> rfl
  have hl : (sString i rest mode).last = if mode = 1 then ']' else '⟩' := by unfold sString; split <;> rfl
  have hne : rest ≠ [] := by intro e; rw [e] at hlen; simp at hlen
  obtain ⟨ps', e, hval, hg, ho⟩ := C62_head_linear c ps r l h (sString i rest mode) (sString_wf i rest mode)
    (by rw [hms, hs]; simpa using hi) (Or.inl (by rw [hms]; rfl)) p q (firstTwoFree_congr lab hpq)
    (X - (computeS ps (i :: rest) - (computeS ps (i :: rest) - computeS ps rest)))
    (by rw [hms, he, hl]; exact hv) hv0 hd 2
  have hval' := sString_value (h : Spin c ps r l) i rest mode
  have hno := fun k hk => firstTwoFree_ne hpq (k := k) hk
  refine ⟨ps', ?_, ?_, hg, by rw [hs] at ho; exact ho⟩
  · have run : ∀ y z ys, rest = y :: z :: ys → setS c ps (i :: rest) X true mode =
        setNB c 3 ps (sString i rest mode)
          (X - (computeS ps (i :: rest) - (computeS ps (i :: rest) - computeS ps rest))) true 1 := by
      rintro y z ys rfl
      rw [setS]
      · rw [if_neg (by rintro ⟨a, b⟩; rcases hmode with h | h <;> contradiction)]
        have : (if mode = 1 then (⟨'⟨', i, [y :: z :: ys], i, ']'⟩ : Str n) else ⟨'[', i, [y :: z :: ys], i, '⟩'⟩) =
            sString i (y :: z :: ys) mode := rfl
        simp only [this, hval']
      · simp
    match rest, hlen, run with
    | y :: z :: ys, _, run => rw [run y z ys rfl]; exact e
  · obtain ⟨-, r', l', hr'⟩ := hg
    have e1 := sString_value (hr' : Spin c ps' r' l') i rest mode
    rw [hval] at e1
    injection e1 with e1
    have e2 : computeS ps' rest = computeS ps rest := by
      unfold computeS
      rw [sumR2_congr fun k hk => ho k (fun e => hi (by rw [hs] at e; exact e ▸ hk)) (hno k (List.mem_cons_of_mem _ hk)).1
        (hno k (List.mem_cons_of_mem _ hk)).2]
    rw [e2] at e1
    linear_combination -e1

/-- C64: the two further labels exist when at most `n - 2` labels are given. -/
theorem C64_room (ls : List (Fin n)) (h : ls.length + 2 ≤ n) : ∃ p q, FirstTwoFree ls p q := by
  apply exists_firstTwoFree
  have := (List.dedup_sublist ls).length_le
  omega

/-- C64: with all labels but one the invariant is zero on every massless point that conserves
momentum, so no method can set it to a nonzero value. -/
theorem C64_all_but_one_partial (c : Ctx K) (ps : Point K n) (hg : GoodPoint c ps) (ls : List (Fin n)) (k : Fin n)
    (hperm : (k :: ls).Perm (List.finRange n)) : computeS ps ls = 0 := by
  obtain ⟨hc, r, l, h⟩ := hg
  have h0 := (conserves_iff ps).mp hc
  rw [← sumR2_finRange, ← sumR2_perm ps hperm, sumR2_cons] at h0
  rw [computeS_eq, eq_neg_of_add_eq_zero_right h0, specSq_neg, specSq_det]
  exact (massless_iff _).mp (h k).massless

/-! ### C65 -/

theorem specDot_self [NeZero (2 : K)] (x : M2 K) : SpecDot x x = SpecSq x := by
  have h2 : (2 : K) ≠ 0 := NeZero.ne 2
  simp only [SpecDot, SpecSq]; field_simp; ring

theorem specDot_dd (x y : M2 K) : SpecDot x y = dd x y / 2 := rfl

/-- Three corners: `(P₁.P₂)² - P₁² P₂²`, whether or not the momenta add up to zero. -/
theorem delta3_eq [NeZero (2 : K)] {c : Ctx K} {ps : Point K n} (h : ∀ k, Consistent c (ps k)) (A B C : List (Fin n)) :
    computeDelta ps 1 ![A, B, C] = SpecDot (sumR2 ps A) (sumR2 ps B) ^ 2 -
      SpecSq (sumR2 ps A) * SpecSq (sumR2 ps B) ∧
    computeDeltaShort ps A B = SpecDot (sumR2 ps A) (sumR2 ps B) ^ 2 -
      SpecSq (sumR2 ps A) * SpecSq (sumR2 ps B) := by
  constructor
  · rw [computeDelta, pyDet_two, SpecSq]
    simp only [submatrix_apply, gram_apply c ps h]
    have e0 : (![A, B, C] (Fin.castSucc (0 : Fin 2))) = A := rfl
    have e1 : (![A, B, C] (Fin.castSucc (1 : Fin 2))) = B := rfl
    rw [e0, e1, specDot_self, specDot_self, show SpecDot (sumR2 ps B) (sumR2 ps A) = SpecDot (sumR2 ps A) (sumR2 ps B) by
      simp only [SpecDot]; ring]
    ring
  · rw [computeDeltaShort, pyDet_two, pyDet_two, sumR2b_eq ps B (fun k _ => h k), trace_flip2_mul]
    congr 2
    rw [flip2_eq]; simp [SpecSq]; ring

theorem clusterLeg_spec [NeZero (2 : K)] {c : Ctx K} {ps : Point K n} (h : ∀ k, Consistent c (ps k)) {ls : List (Fin n)}
    {q : Particle K} (hq : clusterLeg c ps ls = some q) : q.r2 = sumR2 ps ls ∧ q.r2b = flip2 (sumR2 ps ls) := by
  unfold clusterLeg at hq
  cases hs : pSum c (ls.map ps) with
  | none => rw [hs] at hq; cases hq
  | some o =>
    cases o with
    | none => rw [hs] at hq; cases hq
    | some q' =>
      rw [hs] at hq
      cases hq
      have e1 : q.r2 = sumR2 ps ls := by rw [C06_sum_is_vector_sum c _ _ hs, sumR2, List.map_map]; rfl
      refine ⟨e1, ?_⟩
      have hcons : Consistent c q := by
        cases ls with
        | nil => simp [pSum] at hs
        | cons i is =>
          simp only [List.map_cons, pSum, Option.map_eq_some_iff] at hs
          obtain ⟨s, hs, he⟩ := hs
          cases he
          exact pSumFrom_consistent c _ _ _ (h i) hs
      rw [← e1, hcons.r2_eq, flip2_flip2]

/-- The labels of a corner with one taken out. -/
theorem eraseIdx_perm {A : List (Fin n)} {i : ℕ} {k : Fin n} (h : A[i]? = some k) : A.Perm (k :: A.eraseIdx i) := by
  obtain ⟨hi, rfl⟩ := List.getElem?_eq_some_iff.mp h
  exact (List.getElem_cons_eraseIdx_perm hi).symm

/-- Setting Δ without restoring momentum conservation: the label `k` that `mode` selects gets another angle spinor in odd
modes, another square spinor in even modes. -/
theorem setD_plain [NeZero (2 : K)] {c : Ctx K} {ps : Point K n} {r l : Fin n → V2 K}
    (h : ∀ k, IsMassless c (ps k) (r k) (l k)) {A B C : List (Fin n)} {k : Fin n} {mode : ℕ}
    (hk : A[(mode - 1) / 2]? = some k) (hAn : A.Nodup) (hkB : k ∉ B) (X : K) {Q1 Q2 Q3 : Particle K}
    (hQ1 : clusterLeg c ps (A.eraseIdx ((mode - 1) / 2)) = some Q1) (hQ2 : clusterLeg c ps B = some Q2)
    (hQ3 : clusterLeg c ps C = some Q3)
    (hal : (if mode % 2 = 1 then Q2.r2b.mulVec ![l k 1, -l k 0] else vecMul ![r k 1, -r k 0] Q2.r2b) 0 ≠ 0) :
    (∃ D, c.sqrt D = none ∧ ∀ fix, setD c ps A B C X fix mode = .error .valueError) ∨
    ∃ ps1 r1 l1, setD c ps A B C X false mode = .ok ps1 ∧
      (∀ fix, setD c ps A B C X fix mode = if fix then fixFirstTwo c ps1 C.reverse false else .ok ps1) ∧
      Spin c ps1 r1 l1 ∧ (SpecDot (sumR2 ps1 A) (sumR2 ps1 B) ^ 2 - SpecSq (sumR2 ps1 A) * SpecSq (sumR2 ps1 B) = X) ∧
      (∀ j, j ≠ k → ps1 j = ps j ∧ r1 j = r j ∧ l1 j = l j) ∧ (if mode % 2 = 1 then l1 = l else r1 = r) := by
  have h2 : (2 : K) ≠ 0 := NeZero.ne 2
  have hcons : ∀ k, Consistent c (ps k) := fun k => (h k).cons
  obtain ⟨a1, b1⟩ := clusterLeg_spec hcons hQ1
  obtain ⟨a2, b2⟩ := clusterLeg_spec hcons hQ2
  set P1 := sumR2 ps (A.eraseIdx ((mode - 1) / 2)) with hP1
  set P2 := sumR2 ps B with hP2
  have d12 : ldot Q1 Q2 = SpecDot P1 P2 := by rw [ldot, a1, b2, trace_flip2_mul]
  have d22 : ldot Q2 Q2 = SpecSq P2 := by rw [ldot, a2, b2, trace_flip2_mul, specDot_self]
  have d11 : ldot Q1 Q1 = SpecSq P1 := by rw [ldot, a1, b1, trace_flip2_mul, specDot_self]
  have hAp := eraseIdx_perm hk
  have hkE : k ∉ A.eraseIdx ((mode - 1) / 2) := (List.nodup_cons.mp (hAp.nodup_iff.mp hAn)).1
  have hkA : k ∈ A := hAp.mem_iff.mpr (List.mem_cons_self)
  -- the equation
  have final : ∀ (ps1 : Point K n) (r1 l1 : Fin n → V2 K), Spin c ps1 r1 l1 → (∀ j, j ≠ k → ps1 j = ps j) →
      (SpecDot ((ps1 k).r2) P2 + SpecDot P1 P2) ^ 2 - (SpecSq P1 + dd ((ps1 k).r2) P1) * SpecSq P2 = X →
      SpecDot (sumR2 ps1 A) (sumR2 ps1 B) ^ 2 - SpecSq (sumR2 ps1 A) * SpecSq (sumR2 ps1 B) = X := by
    intro ps1 r1 l1 h1 o1 heq
    have sB : sumR2 ps1 B = P2 := sumR2_congr fun j hj => o1 j (fun e => hkB (e ▸ hj))
    have sA : sumR2 ps1 A = (ps1 k).r2 + P1 := by
      rw [sumR2_perm ps1 hAp, sumR2_cons]
      congr 1
      exact sumR2_congr fun j hj => o1 j (fun e => hkE (e ▸ hj))
    have sq0 : SpecSq (ps1 k).r2 = 0 := by rw [specSq_det]; exact (massless_iff _).mp (h1 k).massless
    rw [sA, sB, specSq_add, sq0, zero_add, specDot_dd, dd_add_left, add_div, ← specDot_dd, ← specDot_dd, heq]
  by_cases hm : mode % 2 = 1
  · rw [if_pos hm] at hal
    set v := Q2.r2b.mulVec ![l k 1, -l k 0] with hv
    set w := Q1.r2b.mulVec ![l k 1, -l k 0] with hw
    set b := -r k 0 with hb
    rcases hy : c.sqrt ((v 0 * b * v 1 / 2 + v 0 * ldot Q1 Q2 - w 0 * ldot Q2 Q2) ^ 2 -
      4 * (v 0 ^ 2 / 4) * (b ^ 2 * v 1 ^ 2 / 4 + b * v 1 * ldot Q1 Q2 - b * w 1 * ldot Q2 Q2 + ldot Q1 Q2 ^ 2 -
          ldot Q1 Q1 * ldot Q2 Q2 - X)) with _ | y
    · refine Or.inl ⟨_, hy, fun fix => ?_⟩
      simp only [setD, hk, hQ1, hQ2, hQ3, (h k).r_u, (h k).l_u, need_some, hm, if_true, Matrix.cons_val_one,
        Matrix.cons_val_zero, ← hv, ← hw, ← hb, hy]
    refine Or.inr ?_
    have hsq := c.sqrt_sq _ _ hy
    have hQA : 2 * (v 0 ^ 2 / 4) ≠ 0 := by
      have : (4 : K) ≠ 0 := by rw [show (4 : K) = 2 * 2 by norm_num]; exact mul_ne_zero h2 h2
      exact mul_ne_zero h2 (div_ne_zero (pow_ne_zero 2 hal) this)
    set x := (-(v 0 * b * v 1 / 2 + v 0 * ldot Q1 Q2 - w 0 * ldot Q2 Q2) + y) / (2 * (v 0 ^ 2 / 4)) with hx
    obtain ⟨o, e1, ho⟩ := setRu_massless (h k) ![x, b]
    obtain ⟨ps1, e2, h1, o1⟩ := store_r (h : Spin c ps r l) k e1 ho
    have g := final ps1 _ l h1 o1 (by
      have er : (ps1 k).r2 = outer ![l k 1, -l k 0] ![x, b] := by
        rw [(h1 k).r2, Function.update_self]; simp
      have q2 : dd (ps1 k).r2 P2 = x * v 0 + b * v 1 := by
        rw [er, hv, b2, flip2_eq]
        simp [dd, outer_apply, mulVec, dotProduct]; ring
      have q1 : dd (ps1 k).r2 P1 = x * w 0 + b * w 1 := by
        rw [er, hw, b1, flip2_eq]
        simp [dd, outer_apply, mulVec, dotProduct]; ring
      have hquad : v 0 ^ 2 / 4 * x ^ 2 + (v 0 * b * v 1 / 2 + v 0 * ldot Q1 Q2 - w 0 * ldot Q2 Q2) * x +
          (b ^ 2 * v 1 ^ 2 / 4 + b * v 1 * ldot Q1 Q2 - b * w 1 * ldot Q2 Q2 + ldot Q1 Q2 ^ 2 -
          ldot Q1 Q1 * ldot Q2 Q2 - X) = 0 := by
        generalize (v 0 * b * v 1 / 2 + v 0 * ldot Q1 Q2 - w 0 * ldot Q2 Q2) = QB at hx hsq ⊢
        generalize (b ^ 2 * v 1 ^ 2 / 4 + b * v 1 * ldot Q1 Q2 - b * w 1 * ldot Q2 Q2 + ldot Q1 Q2 ^ 2 -
          ldot Q1 Q1 * ldot Q2 Q2 - X) = QC at hsq ⊢
        generalize v 0 ^ 2 / 4 = QA at hx hsq hQA ⊢
        have hA : QA ≠ 0 := fun e => hQA (by rw [e, mul_zero])
        rw [hx]; field_simp
        linear_combination hsq
      rw [specDot_dd, q2, q1, ← d12, ← d22, ← d11]
      have h4 : (4 : K) = 2 * 2 := by norm_num
      rw [h4] at hquad
      simp only [div_eq_mul_inv, mul_inv] at hquad ⊢
      generalize ldot Q1 Q2 = G12 at hquad ⊢
      generalize ldot Q2 Q2 = G22 at hquad ⊢
      generalize ldot Q1 Q1 = G11 at hquad ⊢
      have hi : (2 : K) * 2⁻¹ = 1 := mul_inv_cancel₀ h2
      generalize (2 : K)⁻¹ = z at hquad hi ⊢
      linear_combination hquad + (x * v 0 * b * v 1 * z + (x * v 0 + b * v 1) * G12) * hi)
    have run : ∀ fix, setD c ps A B C X fix mode = if fix then fixFirstTwo c ps1 C.reverse false else .ok ps1 := by
      intro fix
      simp only [setD, hk, hQ1, hQ2, hQ3, (h k).r_u, (h k).l_u, need_some, hm, if_true, Matrix.cons_val_one,
        Matrix.cons_val_zero, ← hv, ← hw, ← hb, hy, pyDiv_ok hQA, ← hx]
      rw [e2]
    exact ⟨ps1, _, l, by simp [run], run, h1, g, fun j hj => ⟨o1 j hj, Function.update_of_ne hj _ _, rfl⟩, by simp [hm]⟩
  · rw [if_neg hm] at hal
    set v := vecMul ![r k 1, -r k 0] Q2.r2b with hv
    set w := vecMul ![r k 1, -r k 0] Q1.r2b with hw
    set b := -l k 0 with hb
    rcases hy : c.sqrt ((v 0 * b * v 1 / 2 + v 0 * ldot Q1 Q2 - w 0 * ldot Q2 Q2) ^ 2 -
      4 * (v 0 ^ 2 / 4) * (b ^ 2 * v 1 ^ 2 / 4 + b * v 1 * ldot Q1 Q2 - b * w 1 * ldot Q2 Q2 + ldot Q1 Q2 ^ 2 -
          ldot Q1 Q1 * ldot Q2 Q2 - X)) with _ | y
    · refine Or.inl ⟨_, hy, fun fix => ?_⟩
      simp only [setD, hk, hQ1, hQ2, hQ3, (h k).r_u, (h k).l_u, need_some, hm, if_false, Matrix.cons_val_one,
        Matrix.cons_val_zero, ← hv, ← hw, ← hb, hy]
    refine Or.inr ?_
    have hsq := c.sqrt_sq _ _ hy
    have hQA : 2 * (v 0 ^ 2 / 4) ≠ 0 := by
      have : (4 : K) ≠ 0 := by rw [show (4 : K) = 2 * 2 by norm_num]; exact mul_ne_zero h2 h2
      exact mul_ne_zero h2 (div_ne_zero (pow_ne_zero 2 hal) this)
    set x := (-(v 0 * b * v 1 / 2 + v 0 * ldot Q1 Q2 - w 0 * ldot Q2 Q2) + y) / (2 * (v 0 ^ 2 / 4)) with hx
    obtain ⟨o, e1, ho⟩ := setLu_massless (h k) ![x, b]
    obtain ⟨ps1, e2, h1, o1⟩ := store_l (h : Spin c ps r l) k e1 ho
    have g := final ps1 r _ h1 o1 (by
      have er : (ps1 k).r2 = outer ![x, b] ![r k 1, -r k 0] := by
        rw [(h1 k).r2, Function.update_self]; simp
      have q2 : dd (ps1 k).r2 P2 = x * v 0 + b * v 1 := by
        rw [er, hv, b2, flip2_eq]
        simp [dd, outer_apply, vecMul, dotProduct]; ring
      have q1 : dd (ps1 k).r2 P1 = x * w 0 + b * w 1 := by
        rw [er, hw, b1, flip2_eq]
        simp [dd, outer_apply, vecMul, dotProduct]; ring
      have hquad : v 0 ^ 2 / 4 * x ^ 2 + (v 0 * b * v 1 / 2 + v 0 * ldot Q1 Q2 - w 0 * ldot Q2 Q2) * x +
          (b ^ 2 * v 1 ^ 2 / 4 + b * v 1 * ldot Q1 Q2 - b * w 1 * ldot Q2 Q2 + ldot Q1 Q2 ^ 2 -
          ldot Q1 Q1 * ldot Q2 Q2 - X) = 0 := by
        generalize (v 0 * b * v 1 / 2 + v 0 * ldot Q1 Q2 - w 0 * ldot Q2 Q2) = QB at hx hsq ⊢
        generalize (b ^ 2 * v 1 ^ 2 / 4 + b * v 1 * ldot Q1 Q2 - b * w 1 * ldot Q2 Q2 + ldot Q1 Q2 ^ 2 -
          ldot Q1 Q1 * ldot Q2 Q2 - X) = QC at hsq ⊢
        generalize v 0 ^ 2 / 4 = QA at hx hsq hQA ⊢
        have hA : QA ≠ 0 := fun e => hQA (by rw [e, mul_zero])
        rw [hx]; field_simp
        linear_combination hsq
      rw [specDot_dd, q2, q1, ← d12, ← d22, ← d11]
      have h4 : (4 : K) = 2 * 2 := by norm_num
      rw [h4] at hquad
      simp only [div_eq_mul_inv, mul_inv] at hquad ⊢
      generalize ldot Q1 Q2 = G12 at hquad ⊢
      generalize ldot Q2 Q2 = G22 at hquad ⊢
      generalize ldot Q1 Q1 = G11 at hquad ⊢
      have hi : (2 : K) * 2⁻¹ = 1 := mul_inv_cancel₀ h2
      generalize (2 : K)⁻¹ = z at hquad hi ⊢
      linear_combination hquad + (x * v 0 * b * v 1 * z + (x * v 0 + b * v 1) * G12) * hi)
    have run : ∀ fix, setD c ps A B C X fix mode = if fix then fixFirstTwo c ps1 C.reverse false else .ok ps1 := by
      intro fix
      simp only [setD, hk, hQ1, hQ2, hQ3, (h k).r_u, (h k).l_u, need_some, hm, if_false, Matrix.cons_val_one,
        Matrix.cons_val_zero, ← hv, ← hw, ← hb, hy, pyDiv_ok hQA, ← hx]
      rw [e2]
    exact ⟨ps1, r, _, by simp [run], run, h1, g, fun j hj => ⟨o1 j hj, rfl, Function.update_of_ne hj _ _⟩, by simp [hm]⟩

/-- C65: corners `A`, `B`, `C` without common labels, of which `A` has the label `k` at the position
that `mode` selects and `C` ends with `q`, `p`. Whichever root the field returns, Δ is set to `X` (in
both spellings), momentum is conserved, and only `k`, `p` and `q` change. The guards: the clustered
legs exist, the coefficient `α` of the square is nonzero, and `[p|q]` is nonzero. If the field has no
root of the discriminant the method raises. -/
theorem C65_set_delta [NeZero (2 : K)] (c : Ctx K) (ps : Point K n) (r l : Fin n → V2 K)
    (h : ∀ k, IsMassless c (ps k) (r k) (l k)) (A B C₀ : List (Fin n)) (p q k : Fin n) (mode : ℕ)
    (hk : A[(mode - 1) / 2]? = some k) (hnd : (A ++ B ++ (C₀ ++ [q, p])).Nodup) (X : K) {Q1 Q2 Q3 : Particle K}
    (hQ1 : clusterLeg c ps (A.eraseIdx ((mode - 1) / 2)) = some Q1) (hQ2 : clusterLeg c ps B = some Q2)
    (hQ3 : clusterLeg c ps (C₀ ++ [q, p]) = some Q3)
    (hal : (if mode % 2 = 1 then Q2.r2b.mulVec ![l k 1, -l k 0] else vecMul ![r k 1, -r k 0] Q2.r2b) 0 ≠ 0)
    (hd : SpecSquare (l p) (l q) ≠ 0) :
    (∃ D, c.sqrt D = none ∧ setD c ps A B (C₀ ++ [q, p]) X true mode = .error .valueError) ∨
    ∃ ps', setD c ps A B (C₀ ++ [q, p]) X true mode = .ok ps' ∧ computeDelta ps' 1 ![A, B, C₀ ++ [q, p]] = X ∧
      computeDeltaShort ps' A B = X ∧ GoodPoint c ps' ∧ (∀ j, j ≠ k → j ≠ p → j ≠ q → ps' j = ps j) := by
  have nd1 := List.nodup_append.mp hnd
  have nd2 := List.nodup_append.mp nd1.1
  have hkA : k ∈ A := (eraseIdx_perm hk).mem_iff.mpr (List.mem_cons_self)
  have hkB : k ∉ B := fun hb => nd2.2.2 k hkA k hb rfl
  have away : ∀ j, j ∈ A ∨ j ∈ B → j ≠ p ∧ j ≠ q := fun j hj =>
    ⟨nd1.2.2 j (List.mem_append.mpr hj) p (by simp), nd1.2.2 j (List.mem_append.mpr hj) q (by simp)⟩
  have hpq : p ≠ q := by
    have := (List.nodup_append.mp nd1.2.1).2.1
    intro e; rw [e] at this; simp at this
  rcases setD_plain h hk nd2.1 hkB X hQ1 hQ2 hQ3 hal with ⟨D, e1, e2⟩ | ⟨ps1, r1, l1, -, run, h1, g, o1, -⟩
  · exact Or.inl ⟨D, e1, e2 true⟩
  have hkp := away k (Or.inl hkA)
  obtain ⟨ps2, r2, e3, hc, h2, o2⟩ := fixAxis1_spin h1 hpq (by rw [(o1 p hkp.1.symm).2.2, (o1 q hkp.2.symm).2.2]; exact hd)
  have sum : ∀ ls : List (Fin n), (∀ j ∈ ls, j ∈ A ∨ j ∈ B) → sumR2 ps2 ls = sumR2 ps1 ls := fun ls hl =>
    sumR2_congr fun j hj => (o2 j (away j (hl j hj)).1 (away j (hl j hj)).2).1
  rw [← sum A fun j => Or.inl, ← sum B fun j => Or.inr] at g
  obtain ⟨f1, f2⟩ := delta3_eq (fun k => (h2 k).cons) A B (C₀ ++ [q, p])
  refine Or.inr ⟨ps2, ?_, f1.trans g, f2.trans g, h2.good hc, fun j a b d => (o2 j b d).1.trans (o1 j a).1⟩
  rw [run true]
  have rev : (C₀ ++ [q, p]).reverse = p :: q :: C₀.reverse := by simp
  simp only [rev, fixFirstTwo, e3]
  simp

/-- C65 (finding): when the first corner has a single label, taking it out leaves an empty corner, and
the method raises before it changes anything. -/
theorem C65_single_label_corner_partial (c : Ctx K) (ps : Point K n) (a : Fin n) (B C : List (Fin n)) (X : K)
    (fix : Bool) (mode : ℕ) (hmode : mode ≤ 2) : setD c ps [a] B C X fix mode = .error .attributeError := by
  have : (mode - 1) / 2 = 0 := by omega
  have e : clusterLeg c ps [] = none := by simp [clusterLeg, pSum]
  simp [setD, this, e]

end Lips

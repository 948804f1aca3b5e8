import Verif.Lemmas.Pair33
import Verif.Model.PairDelta
import Verif.Props.Gram
import Verif.Props.Solve

/-! Helper lemmas on setting a Gram determinant together with another invariant. -/

namespace Lips

open Matrix

set_option linter.unusedSectionVars false

variable {K Γ : Type*} [Field K] [LinearOrder Γ] {n : ℕ}

/-- What the method that sets Δ needs: the clustered legs exist, and the coefficient of the square of the unknown is
not zero. `k` is the label that `mode` selects. -/
def DeltaGuard (c : Ctx K) (ps : Point K n) (r l : Fin n → V2 K) (A B C : List (Fin n)) (k : Fin n) (mode : ℕ) : Prop :=
  ∃ Q1 Q2 Q3, clusterLeg c ps (A.eraseIdx ((mode - 1) / 2)) = some Q1 ∧ clusterLeg c ps B = some Q2 ∧
    clusterLeg c ps C = some Q3 ∧
    (if mode % 2 = 1 then Q2.r2b.mulVec ![l k 1, -l k 0] else vecMul ![r k 1, -r k 0] Q2.r2b) 0 ≠ 0

/-- With the default convention the clustered legs exist. -/
theorem deltaGuard_of [NeZero (2 : K)] {c : Ctx K} (hc : c.conv = .symmetric) {ps : Point K n} {r l : Fin n → V2 K} (h : Spin c ps r l)
    {A B C : List (Fin n)} {k : Fin n} {mode : ℕ} (hA : A.eraseIdx ((mode - 1) / 2) ≠ []) (hB : B ≠ []) (hC : C ≠ [])
    (hal : (if mode % 2 = 1 then (flip2 (sumR2 ps B)).mulVec ![l k 1, -l k 0] else vecMul ![r k 1, -r k 0] (flip2 (sumR2 ps B))) 0 ≠ 0) :
    DeltaGuard c ps r l A B C k mode := by
  have leg : ∀ ls : List (Fin n), ls ≠ [] → ∃ Q, clusterLeg c ps ls = some Q := by
    intro ls hn
    obtain ⟨s, hs⟩ := C06_sum_total c hc (ls.map ps) (by simpa using hn)
    exact ⟨s, by simp [clusterLeg, hs]⟩
  obtain ⟨Q1, h1⟩ := leg _ hA
  obtain ⟨Q2, h2⟩ := leg _ hB
  obtain ⟨Q3, h3⟩ := leg _ hC
  refine ⟨Q1, Q2, Q3, h1, h2, h3, ?_⟩
  rw [(clusterLeg_spec (fun k => (h k).cons) h2).2]
  exact hal

/-- Δ depends on the first two corners. -/
theorem delta_congr [NeZero (2 : K)] {c : Ctx K} {ps ps' : Point K n} (h : ∀ k, Consistent c (ps k)) (h' : ∀ k, Consistent c (ps' k))
    {L : Corners n} (o : ∀ k, k ∈ L 0 ∨ k ∈ L 1 → ps' k = ps k) : computeDelta ps' 1 L = computeDelta ps 1 L := by
  have e : L = ![L 0, L 1, L 2] := by funext i; fin_cases i <;> rfl
  rw [e, (delta3_eq h (L 0) (L 1) (L 2)).1, (delta3_eq h' (L 0) (L 1) (L 2)).1,
    sumR2_congr (ls := L 0) fun k hk => o k (Or.inl hk), sumR2_congr (ls := L 1) fun k hk => o k (Or.inr hk)]

/-- Outcome of setting Δ without restoring momentum conservation. -/
theorem setDelta_plain [NeZero (2 : K)] {c : Ctx K} {T : Tol K Γ} (hT : T.abs 0 ≤ T.tol) {ps : Point K n}
    {r l : Fin n → V2 K} (h : Spin c ps r l) {A B C : List (Fin n)} {k : Fin n} {mode : ℕ}
    (hk : A[(mode - 1) / 2]? = some k) (hA : A.Nodup) (hkB : k ∉ B) (X : K) (hg : DeltaGuard c ps r l A B C k mode) :
    (∃ D, c.sqrt D = none ∧ setDelta c T ![A, B, C] mode false X ps = .error .valueError) ∨
    ∃ ps' r' l', setDelta c T ![A, B, C] mode false X ps = .ok ps' ∧ Spin c ps' r' l' ∧ computeDelta ps' 1 ![A, B, C] = X ∧
      (∀ j, j ≠ k → ps' j = ps j ∧ r' j = r j ∧ l' j = l j) ∧ (if mode % 2 = 1 then l' = l else r' = r) := by
  obtain ⟨Q1, Q2, Q3, hQ1, hQ2, hQ3, hal⟩ := hg
  rcases setD_plain h hk hA hkB X hQ1 hQ2 hQ3 hal with ⟨D, e1, e2⟩ | ⟨ps1, r1, l1, run, -, h1, g, o1, m1⟩
  · exact Or.inl ⟨D, e1, by simp [setDelta, e2]⟩
  · have hv := (delta3_eq (fun k => (h1 k).cons) A B C).1.trans g
    refine Or.inr ⟨ps1, r1, l1, ?_, h1, hv, o1, m1⟩
    simp [setDelta, run, hv, hT]

theorem pointCheck_good [NeZero (2 : K)] {c : Ctx K} {T : Tol K Γ} (hT : T.abs 0 ≤ T.tol) {ps : Point K n} (hn : n ≠ 0)
    (hg : GoodPoint c ps) : pointCheck T ps = none := by
  obtain ⟨hc, r, l, h⟩ := hg
  refine checkPoint_none hn ⟨fun i j => by rw [hc i j]; exact hT, fun k => ?_⟩
  have e := (withinTol_iff T.abs T.tol (List.ofFn fun i => (ps i).m2) (by simp [hn])).1.mp
    ((C49_onshell_relation_check c T.abs T.tol hn ps fun k => (h k).cons).1.mpr fun k => by
      have := (h k).massless
      rw [Massless, ← Matrix.det_fin_two] at this
      rw [this]; exact hT)
  exact e _ (List.mem_ofFn.mpr ⟨k, rfl⟩)

/-- Outcome of setting Δ and restoring momentum conservation with the last two labels of the last corner. -/
theorem setDelta_fixed [NeZero (2 : K)] {c : Ctx K} {T : Tol K Γ} (hT : T.abs 0 ≤ T.tol) {ps : Point K n}
    {r l : Fin n → V2 K} (h : Spin c ps r l) {L : Corners n} {C₀ : List (Fin n)} {p q k : Fin n} {mode : ℕ}
    (hC : L 2 = C₀ ++ [q, p]) (hk : (L 0)[(mode - 1) / 2]? = some k) (hnd : (L 0 ++ L 1 ++ L 2).Nodup) (X : K)
    (hg : DeltaGuard c ps r l (L 0) (L 1) (L 2) k mode) (hd : SpecSquare (l p) (l q) ≠ 0) :
    (∃ D, c.sqrt D = none ∧ setDelta c T L mode true X ps = .error .valueError) ∨
    ∃ ps1 r1 l1 ps' r', setDelta c T L mode true X ps = .ok ps' ∧ Spin c ps1 r1 l1 ∧ Spin c ps' r' l1 ∧ Conserves ps' ∧
      computeDelta ps' 1 L = X ∧
      (∀ j, j ≠ k → ps1 j = ps j ∧ r1 j = r j ∧ l1 j = l j) ∧ (if mode % 2 = 1 then l1 = l else r1 = r) ∧
      (∀ j, j ≠ p → j ≠ q → ps' j = ps1 j ∧ r' j = r1 j) := by
  obtain ⟨Q1, Q2, Q3, hQ1, hQ2, hQ3, hal⟩ := hg
  have nd1 := List.nodup_append.mp hnd
  have nd2 := List.nodup_append.mp nd1.1
  have hkA : k ∈ L 0 := (eraseIdx_perm hk).mem_iff.mpr (List.mem_cons_self)
  have hkB : k ∉ L 1 := fun hb => nd2.2.2 k hkA k hb rfl
  have pC : p ∈ L 2 ∧ q ∈ L 2 := by rw [hC]; simp
  have away : ∀ j, j ∈ L 0 ∨ j ∈ L 1 → j ≠ p ∧ j ≠ q := fun j hj =>
    ⟨nd1.2.2 j (List.mem_append.mpr hj) p pC.1, nd1.2.2 j (List.mem_append.mpr hj) q pC.2⟩
  have hpq : p ≠ q := by
    have := nd1.2.1
    rw [hC] at this
    have := (List.nodup_append.mp this).2.1
    intro e; rw [e] at this; simp at this
  rcases setD_plain h hk nd2.1 hkB X hQ1 hQ2 hQ3 hal with ⟨D, e1, e2⟩ | ⟨ps1, r1, l1, -, run, h1, g, o1, m1⟩
  · exact Or.inl ⟨D, e1, by simp [setDelta, e2]⟩
  have hkp := away k (Or.inl hkA)
  obtain ⟨ps2, r2, e3, hc, h2, o2⟩ := fixAxis1_spin h1 hpq (by rw [(o1 p hkp.1.symm).2.2, (o1 q hkp.2.symm).2.2]; exact hd)
  have eL : L = ![L 0, L 1, L 2] := by funext i; fin_cases i <;> rfl
  have hv : computeDelta ps2 1 L = X := by
    rw [delta_congr (fun k => (h1 k).cons) (fun k => (h2 k).cons) (fun j hj => (o2 j (away j hj).1 (away j hj).2).1), eL]
    exact (delta3_eq (fun k => (h1 k).cons) (L 0) (L 1) (L 2)).1.trans g
  refine Or.inr ⟨ps1, r1, l1, ps2, r2, ?_, h1, h2, hc, hv, o1, m1, o2⟩
  have hn : n ≠ 0 := fun e => by subst e; exact p.elim0
  have rev : (L 2).reverse = p :: q :: C₀.reverse := by simp [hC]
  simp [setDelta, run true, rev, fixFirstTwo, e3, pointCheck_good hT hn (h2.good hc), hv, hT]

end Lips

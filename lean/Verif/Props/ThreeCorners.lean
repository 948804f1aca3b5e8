import Verif.Model.ThreeCorners
import Verif.Props.Cluster
import Verif.Props.Arcs
import Verif.Props.ArcsOrder
import Verif.Props.DispatchNames
import Verif.Props.InvariantsUsable

/-!
C131: the three clustered particles of `ijk_to_3Ks`.
-/

namespace Lips

open Matrix

variable {K : Type*} [Field K] {n : ℕ}

theorem mapM_label_int (L : List ℤ) (h : ∀ z ∈ L, 1 ≤ z ∧ z ≤ n) :
    ∃ L' : List (Fin n), (L.mapM fun z => label n z.toNat) = .ok L' ∧ L'.map (fun l : Fin n => ((l : ℕ) : ℤ) + 1) = L := by
  induction L with
  | nil => exact ⟨[], rfl, rfl⟩
  | cons z L ih =>
    obtain ⟨L', e, e2⟩ := ih fun y hy => h y (List.mem_cons_of_mem _ hy)
    have hz := h z List.mem_cons_self
    have hz' : 1 ≤ z.toNat ∧ z.toNat ≤ n := by omega
    refine ⟨⟨z.toNat - 1, by omega⟩ :: L', ?_, ?_⟩
    · rw [List.mapM_cons, label_ok hz', e]
      rfl
    · rw [List.map_cons, e2]
      congr 1
      simp only
      omega

theorem lift_inj : Function.Injective fun l : Fin n => ((l : ℕ) : ℤ) + 1 := fun a b h => Fin.ext (by simpa using h)

/-- The labels of a point as integers. -/
theorem finRange_lift : (List.finRange n).map (fun l : Fin n => ((l : ℕ) : ℤ) + 1) = (List.range' 1 n).map Int.ofNat := by
  refine List.ext_getElem (by simp) fun i h1 h2 => ?_
  simp
  omega

/-- The three lists for three different labels: they begin with the labels, and every label of the point is in exactly one of them. -/
theorem corners3_ok {i j k : Fin n} (hij : i ≠ j) (hjk : j ≠ k) (hik : i ≠ k) :
    ∃ A B C : List (Fin n), (∀ fuel, n ≤ fuel → ∀ more,
        threeCorners n fuel ((((i : ℕ) : ℤ) + 1) :: (((j : ℕ) : ℤ) + 1) :: (((k : ℕ) : ℤ) + 1) :: more) = some (.ok (A, B, C))) ∧
      (A.head? = some i ∧ B.head? = some j ∧ C.head? = some k) ∧ (A ++ B ++ C).Perm (List.finRange n) := by
  have rg : ∀ x : Fin n, (1 : ℤ) ≤ ((x : ℕ) : ℤ) + 1 ∧ ((x : ℕ) : ℤ) + 1 ≤ n := fun x => ⟨by omega, by omega⟩
  have ne : ∀ {x y : Fin n}, x ≠ y → ((x : ℕ) : ℤ) + 1 ≠ ((y : ℕ) : ℤ) + 1 := fun h e => h (Fin.ext (by omega))
  obtain ⟨A, B, C, hr, hA, hB, hC, -, -, -, hp⟩ := C43_three_arcs n _ _ _ (rg i) (rg j) (rg k) (ne hij) (ne hjk) (ne hik)
  have mem : ∀ z ∈ A ++ B ++ C, 1 ≤ z ∧ z ≤ n := by
    intro z hz
    obtain ⟨x, hx, rfl⟩ := List.mem_map.1 (hp.mem_iff.1 hz)
    rw [List.mem_range'_1] at hx
    simp only [Int.ofNat_eq_natCast]
    omega
  obtain ⟨A', eA, lA⟩ := mapM_label_int A fun z hz => mem z (by simp [hz])
  obtain ⟨B', eB, lB⟩ := mapM_label_int B fun z hz => mem z (by simp [hz])
  obtain ⟨C', eC, lC⟩ := mapM_label_int C fun z hz => mem z (by simp [hz])
  refine ⟨A', B', C', fun fuel hf more => by simp only [threeCorners, hr fuel hf, eA, eB, eC], ?_, ?_⟩
  · have head : ∀ (L' : List (Fin n)) (x : Fin n), (L'.map fun l : Fin n => ((l : ℕ) : ℤ) + 1).head? = some (((x : ℕ) : ℤ) + 1) → L'.head? = some x := by
      intro L' x h
      rw [List.head?_map] at h
      rcases hl : L'.head? with _ | y
      · rw [hl] at h
        simp at h
      · rw [hl] at h
        simp only [Option.map_some, Option.some.injEq] at h
        rw [lift_inj h]
    exact ⟨head _ _ (by rw [lA, hA]), head _ _ (by rw [lB, hB]), head _ _ (by rw [lC, hC])⟩
  · rw [← lA, ← lB, ← lC, ← List.map_append, ← List.map_append, ← finRange_lift] at hp
    exact (List.map_perm_map_iff lift_inj).1 hp

/-- C131: for three different labels `ijk_to_3Ks` gives three particles, whose momenta are the sums over three lists of labels; the lists begin with
the labels given and every label is in exactly one. The total momentum is that of the point, the squared masses are the Mandelstam invariants of the
lists. -/
theorem C131_three [NeZero (2 : K)] (c : Ctx K) (hc : c.conv = .symmetric) (ps : Point K n) (hps : ∀ l, Consistent c (ps l)) {i j k : Fin n}
    (hij : i ≠ j) (hjk : j ≠ k) (hik : i ≠ k) :
    ∃ (A B C : List (Fin n)) (qs : Point K 3),
      (∀ fuel, n ≤ fuel → threeCorners n fuel [((i : ℕ) : ℤ) + 1, ((j : ℕ) : ℤ) + 1, ((k : ℕ) : ℤ) + 1] = some (.ok (A, B, C))) ∧
      (∀ fuel, n ≤ fuel → threeKs c ps fuel [((i : ℕ) : ℤ) + 1, ((j : ℕ) : ℤ) + 1, ((k : ℕ) : ℤ) + 1] = some (.ok qs)) ∧
      (A.head? = some i ∧ B.head? = some j ∧ C.head? = some k) ∧ (A ++ B ++ C).Perm (List.finRange n) ∧
      (∀ l, Consistent c (qs l)) ∧ totalMom qs = totalMom ps ∧
      (∀ a b, (qs 0).r2 a b = (A.map fun l => (ps l).r2 a b).sum ∧ (qs 1).r2 a b = (B.map fun l => (ps l).r2 a b).sum ∧
        (qs 2).r2 a b = (C.map fun l => (ps l).r2 a b).sum) ∧
      ((qs 0).m2 = computeS ps A ∧ (qs 1).m2 = computeS ps B ∧ (qs 2).m2 = computeS ps C) ∧
      (∀ l, A = [l] → qs 0 = ps l) ∧ (∀ l, B = [l] → qs 1 = ps l) ∧ (∀ l, C = [l] → qs 2 = ps l) ∧
      (∀ fuel, n ≤ fuel → threeLists ps fuel [((i : ℕ) : ℤ) + 1, ((j : ℕ) : ℤ) + 1, ((k : ℕ) : ℤ) + 1] = some (.ok (A.map ps, B.map ps, C.map ps))) ∧
      ((∀ a b, totalMom ps a b = 0) →
        4 * computeDeltaShort ps A B = SpecKallen (qs 0).m2 (qs 1).m2 (qs 2).m2 ∧
        4 * computeDelta ps 1 ![A, B, C] = SpecKallen (qs 0).m2 (qs 1).m2 (qs 2).m2 ∧
        4 * computeDeltaShort qs [0] [1] = SpecKallen (qs 0).m2 (qs 1).m2 (qs 2).m2) := by
  obtain ⟨A, B, C, hr, hh, hp⟩ := corners3_ok hij hjk hik
  have hne : ∀ l : Fin 3, (![A, B, C] : Fin 3 → List (Fin n)) l ≠ [] := by
    intro l hl
    fin_cases l <;> simp at hl <;> simp [hl] at hh
  obtain ⟨qs, hq⟩ := C45_succeeds c hc ps ![A, B, C] hne
  have hcons := C45_consistent hps hq
  have hm : ∀ l, (qs l).m2 = computeS ps ((![A, B, C] : Fin 3 → List (Fin n)) l) := by
    intro l
    rw [(C03_m2_minkowski c (qs l) (hcons l).1).1, cluster_r2 hq, computeS, pyDet_eq_det]
  have htot : totalMom qs = totalMom ps := C45_total_momentum hq (by
    have : (List.finRange 3).flatMap (![A, B, C] : Fin 3 → List (Fin n)) = A ++ B ++ C := by simp [List.finRange_succ]
    rw [this]
    exact hp)
  refine ⟨A, B, C, qs, fun fuel hf => hr fuel hf [], fun fuel hf => by simp only [threeKs, hr fuel hf, hq], hh, hp, hcons, htot, ?_, ⟨hm 0, hm 1, hm 2⟩,
    fun l hl => C45_single_leg hq 0 l hl, fun l hl => C45_single_leg hq 1 l hl, fun l hl => C45_single_leg hq 2 l hl,
    fun fuel hf => by simp only [threeLists, hr fuel hf, Option.map_some], fun h0 => ?_⟩
  · intro a b
    exact ⟨C45_leg_momentum hq 0 a b, C45_leg_momentum hq 1 a b, C45_leg_momentum hq 2 a b⟩
  · have hz : totalMom ps = 0 := by
      ext a b
      exact h0 a b
    have hsum : sumR2 ps A + sumR2 ps B + sumR2 ps C = 0 := by
      rw [← sumR2_append, ← sumR2_append, sumR2_perm ps hp, sumR2_finRange, hz]
    obtain ⟨k1, -, k3⟩ := C25_kallen c ps hps ![A, B, C] hsum
    have hsq : sumR2 qs [0] + sumR2 qs [1] + sumR2 qs [2] = 0 := by
      rw [← sumR2_append, ← sumR2_append, show ([0] ++ [1] ++ [2] : List (Fin 3)) = List.finRange 3 by decide, sumR2_finRange, htot, hz]
    obtain ⟨l1, -, l3⟩ := C25_kallen c qs hcons ![[0], [1], [2]] hsq
    have s1 : ∀ l : Fin 3, computeS qs [l] = (qs l).m2 := by
      intro l
      rw [(C45_invariants hps hq).1 [l], hm l]
      simp
    have k1' : 4 * computeDelta ps 1 ![A, B, C] = SpecKallen (qs 0).m2 (qs 1).m2 (qs 2).m2 := by
      rw [hm 0, hm 1, hm 2]
      exact k1
    have l1' : 4 * computeDelta qs 1 ![[0], [1], [2]] = SpecKallen (qs 0).m2 (qs 1).m2 (qs 2).m2 := by
      rw [← s1 0, ← s1 1, ← s1 2]
      exact l1
    refine ⟨?_, k1', ?_⟩
    · rw [← k1']
      exact congrArg _ k3
    · rw [← l1']
      exact congrArg _ l3

/-- Reordered corners give reordered particles. -/
theorem cluster_reorder {m : ℕ} (c : Ctx K) (ps : Point K n) (corner : Fin m → List (Fin n)) (σ : Equiv.Perm (Fin m)) {qs : Point K m}
    (h : cluster c ps corner = some qs) : cluster c ps (corner ∘ σ) = some (qs ∘ σ) := by
  unfold cluster at h ⊢
  split at h
  · rename_i hs
    rw [if_pos (show ∀ k, (clusterLeg c ps ((corner ∘ σ) k)).isSome from fun k => hs (σ k))]
    injection h with h
    rw [← h]
    rfl
  · exact absurd h (by simp)

/-- C131: with the labels in another order the same three particles are returned in that order. (The two exchanges generate all orders.) -/
theorem C131_order (c : Ctx K) (ps : Point K n) {i j k : Fin n} (hij : i ≠ j) (hjk : j ≠ k) (hik : i ≠ k) (fuel : ℕ) (hf : n ≤ fuel)
    {qs : Point K 3} (h : threeKs c ps fuel [((i : ℕ) : ℤ) + 1, ((j : ℕ) : ℤ) + 1, ((k : ℕ) : ℤ) + 1] = some (.ok qs)) :
    threeKs c ps fuel [((j : ℕ) : ℤ) + 1, ((i : ℕ) : ℤ) + 1, ((k : ℕ) : ℤ) + 1] = some (.ok ![qs 1, qs 0, qs 2]) ∧
    threeKs c ps fuel [((i : ℕ) : ℤ) + 1, ((k : ℕ) : ℤ) + 1, ((j : ℕ) : ℤ) + 1] = some (.ok ![qs 0, qs 2, qs 1]) := by
  have rg : ∀ x : Fin n, (1 : ℤ) ≤ ((x : ℕ) : ℤ) + 1 ∧ ((x : ℕ) : ℤ) + 1 ≤ n := fun x => ⟨by omega, by omega⟩
  have ne : ∀ {x y : Fin n}, x ≠ y → ((x : ℕ) : ℤ) + 1 ≠ ((y : ℕ) : ℤ) + 1 := fun h e => h (Fin.ext (by omega))
  obtain ⟨A', B', C', o1, o2, -, -, o3, -⟩ := C95_order n fuel _ _ _ (rg i) (rg j) (rg k) (ne hij) (ne hjk) (ne hik) hf
  obtain ⟨A, B, C, hr, -, -⟩ := corners3_ok hij hjk hik
  have hr := hr fuel hf []
  simp only [threeCorners, o1] at hr
  rcases hA : A'.mapM (fun z => label n z.toNat) with eA | A1 <;> rcases hB : B'.mapM (fun z => label n z.toNat) with eB | B1 <;>
    rcases hC : C'.mapM (fun z => label n z.toNat) with eC | C1 <;> rw [hA, hB, hC] at hr <;> simp only [Option.some.injEq, reduceCtorEq, Except.ok.injEq, Prod.mk.injEq] at hr
  obtain ⟨rfl, rfl, rfl⟩ := hr
  have h1 : cluster c ps ![A1, B1, C1] = some qs := by
    simp only [threeKs, threeCorners, o1, hA, hB, hC] at h
    rcases hq : cluster c ps ![A1, B1, C1] with _ | q
    · rw [hq] at h
      simp at h
    · rw [hq] at h
      simpa using h
  constructor
  · have e : (![B1, A1, C1] : Fin 3 → List (Fin n)) = ![A1, B1, C1] ∘ Equiv.swap 0 1 := by
      funext l
      fin_cases l <;> rfl
    simp only [threeKs, threeCorners, o2, hA, hB, hC]
    rw [e, cluster_reorder c ps _ _ h1]
    simp only [Option.some.injEq, Except.ok.injEq]
    funext l
    fin_cases l <;> rfl
  · have e : (![A1, C1, B1] : Fin 3 → List (Fin n)) = ![A1, B1, C1] ∘ Equiv.swap 1 2 := by
      funext l
      fin_cases l <;> rfl
    simp only [threeKs, threeCorners, o3, hA, hB, hC]
    rw [e, cluster_reorder c ps _ _ h1]
    simp only [Option.some.injEq, Except.ok.injEq]
    funext l
    fin_cases l <;> rfl

/-- The lists that the shorthands are evaluated with are those of `ijk_to_3NonOverlappingLists`. -/
theorem shortCorners_eq (h9 : n ≤ 9) (fuel : ℕ) (i j k : Fin n) :
    shortCorners n fuel (digitText [i, j, k]) = threeCorners n fuel [((i : ℕ) : ℤ) + 1, ((j : ℕ) : ℤ) + 1, ((k : ℕ) : ℤ) + 1] := by
  have ed : digitsOf (digitText [i, j, k]) = [(i : ℕ) + 1, (j : ℕ) + 1, (k : ℕ) + 1] := by
    simp only [digitsOf, digitText, List.map_cons, List.map_nil]
    rw [digitOf_val _ (by omega), digitOf_val _ (by omega), digitOf_val _ (by omega)]
  simp only [shortCorners, threeCorners, ed, Nat.cast_add, Nat.cast_one]
  rfl

/-- C131: `Δ_ijk` has on the point the value that `Δ_123` has on the three particles of `ijk_to_3Ks`: a quarter of the Källén function of their squared
masses. -/
theorem C131_text [NeZero (2 : K)] (c : Ctx K) (hc : c.conv = .symmetric) (ps : Point K n) (hps : ∀ l, Consistent c (ps l))
    (h0 : ∀ a b, totalMom ps a b = 0) (h9 : n ≤ 9) {i j k : Fin n} (hij : i ≠ j) (hjk : j ≠ k) (hik : i ≠ k) (fuel : ℕ) (hf : n ≤ fuel) :
    ∃ qs : Point K 3, threeKs c ps fuel [((i : ℕ) : ℤ) + 1, ((j : ℕ) : ℤ) + 1, ((k : ℕ) : ℤ) + 1] = some (.ok qs) ∧
      computeText ps fuel ("Δ_".toList ++ digitText [i, j, k]) = some (.ok (.num (SpecKallen (qs 0).m2 (qs 1).m2 (qs 2).m2 / 4))) ∧
      computeText qs fuel "Δ_123".toList = some (.ok (.num (SpecKallen (qs 0).m2 (qs 1).m2 (qs 2).m2 / 4))) := by
  have h4 : (4 : K) ≠ 0 := by
    rw [show (4 : K) = 2 * 2 by norm_num]
    exact mul_ne_zero (NeZero.ne 2) (NeZero.ne 2)
  obtain ⟨A, B, C, qs, hr, hq, hh, -, -, -, -, -, -, -, -, -, hk⟩ := C131_three c hc ps hps hij hjk hik
  obtain ⟨k1, -, k3⟩ := hk h0
  refine ⟨qs, hq fuel hf, ?_, ?_⟩
  · have := (C82_shorthands ps fuel i j k (by intro l _; omega) (by rw [shortCorners_eq h9, hr fuel hf])).2.2
    rw [this, ← k1, mul_div_cancel_left₀ _ h4]
  · have h3 : 3 ≤ fuel := by
      have : i.1 ≠ j.1 := fun h => hij (Fin.ext h)
      have : j.1 ≠ k.1 := fun h => hjk (Fin.ext h)
      have : i.1 ≠ k.1 := fun h => hik (Fin.ext h)
      omega
    obtain ⟨f, rfl⟩ : ∃ f, fuel = f + 3 := ⟨fuel - 3, by omega⟩
    have hs : shortCorners 3 (f + 3) (digitText [(0 : Fin 3), 1, 2]) = some (.ok ([0], [1], [2])) := by
      rw [shortCorners_eq (by omega)]
      rfl
    have := (C82_shorthands qs (f + 3) (0 : Fin 3) 1 2 (by intro l _; omega) hs).2.2
    rw [show "Δ_123".toList = "Δ_".toList ++ digitText [(0 : Fin 3), 1, 2] by decide, this, ← k3, mul_div_cancel_left₀ _ h4]

end Lips

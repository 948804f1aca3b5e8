import Verif.Props.Cluster

/-!
C46 from ten particles on.
-/

namespace Lips

variable {K : Type*} [Field K] {n : ℕ}

/-- Ten corners: the particles from ten on in the first, then the particles one to nine each alone. -/
def cornersTen (hn : 10 ≤ n) : Fin 10 → List (Fin n) := fun k =>
  if k = 0 then (List.range' 9 (n - 9)).pmap (fun i h => ⟨i, h⟩) (fun i hi => by rw [List.mem_range'_1] at hi; omega) else [⟨(k : ℕ) - 1, by omega⟩]

/-- They are not empty, have no particle twice, and every particle is in one of them. -/
theorem cornersTen_partition (hn : 10 ≤ n) : (∀ k, cornersTen hn k ≠ []) ∧ (∀ k, (cornersTen hn k).Nodup) ∧
    (∀ k k', k ≠ k' → (cornersTen hn k).Disjoint (cornersTen hn k')) ∧ ∀ i, ∃ k, i ∈ cornersTen hn k := by
  have mem : ∀ (i : Fin n) (k : Fin 10), i ∈ cornersTen hn k ↔ if k = 0 then 9 ≤ (i : ℕ) else (i : ℕ) + 1 = k := by
    intro i k
    unfold cornersTen
    by_cases hk : k = 0
    · simp only [hk, if_true, List.mem_pmap, List.mem_range'_1]
      constructor
      · rintro ⟨a, ha, rfl⟩
        exact ha.1
      · intro h
        exact ⟨i, ⟨h, by omega⟩, rfl⟩
    · simp only [hk, if_false, List.mem_singleton, Fin.ext_iff]
      have : (k : ℕ) ≠ 0 := fun h => hk (Fin.ext h)
      omega
  refine ⟨fun k => ?_, fun k => ?_, fun k k' hkk i hi hi' => ?_, fun i => ?_⟩
  · unfold cornersTen
    split
    · intro h
      have := congrArg List.length h
      simp at this
      omega
    · simp
  · unfold cornersTen
    split
    · exact List.Nodup.pmap (fun _ _ _ _ h => by simpa using h) List.nodup_range'
    · simp
  · rw [mem] at hi hi'
    have := k.2
    have := k'.2
    by_cases h1 : k = 0 <;> by_cases h2 : k' = 0 <;> simp only [h1, h2, if_true, if_false] at hi hi'
    · exact hkk (h1.trans h2.symm)
    · omega
    · omega
    · exact hkk (Fin.ext (by omega))
  · by_cases h : 9 ≤ (i : ℕ)
    · exact ⟨0, by rw [mem]; simpa using h⟩
    · refine ⟨⟨(i : ℕ) + 1, by omega⟩, ?_⟩
      rw [mem]
      simp [Fin.ext_iff]

theorem cornersTen_labels (hn : 10 ≤ n) : ∃ ls, cornerLabels (cornersTen hn) = (10 :: ls) :: [[1], [2], [3], [4], [5], [6], [7], [8], [9]] := by
  refine ⟨List.range' 11 (n - 10), ?_⟩
  have h : n - 9 = (n - 10) + 1 := by omega
  have h0 : ((cornersTen hn 0).map fun i : Fin n => (i : ℕ) + 1) = 10 :: List.range' 11 (n - 10) := by
    simp only [cornersTen, if_true, List.map_pmap, List.pmap_eq_map, h, List.range'_succ, List.map_cons]
    congr 1
    apply List.ext_getElem <;> simp
    intro i _
    omega
  unfold cornerLabels
  rw [List.ofFn_succ, h0]
  simp [cornersTen, List.ofFn_succ]

theorem ten_rules (ls : List ℕ) :
    subsDict "s_9".toList (clusterRules ((10 :: ls) :: [[1], [2], [3], [4], [5], [6], [7], [8], [9]])) = .ok "s_10".toList := by
  have ht : cornerText (10 :: ls) = '1' :: '0' :: cornerText ls := rfl
  have h1 : cornerText [1] = ['1'] := rfl
  have h2 : cornerText [2] = ['2'] := rfl
  have h3 : cornerText [3] = ['3'] := rfl
  have h4 : cornerText [4] = ['4'] := rfl
  have h5 : cornerText [5] = ['5'] := rfl
  have h6 : cornerText [6] = ['6'] := rfl
  have h7 : cornerText [7] = ['7'] := rfl
  have h8 : cornerText [8] = ['8'] := rfl
  have h9 : cornerText [9] = ['9'] := rfl
  have hp : pyStr 10 = ['1', '0'] := rfl
  unfold clusterRules
  simp only [List.mapIdx_cons, List.mapIdx_nil, ht, h1, h2, h3, h4, h5, h6, h7, h8, h9]
  generalize cornerText ls = T
  rw [dictOf_nodup _ [] (by simp), dictOf_nodup _ [] (by simp), dictOf_nodup _ _ (by simp)]
  have hs : "s_9".toList = ['s', '_', '9'] := by decide
  have hs' : "s_10".toList = ['s', '_', '1', '0'] := by decide
  simp [hs, hs', subsDict, subsScan, firstMatch, hp]

/-- C46 is false for every number of particles from ten on: with ten corners the mass `s_9` of particle nine, alone in the tenth corner, becomes `s_10`,
which on the clustered point is read as the labels one and zero and raises IndexError. -/
theorem C46_wrong_from_ten (hn : 10 ≤ n) {c : Ctx K} {ps : Point K n} {qs : Point K 10} (_ : cluster c ps (cornersTen hn) = some qs) :
    cornersTen hn 9 = [⟨8, by omega⟩] ∧ ∃ v : MassVal K, clusterMass (cornerLabels (cornersTen hn)) (.str "s_9".toList) = .ok v ∧
      computeMass ps (.str "s_9".toList) = some (.ok (computeS ps [⟨8, by omega⟩])) ∧ computeMass qs v = some (.error .indexError) := by
  refine ⟨rfl, .str "s_10".toList, ?_, ?_, ?_⟩
  · obtain ⟨ls, hl⟩ := cornersTen_labels hn
    have : subsDict "s_9".toList (clusterRules (cornerLabels (cornersTen hn))) = .ok "s_10".toList := by
      rw [hl]
      exact ten_rules ls
    simp only [clusterMass, this]
  · have h1 : readS "s_9".toList = some [9] := by decide
    have h2 : [9].mapM (label n) = .ok [⟨8, by omega⟩] := by
      have : label n 9 = .ok ⟨8, by omega⟩ := by rw [label, dif_pos ⟨by omega, by omega⟩]
      rw [List.mapM_cons, this]
      rfl
    simp only [computeMass, computeSText, h1, h2]
  · have h1 : readS "s_10".toList = some [1, 0] := by decide
    have h2 : [1, 0].mapM (label 10) = .error .indexError := by rfl
    simp only [computeMass, computeSText, h1, h2]

/-- In the symmetric convention every point can be clustered this way. -/
example (hn : 10 ≤ n) (c : Ctx K) (hc : c.conv = .symmetric) (ps : Point K n) : ∃ qs, cluster c ps (cornersTen hn) = some qs :=
  C45_succeeds c hc ps _ (cornersTen_partition hn).1

end Lips

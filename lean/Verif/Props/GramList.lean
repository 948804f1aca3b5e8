import Verif.Props.Generators
import Verif.Props.Neighbours
import Verif.Props.Arcs

/-!
Property C56: the list of three-mass Gram determinants.
-/

namespace Lips

theorem cyc_range {n a k : ℕ} (ha : 1 ≤ a) (ha' : a ≤ n) (hk : k < n) : 1 ≤ cyc n a k ∧ cyc n a k ≤ n := by
  unfold cyc; split_ifs <;> omega

theorem cyc_inj {n a k l : ℕ} (hk : k < n) (hl : l < n) (h : cyc n a k = cyc n a l) : k = l := by
  unfold cyc at h; split_ifs at h <;> omega

/-- The triple of the parameters of the three loops. -/
def dTriple (n i j k : ℕ) : ℕ × ℕ × ℕ := (if j = 0 then 1 else n - j + 1, i - j + 1, i - j + 1 + k)

theorem mem_genDTriples {n : ℕ} {t : ℕ × ℕ × ℕ} :
    t ∈ genDTriples n ↔ ∃ i j k, 2 ≤ i ∧ j < i ∧ 2 ≤ k ∧ i + k + 2 ≤ n ∧ t = dTriple n i j k := by
  have hstart : ∀ j < n, (-(j : ℤ) % (n : ℤ)).toNat + 1 = if j = 0 then 1 else n - j + 1 := by
    intro j hj
    split_ifs with h
    · subst h; simp
    · have : -(j : ℤ) % (n : ℤ) = ((n - j : ℕ) : ℤ) := by
        rw [← Int.add_emod_right, Int.emod_eq_of_lt (by omega) (by omega)]
        omega
      rw [this]; simp
  simp only [genDTriples, List.mem_flatMap, List.mem_map, List.mem_range'_1, List.mem_range]
  constructor
  · rintro ⟨i, hi, j, hj, k, hk, rfl⟩
    exact ⟨i, j, k, by omega, hj, by omega, by omega, by rw [hstart j (by omega), dTriple]⟩
  · rintro ⟨i, j, k, h1, h2, h3, h4, rfl⟩
    exact ⟨i, by omega, j, h2, k, by omega, by rw [hstart j (by omega), dTriple]⟩

theorem dTriple_inj {n i j k i' j' k' : ℕ} (h1 : j < i) (h1' : j' < i') (h2 : i + 2 ≤ n) (h2' : i' + 2 ≤ n)
    (h : dTriple n i j k = dTriple n i' j' k') : i = i' ∧ j = j' ∧ k = k' := by
  simp only [dTriple, Prod.mk.injEq] at h
  obtain ⟨ha, hb, hc⟩ := h
  have : j = j' := by split_ifs at ha <;> omega
  omega

theorem nodup_genDTriples (n : ℕ) : (genDTriples n).Nodup := by
  unfold genDTriples
  have hmem : ∀ (j : ℕ), j < n → (-(j : ℤ) % (n : ℤ)).toNat + 1 = if j = 0 then 1 else n - j + 1 := by
    intro j hj
    split_ifs with h
    · subst h; simp
    · have : -(j : ℤ) % (n : ℤ) = ((n - j : ℕ) : ℤ) := by
        rw [← Int.add_emod_right, Int.emod_eq_of_lt (by omega) (by omega)]
        omega
      rw [this]; simp
  rw [List.nodup_flatMap]
  refine ⟨fun i hi => ?_, ?_⟩
  · rw [List.mem_range'_1] at hi
    rw [List.nodup_flatMap]
    refine ⟨fun j hj => ?_, ?_⟩
    · refine List.Nodup.map (fun a b h => ?_) List.nodup_range'
      simp only [Prod.mk.injEq] at h
      omega
    · refine List.Pairwise.imp_of_mem ?_ (List.nodup_range (n := i))
      intro j j' hj hj' hne t ht ht'
      rw [List.mem_range] at hj hj'
      obtain ⟨k, _, rfl⟩ := List.mem_map.1 ht
      obtain ⟨k', _, h⟩ := List.mem_map.1 ht'
      simp only [Prod.mk.injEq] at h
      omega
  · refine List.Pairwise.imp_of_mem ?_ (List.nodup_range' (s := 2) (n := n - 3 - 2))
    intro i i' hi hi' hne t ht ht'
    rw [List.mem_range'_1] at hi hi'
    obtain ⟨j, hj, ht⟩ := List.mem_flatMap.1 ht
    obtain ⟨j', hj', ht'⟩ := List.mem_flatMap.1 ht'
    obtain ⟨k, _, rfl⟩ := List.mem_map.1 ht
    obtain ⟨k', _, h⟩ := List.mem_map.1 ht'
    rw [List.mem_range] at hj hj'
    rw [hmem j (by omega), hmem j' (by omega)] at h
    exact hne (dTriple_inj (n := n) (k := k) (k' := k') hj hj' (by omega) (by omega) h.symm).1

/-- The arcs of a triple of the list. -/
theorem arcsOf_dTriple {n i j k : ℕ} (h1 : 2 ≤ i) (h2 : j < i) (h3 : 2 ≤ k) (h4 : i + k + 2 ≤ n) :
    arcsOf n (dTriple n i j k) = {arcSet n (if j = 0 then 1 else n - j + 1) i, arcSet n (i - j + 1) k,
      arcSet n (i - j + 1 + k) (n - i - k)} := by
  have e1 : stepsTo n (if j = 0 then 1 else n - j + 1) (i - j + 1) = i := by
    unfold stepsTo; split_ifs <;> omega
  have e2 : stepsTo n (i - j + 1) (i - j + 1 + k) = k := by unfold stepsTo; split_ifs <;> omega
  have e3 : stepsTo n (i - j + 1 + k) (if j = 0 then 1 else n - j + 1) = n - i - k := by
    unfold stepsTo; split_ifs <;> omega
  simp only [arcsOf, dTriple, e1, e2, e3]

theorem mem_arc1 {n i j : ℕ} (h2 : j < i) (h4 : i ≤ n) (x : ℕ) :
    x ∈ arcSet n (if j = 0 then 1 else n - j + 1) i ↔ (1 ≤ x ∧ x ≤ i - j) ∨ (n - j < x ∧ x ≤ n) := by
  rw [mem_arcSet]
  constructor
  · rintro ⟨k, hk, rfl⟩
    unfold cyc; split_ifs <;> omega
  · rintro (h | h)
    · exact ⟨x + j - 1, by omega, by unfold cyc; split_ifs <;> omega⟩
    · exact ⟨x - (n - j + 1), by omega, by unfold cyc; split_ifs <;> omega⟩

theorem mem_arc_plain {n a len : ℕ} (ha : a + len ≤ n + 1) (x : ℕ) :
    x ∈ arcSet n a len ↔ a ≤ x ∧ x < a + len := by
  rw [mem_arcSet]
  constructor
  · rintro ⟨k, hk, rfl⟩
    unfold cyc; split_ifs <;> omega
  · rintro h
    exact ⟨x - a, by omega, by unfold cyc; split_ifs <;> omega⟩

/-- C56: the list has no repetitions, every entry names three consecutive arcs of at least two labels
that partition the labels, and every such partition is named by exactly one entry. -/
theorem C56_partitions (n : ℕ) : (genDTriples n).Nodup ∧
    (∀ t ∈ genDTriples n, IsArcPartition n (arcsOf n t)) ∧
    (∀ P, IsArcPartition n P → ∃! t, t ∈ genDTriples n ∧ arcsOf n t = P) := by
  refine ⟨nodup_genDTriples n, ?_, ?_⟩
  · intro t ht
    obtain ⟨i, j, k, h1, h2, h3, h4, rfl⟩ := mem_genDTriples.1 ht
    refine ⟨if j = 0 then 1 else n - j + 1, i, k, n - i - k, ?_, ?_, h1, h3, by omega, by omega, ?_⟩
    · split_ifs <;> omega
    · split_ifs <;> omega
    · rw [arcsOf_dTriple h1 h2 h3 h4]
      have e1 : cyc n (if j = 0 then 1 else n - j + 1) i = i - j + 1 := by unfold cyc; split_ifs <;> omega
      have e2 : cyc n (if j = 0 then 1 else n - j + 1) (i + k) = i - j + 1 + k := by
        unfold cyc; split_ifs <;> omega
      rw [e1, e2]
  · rintro P ⟨a, p, q, r, ha, ha', hp, hq, hr, hsum, rfl⟩
    -- the arc containing label 1
    have rot : ∀ a p q r : ℕ, 1 ≤ a → a ≤ n → 2 ≤ p → 2 ≤ q → 2 ≤ r → p + q + r = n → 1 ∈ arcSet n a p →
        ∃ t ∈ genDTriples n, arcsOf n t = {arcSet n a p, arcSet n (cyc n a p) q, arcSet n (cyc n a (p + q)) r} := by
      intro a p q r ha ha' hp hq hr hsum h1
      obtain ⟨k, hk, hk1⟩ := mem_arcSet.1 h1
      have hak : a = if k = 0 then 1 else n - k + 1 := by
        unfold cyc at hk1; split_ifs at hk1 ⊢ <;> omega
      refine ⟨dTriple n p k q, mem_genDTriples.2 ⟨p, k, q, hp, hk, hq, by omega, rfl⟩, ?_⟩
      rw [arcsOf_dTriple hp hk hq (by omega)]
      have e1 : cyc n a p = p - k + 1 := by rw [hak]; unfold cyc; split_ifs <;> omega
      have e2 : cyc n a (p + q) = p - k + 1 + q := by rw [hak]; unfold cyc; split_ifs <;> omega
      rw [e1, e2, ← hak, show n - p - q = r by omega]
    have hex : ∃ t ∈ genDTriples n, arcsOf n t = {arcSet n a p, arcSet n (cyc n a p) q, arcSet n (cyc n a (p + q)) r} := by
      have hpos : ∃ k < n, 1 = cyc n a k :=
        ⟨if a = 1 then 0 else n + 1 - a, by split_ifs <;> omega, by unfold cyc; split_ifs <;> omega⟩
      obtain ⟨k, hk, hk1⟩ := hpos
      by_cases h1 : k < p
      · exact rot a p q r ha ha' hp hq hr hsum (mem_arcSet.2 ⟨k, h1, hk1⟩)
      by_cases h2 : k < p + q
      · have hr1 := cyc_range (n := n) ha ha' (k := p) (by omega)
        obtain ⟨t, ht, he⟩ := rot (cyc n a p) q r p hr1.1 hr1.2 hq hr hp (by omega)
          (mem_arcSet.2 ⟨k - p, by omega, by rw [hk1]; unfold cyc; split_ifs <;> omega⟩)
        refine ⟨t, ht, he.trans ?_⟩
        have e1 : cyc n (cyc n a p) q = cyc n a (p + q) := by unfold cyc; split_ifs <;> omega
        have e2 : cyc n (cyc n a p) (q + r) = a := by unfold cyc; split_ifs <;> omega
        rw [e1, e2]
        ext x; simp only [Finset.mem_insert, Finset.mem_singleton]; tauto
      · have hr1 := cyc_range (n := n) ha ha' (k := p + q) (by omega)
        obtain ⟨t, ht, he⟩ := rot (cyc n a (p + q)) r p q hr1.1 hr1.2 hr hp hq (by omega)
          (mem_arcSet.2 ⟨k - (p + q), by omega, by rw [hk1]; unfold cyc; split_ifs <;> omega⟩)
        refine ⟨t, ht, he.trans ?_⟩
        have e1 : cyc n (cyc n a (p + q)) r = a := by unfold cyc; split_ifs <;> omega
        have e2 : cyc n (cyc n a (p + q)) (r + p) = cyc n a p := by unfold cyc; split_ifs <;> omega
        rw [e1, e2]
        ext x; simp only [Finset.mem_insert, Finset.mem_singleton]; tauto
    obtain ⟨t, ht, he⟩ := hex
    refine ⟨t, ⟨ht, he⟩, ?_⟩
    rintro t' ⟨ht', he'⟩
    rw [← he] at he'
    clear he
    obtain ⟨i, j, k, h1, h2, h3, h4, rfl⟩ := mem_genDTriples.1 ht
    obtain ⟨i', j', k', h1', h2', h3', h4', rfl⟩ := mem_genDTriples.1 ht'
    rw [arcsOf_dTriple h1 h2 h3 h4, arcsOf_dTriple h1' h2' h3' h4'] at he'
    -- the arc with label 1 agrees
    have pick : ∀ (x : ℕ) {A B C A' B' C' : Finset ℕ}, ({A', B', C'} : Finset (Finset ℕ)) = {A, B, C} → x ∈ A' → x ∉ B →
        x ∉ C → A' = A := by
      intro x A B C A' B' C' h hx hB hC
      have : A' ∈ ({A, B, C} : Finset (Finset ℕ)) := by rw [← h]; simp
      simp only [Finset.mem_insert, Finset.mem_singleton] at this
      rcases this with rfl | rfl | rfl
      · rfl
      · exact absurd hx hB
      · exact absurd hx hC
    have m1 : ∀ {i j : ℕ}, j < i → i ≤ n → 1 ∈ arcSet n (if j = 0 then 1 else n - j + 1) i := by
      intro i j h hi
      exact (mem_arc1 h hi 1).2 (.inl ⟨le_rfl, by omega⟩)
    have hA := pick 1 he' (m1 h2' (by omega)) (by rw [mem_arc_plain (by omega)]; omega)
      (by
        by_cases hj : j = 0
        · rw [mem_arc_plain (by omega)]; omega
        · rw [mem_arc_plain (by omega)]; omega)
    have hcard : ∀ {i j : ℕ}, j < i → i ≤ n → (arcSet n (if j = 0 then 1 else n - j + 1) i).card = i := by
      intro i j h hi
      rw [arcSet, Finset.card_image_of_injOn, Finset.card_range]
      intro x hx y hy hxy
      rw [Finset.mem_coe, Finset.mem_range] at hx hy
      exact cyc_inj (by omega) (by omega) hxy
    have hi : i' = i := by rw [← hcard h2' (by omega), hA, hcard h2 (by omega)]
    subst hi
    have hmemA : ∀ x, (1 ≤ x ∧ x ≤ i' - j') ∨ (n - j' < x ∧ x ≤ n) ↔ (1 ≤ x ∧ x ≤ i' - j) ∨ (n - j < x ∧ x ≤ n) := by
      intro x
      rw [← mem_arc1 h2' (by omega), hA, mem_arc1 h2 (by omega)]
    have hj : j' = j := by
      have := hmemA (i' - j' + 1)
      have := hmemA (i' - j + 1)
      omega
    subst hj
    -- the arc with the first label after it agrees
    have he2 : ({arcSet n (i' - j' + 1) k', arcSet n (if j' = 0 then 1 else n - j' + 1) i',
        arcSet n (i' - j' + 1 + k') (n - i' - k')} : Finset (Finset ℕ)) =
        {arcSet n (i' - j' + 1) k, arcSet n (if j' = 0 then 1 else n - j' + 1) i',
        arcSet n (i' - j' + 1 + k) (n - i' - k)} := by
      rw [Finset.insert_comm, he', Finset.insert_comm]
    have hB := pick (i' - j' + 1) he2 ((mem_arc_plain (by omega) _).2 (by omega))
      (by rw [mem_arc1 h2 (by omega)]; omega) (by rw [mem_arc_plain (by omega)]; omega)
    have hk : k' = k := by
      have e1 := mem_arc_plain (n := n) (a := i' - j' + 1) (len := k') (by omega) (i' - j' + k')
      have e2 := mem_arc_plain (n := n) (a := i' - j' + 1) (len := k) (by omega) (i' - j' + k')
      have e3 := mem_arc_plain (n := n) (a := i' - j' + 1) (len := k') (by omega) (i' - j' + k)
      have e4 := mem_arc_plain (n := n) (a := i' - j' + 1) (len := k) (by omega) (i' - j' + k)
      rw [hB] at e1 e3
      have := e1.symm.trans e2
      have := e3.symm.trans e4
      omega
    rw [hk]

/-- C56, up to nine particles: the texts of the list name the triples without ambiguity. -/
theorem C56_texts {n : ℕ} (h6 : 6 ≤ n) (hn : n < 10) : (allD n).Nodup ∧
    ∀ t, t ∈ allD n ↔ ∃ a b c, (a, b, c) ∈ genDTriples n ∧ 1 ≤ a ∧ a ≤ n ∧ 1 ≤ b ∧ b ≤ n ∧ 1 ≤ c ∧ c ≤ n ∧
      t = ['Δ', '_', Nat.digitChar a, Nat.digitChar b, Nat.digitChar c] := by
  have hr : ∀ t ∈ genDTriples n, 1 ≤ t.1 ∧ t.1 ≤ n ∧ 1 ≤ t.2.1 ∧ t.2.1 ≤ n ∧ 1 ≤ t.2.2 ∧ t.2.2 ≤ n := by
    intro t ht
    obtain ⟨i, j, k, h1, h2, h3, h4, rfl⟩ := mem_genDTriples.1 ht
    simp only [dTriple]
    split_ifs <;> omega
  have htext : ∀ t ∈ genDTriples n, tripleText 'Δ' t =
      ['Δ', '_', Nat.digitChar t.1, Nat.digitChar t.2.1, Nat.digitChar t.2.2] := by
    intro t ht
    have := hr t ht
    simp [tripleText, pyStr_digit (show t.1 < 10 by omega), pyStr_digit (show t.2.1 < 10 by omega),
      pyStr_digit (show t.2.2 < 10 by omega)]
  rw [allD, if_pos h6]
  refine ⟨List.Nodup.map_on ?_ (nodup_genDTriples n), fun t => ?_⟩
  · intro x hx y hy hxy
    rw [htext x hx, htext y hy] at hxy
    have h1 := hr x hx
    have h2 := hr y hy
    simp only [List.cons.injEq, and_true, true_and] at hxy
    obtain ⟨e1, e2, e3⟩ := hxy
    rw [digitChar_inj _ (by omega) _ (by omega)] at e1 e2 e3
    exact Prod.ext e1 (Prod.ext e2 e3)
  · rw [List.mem_map]
    constructor
    · rintro ⟨⟨a, b, c⟩, hm, rfl⟩
      have := hr _ hm
      exact ⟨a, b, c, hm, this.1, this.2.1, this.2.2.1, this.2.2.2.1, this.2.2.2.2.1, this.2.2.2.2.2, htext _ hm⟩
    · rintro ⟨a, b, c, hm, _, _, _, _, _, _, rfl⟩
      exact ⟨(a, b, c), hm, htext _ hm⟩

example : (allD 6).map String.ofList = ["Δ_135", "Δ_624"] ∧ (allD 7).length = 7 := by decide

end Lips

import Verif.Props.Image
import Mathlib.Data.List.Permutation
import Mathlib.Data.Fintype.Perm
import Mathlib.Data.List.NodupEquivFin
import Mathlib.Algebra.BigOperators.Fin
import Mathlib.Tactic.Ring
import Mathlib.Tactic.Linarith

/-!
Property C37: the symmetries compatible with phase weights.
-/

namespace Lips

/-! ### `itertools.permutations` -/

theorem mem_pyPerms {β : Type*} : ∀ (k : ℕ) (l : List β), l.length = k →
    ∀ q, q ∈ pyPerms k l ↔ q.Perm l := by
  intro k
  induction k with
  | zero =>
    intro l hl q
    rw [List.length_eq_zero_iff] at hl
    subst hl
    simp [pyPerms]
  | succ k ih =>
    intro l hl q
    simp only [pyPerms, List.mem_flatMap, List.mem_range]
    constructor
    · rintro ⟨i, hi, hq⟩
      rw [List.getElem?_eq_getElem hi] at hq
      simp only [List.mem_map] at hq
      obtain ⟨q', hq', rfl⟩ := hq
      rw [ih _ (by rw [List.length_eraseIdx_of_lt hi]; omega)] at hq'
      exact (hq'.cons _).trans (List.getElem_cons_eraseIdx_perm hi)
    · intro h
      cases q with
      | nil => have := h.length_eq; simp at this; omega
      | cons x q' =>
        have hx : x ∈ l := h.subset (by simp)
        obtain ⟨i, hi, hxi⟩ := List.getElem_of_mem hx
        refine ⟨i, hi, ?_⟩
        rw [List.getElem?_eq_getElem hi]
        simp only [List.mem_map]
        refine ⟨q', ?_, by rw [hxi]⟩
        rw [ih _ (by rw [List.length_eraseIdx_of_lt hi]; omega)]
        have := h.trans (List.getElem_cons_eraseIdx_perm hi).symm
        rw [hxi] at this
        exact this.cons_inv

theorem nodup_pyPerms {β : Type*} : ∀ (k : ℕ) (l : List β), l.length = k → l.Nodup →
    (pyPerms k l).Nodup := by
  intro k
  induction k with
  | zero => intro l _ _; simp [pyPerms]
  | succ k ih =>
    intro l hl hn
    simp only [pyPerms]
    rw [List.nodup_flatMap]
    refine ⟨fun i hi => ?_, ?_⟩
    · rw [List.mem_range] at hi
      rw [List.getElem?_eq_getElem hi]
      refine (List.nodup_map_iff (fun a b h => (List.cons.inj h).2)).2 ?_
      exact ih _ (by rw [List.length_eraseIdx_of_lt hi]; omega) (hn.eraseIdx i)
    · refine (List.nodup_range (n := l.length)).imp_of_mem ?_
      intro i j hi hj hij
      rw [List.mem_range] at hi hj
      rw [Function.onFun, List.getElem?_eq_getElem hi, List.getElem?_eq_getElem hj]
      simp only
      rw [List.disjoint_left]
      intro q h1 h2
      simp only [List.mem_map] at h1 h2
      obtain ⟨a, _, rfl⟩ := h1
      obtain ⟨b, _, hb⟩ := h2
      have : l[j] = l[i] := (List.cons.inj hb).1
      exact hij (((List.Nodup.getElem_inj_iff hn).1 this).symm)

/-- The orderings of `1, ..., n` are the permutations. -/
theorem perm_range'_iff {n : ℕ} (q : List ℕ) :
    q.Perm (List.range' 1 n) ↔ ∃ σ : Equiv.Perm (Fin n), q = permLabels σ := by
  constructor
  · intro h
    have hl : q.length = n := by rw [h.length_eq]; simp
    have hn : q.Nodup := h.nodup_iff.2 List.nodup_range'
    have hm : ∀ x ∈ q, 1 ≤ x ∧ x ≤ n := by
      intro x hx
      have := h.subset hx
      rw [List.mem_range'_1] at this; omega
    let f : Fin n → Fin n := fun i =>
      ⟨q[(i : ℕ)]'(by rw [hl]; exact i.2) - 1, by
        have := hm _ (List.getElem_mem (by rw [hl]; exact i.2 : (i : ℕ) < q.length)); omega⟩
    have hf : Function.Injective f := by
      intro i j hij
      have h1 := hm _ (List.getElem_mem (by rw [hl]; exact i.2 : (i : ℕ) < q.length))
      have h2 := hm _ (List.getElem_mem (by rw [hl]; exact j.2 : (j : ℕ) < q.length))
      have h3 := congrArg Fin.val hij
      simp only [f] at h3
      apply Fin.ext
      refine (List.Nodup.getElem_inj_iff hn (hi := by rw [hl]; exact i.2)
        (hj := by rw [hl]; exact j.2)).1 (by omega)
    refine ⟨Equiv.ofBijective f (Finite.injective_iff_bijective.1 hf), ?_⟩
    apply List.ext_getElem
    · simp [permLabels, hl]
    · intro i h1 h2
      have := hm _ (List.getElem_mem h1)
      simp [permLabels, f]; omega
  · rintro ⟨σ, rfl⟩
    refine List.perm_of_nodup_nodup_toFinset_eq ?_ List.nodup_range' ?_
    · unfold permLabels
      refine (List.nodup_map_iff ?_).2 (List.nodup_finRange n)
      intro i j h
      exact σ.injective (Fin.ext (by simpa using h))
    · ext x
      simp only [permLabels, List.mem_toFinset, List.mem_map, List.mem_finRange, true_and,
        List.mem_range'_1]
      constructor
      · rintro ⟨i, rfl⟩; have := (σ i).2; omega
      · intro hx
        refine ⟨σ.symm ⟨x - 1, by omega⟩, ?_⟩
        simp; omega

theorem permLabels_injective {n : ℕ} : Function.Injective (permLabels (n := n)) := by
  intro σ τ h
  ext i
  have h1 : (permLabels σ)[(i : ℕ)]? = (permLabels τ)[(i : ℕ)]? := by rw [h]
  simpa [permLabels] using h1

theorem permString_eq {n : ℕ} (hn : n ≤ 9) (σ : Equiv.Perm (Fin n)) :
    (permLabels σ).flatMap pyStr = permString σ := by
  unfold permLabels permString
  rw [List.flatMap_map, List.flatMap_congr (g := fun j => [Nat.digitChar ((σ j : ℕ) + 1)])]
  · rw [← List.map_eq_flatMap]
  · intro j _
    exact pyStr_digit (by have := (σ j).2; omega)

theorem digitChar_inj : ∀ a < 10, ∀ b < 10, (Nat.digitChar a = Nat.digitChar b ↔ a = b) := by decide

theorem permString_injective {n : ℕ} (hn : n ≤ 9) : Function.Injective (permString (n := n)) := by
  intro σ τ h
  ext i
  have h1 : (permString σ)[(i : ℕ)]? = (permString τ)[(i : ℕ)]? := by rw [h]
  rw [getElem?_permString, getElem?_permString, Option.some.injEq,
    digitChar_inj _ (by have := (σ i).2; omega) _ (by have := (τ i).2; omega)] at h1
  omega

/-! ### C37 -/

/-- `σ` maps the weights to `s` times themselves. -/
def WeightSym {n : ℕ} (w : Fin n → ℤ) (s : ℤ) (σ : Equiv.Perm (Fin n)) : Prop :=
  ∀ i, w (σ i) = s * w i

theorem permWeights_eq {n : ℕ} (w : Fin n → ℤ) (σ : Equiv.Perm (Fin n)) :
    permWeights (List.ofFn w) (permLabels σ) = List.ofFn fun i => w (σ i) := by
  unfold permWeights permLabels
  rw [List.map_map, List.ofFn_eq_map, List.ofFn_eq_map]
  apply List.map_congr_left
  intro i _
  simp [List.getD_eq_getElem?_getD]

theorem mem_symPairs {n : ℕ} (w : Fin n → ℤ) (q : List ℕ) (b : Bool) :
    (q, b) ∈ symPairs (List.ofFn w) ↔ ∃ σ : Equiv.Perm (Fin n), q = permLabels σ ∧
      ((b = false ∧ WeightSym w 1 σ) ∨ (b = true ∧ WeightSym w (-1) σ ∧ ¬ WeightSym w 1 σ)) := by
  have e1 : ∀ σ : Equiv.Perm (Fin n), permWeights (List.ofFn w) (permLabels σ) = List.ofFn w ↔
      WeightSym w 1 σ := by
    intro σ
    rw [permWeights_eq, List.ofFn_inj, funext_iff]
    simp [WeightSym]
  have e2 : ∀ σ : Equiv.Perm (Fin n), permWeights (List.ofFn w) (permLabels σ) =
      (List.ofFn w).map (- ·) ↔ WeightSym w (-1) σ := by
    intro σ
    rw [permWeights_eq, List.map_ofFn, List.ofFn_inj, funext_iff]
    simp [WeightSym]
  unfold symPairs
  simp only [List.mem_filterMap, List.length_ofFn]
  constructor
  · rintro ⟨q', hq', h⟩
    rw [mem_pyPerms _ _ (by simp), perm_range'_iff] at hq'
    obtain ⟨σ, rfl⟩ := hq'
    refine ⟨σ, ?_⟩
    split at h
    · rename_i h1
      simp only [Option.some.injEq, Prod.mk.injEq] at h
      exact ⟨h.1.symm, Or.inl ⟨h.2.symm, (e1 σ).1 h1⟩⟩
    · rename_i h1
      split at h
      · rename_i h2
        simp only [Option.some.injEq, Prod.mk.injEq] at h
        exact ⟨h.1.symm, Or.inr ⟨h.2.symm, (e2 σ).1 h2, fun h3 => h1 ((e1 σ).2 h3)⟩⟩
      · cases h
  · rintro ⟨σ, rfl, h⟩
    refine ⟨permLabels σ, ?_, ?_⟩
    · rw [mem_pyPerms _ _ (by simp), perm_range'_iff]
      exact ⟨σ, rfl⟩
    · rcases h with ⟨rfl, h⟩ | ⟨rfl, h, h'⟩
      · rw [if_pos ((e1 σ).2 h)]
      · rw [if_neg (fun h3 => h' ((e1 σ).1 h3)), if_pos ((e2 σ).2 h)]

/-- C37: for at most nine weights the result consists exactly of the strings of the permutations
mapping the weights to themselves, flagged `False`, and of those mapping them to their negatives,
flagged `True`; when both hold (all weights zero) the flag is `False`. -/
theorem C37_exactly_the_symmetries {n : ℕ} (hn : n ≤ 9) (w : Fin n → ℤ) (σ : Equiv.Perm (Fin n))
    (b : Bool) : (permString σ, b) ∈ phaseSymmetries (List.ofFn w) ↔
      ((b = false ∧ WeightSym w 1 σ) ∨ (b = true ∧ WeightSym w (-1) σ ∧ ¬ WeightSym w 1 σ)) := by
  unfold phaseSymmetries
  simp only [List.mem_map, Prod.mk.injEq, Prod.exists]
  constructor
  · rintro ⟨q, b', h, h1, rfl⟩
    rw [mem_symPairs] at h
    obtain ⟨τ, rfl, h⟩ := h
    rw [permString_eq hn] at h1
    obtain rfl := permString_injective hn h1
    exact h
  · intro h
    exact ⟨permLabels σ, b, (mem_symPairs w _ b).2 ⟨σ, rfl, h⟩, permString_eq hn σ, rfl⟩

/-- C37: nothing but permutations is returned, and nothing twice. -/
theorem C37_no_repetition {n : ℕ} (hn : n ≤ 9) (w : Fin n → ℤ) :
    (phaseSymmetries (List.ofFn w)).Nodup ∧
    (phaseSymmetries (List.ofFn w)).Pairwise (fun r r' => r.1 ≠ r'.1) ∧
    ∀ r ∈ phaseSymmetries (List.ofFn w), ∃ σ : Equiv.Perm (Fin n), r.1 = permString σ := by
  have h2 : (phaseSymmetries (List.ofFn w)).Pairwise (fun r r' => r.1 ≠ r'.1) := by
    unfold phaseSymmetries
    rw [List.pairwise_map]
    have h : (symPairs (List.ofFn w)).Pairwise (fun r r' => r.1 ≠ r'.1) := by
      unfold symPairs
      refine List.Pairwise.filterMap _ ?_ (nodup_pyPerms _ _ (by simp) List.nodup_range')
      intro a a' haa b hb b' hb'
      have e : ∀ (x : List ℕ) (y : List ℕ × Bool), (if permWeights (List.ofFn w) x = List.ofFn w then
          some (x, false) else if permWeights (List.ofFn w) x = (List.ofFn w).map (- ·) then
          some (x, true) else none) = some y → y.1 = x := by
        intro x y h
        split at h
        · cases h; rfl
        · split at h
          · cases h; rfl
          · cases h
      rw [e _ _ hb, e _ _ hb']
      exact haa
    refine h.imp_of_mem ?_
    rintro ⟨q, b⟩ ⟨q', b'⟩ hq hq' hne
    rw [mem_symPairs] at hq hq'
    obtain ⟨σ, rfl, _⟩ := hq
    obtain ⟨τ, rfl, _⟩ := hq'
    simp only [permString_eq hn]
    exact fun h => hne (by rw [permString_injective hn h])
  refine ⟨h2.imp fun h h' => h (by rw [h']), h2, ?_⟩
  intro r hr
  unfold phaseSymmetries at hr
  simp only [List.mem_map, Prod.exists] at hr
  obtain ⟨q, b, h, rfl⟩ := hr
  rw [mem_symPairs] at h
  obtain ⟨σ, rfl, _⟩ := h
  exact ⟨σ, permString_eq hn σ⟩

theorem WeightSym.mul {n : ℕ} {w : Fin n → ℤ} {s t : ℤ} {σ τ : Equiv.Perm (Fin n)}
    (hs : WeightSym w s σ) (ht : WeightSym w t τ) : WeightSym w (s * t) (σ * τ) := by
  intro i
  rw [Equiv.Perm.mul_apply, hs, ht]; ring

theorem WeightSym.inv {n : ℕ} {w : Fin n → ℤ} {s : ℤ} (h1 : s * s = 1) {σ : Equiv.Perm (Fin n)}
    (hs : WeightSym w s σ) : WeightSym w s σ.symm := by
  intro i
  have := hs (σ.symm i)
  rw [Equiv.apply_symm_apply] at this
  rw [this, ← mul_assoc, h1, one_mul]

theorem weightSym_both {n : ℕ} {w : Fin n → ℤ} {σ : Equiv.Perm (Fin n)} (h1 : WeightSym w 1 σ)
    (h2 : WeightSym w (-1) σ) : w = 0 := by
  funext i
  have a := h1 i; have b := h2 i
  have : w i = 0 := by omega
  exact this

/-- C37: the symmetries of a list of at most nine weights form a group: the identity is among
them, they are closed under composition (flags added) and under `inverse`. -/
theorem C37_group {n : ℕ} (hn : n ≤ 9) (w : Fin n → ℤ) :
    identityRule n ∈ phaseSymmetries (List.ofFn w) ∧
    (∀ (σ τ : Equiv.Perm (Fin n)) (b b' : Bool),
      (permString σ, b) ∈ phaseSymmetries (List.ofFn w) →
      (permString τ, b') ∈ phaseSymmetries (List.ofFn w) →
      (permString (σ * τ), b ^^ b') ∈ phaseSymmetries (List.ofFn w)) ∧
    (∀ r ∈ phaseSymmetries (List.ofFn w), ∃ r', inverseRule r = .ok r' ∧
      r' ∈ phaseSymmetries (List.ofFn w)) := by
  refine ⟨?_, ?_, ?_⟩
  · rw [identity_string hn, C37_exactly_the_symmetries hn]
    exact Or.inl ⟨rfl, fun i => by simp⟩
  · intro σ τ b b' h h'
    rw [C37_exactly_the_symmetries hn] at h h' ⊢
    rcases h with ⟨rfl, h⟩ | ⟨rfl, h, hn1⟩ <;> rcases h' with ⟨rfl, h'⟩ | ⟨rfl, h', hn2⟩
    · exact Or.inl ⟨rfl, by simpa using h.mul h'⟩
    · refine Or.inr ⟨rfl, by simpa using h.mul h', fun h3 => hn2 ?_⟩
      have := weightSym_both h3 (by simpa using h.mul h')
      intro i; simp [this]
    · refine Or.inr ⟨rfl, by simpa using h.mul h', fun h3 => hn1 ?_⟩
      have := weightSym_both h3 (by simpa using h.mul h')
      intro i; simp [this]
    · exact Or.inl ⟨rfl, by simpa using h.mul h'⟩
  · rintro ⟨p, b⟩ hr
    obtain ⟨σ, hσ⟩ := (C37_no_repetition hn w).2.2 _ hr
    simp only at hσ
    subst hσ
    refine ⟨(permString σ.symm, b), by simp [inverseRule, C36_inverse hn], ?_⟩
    rw [C37_exactly_the_symmetries hn] at hr ⊢
    rcases hr with ⟨rfl, h⟩ | ⟨rfl, h, h'⟩
    · exact Or.inl ⟨rfl, h.inv (by norm_num)⟩
    · refine Or.inr ⟨rfl, h.inv (by norm_num), fun h3 => h' ?_⟩
      have := h3.inv (by norm_num)
      simpa using this

/-- C37: `all_symmetries` returns every permutation with flag `False`, `n!` of them. -/
theorem C37_all_symmetries {n : ℕ} (hn : n ≤ 9) :
    (∀ (σ : Equiv.Perm (Fin n)) (b : Bool), (permString σ, b) ∈ allSymmetries n ↔ b = false) ∧
    (allSymmetries n).length = n.factorial := by
  have e : List.replicate n (0 : ℤ) = List.ofFn (fun _ : Fin n => (0 : ℤ)) := by simp
  unfold allSymmetries
  rw [e]
  have h1 : ∀ (σ : Equiv.Perm (Fin n)) (b : Bool),
      (permString σ, b) ∈ phaseSymmetries (List.ofFn fun _ : Fin n => (0 : ℤ)) ↔ b = false := by
    intro σ b
    rw [C37_exactly_the_symmetries hn]
    simp [WeightSym]
  refine ⟨h1, ?_⟩
  obtain ⟨hd, -, hs⟩ := C37_no_repetition hn (fun _ : Fin n => (0 : ℤ))
  have hperm : (phaseSymmetries (List.ofFn fun _ : Fin n => (0 : ℤ))).Perm
      ((Finset.univ : Finset (Equiv.Perm (Fin n))).toList.map fun σ => (permString σ, false)) := by
    refine List.perm_of_nodup_nodup_toFinset_eq hd ?_ ?_
    · exact (List.nodup_map_iff (fun a b h => permString_injective hn (Prod.mk.inj h).1)).2
        (Finset.nodup_toList _)
    · ext ⟨p, b⟩
      simp only [List.mem_toFinset, List.mem_map, Finset.mem_toList, Finset.mem_univ, true_and]
      constructor
      · intro h
        obtain ⟨σ, hσ⟩ := hs _ h
        simp only at hσ
        subst hσ
        rw [h1] at h
        exact ⟨σ, by rw [h]⟩
      · rintro ⟨σ, hσ⟩
        rw [← hσ, h1]
  rw [hperm.length_eq, List.length_map, Finset.length_toList, Finset.card_univ, Fintype.card_perm,
    Fintype.card_fin]

/-- C37 (finding): from eleven labels on the strings are ambiguous and the result repeats itself:
`1` followed by `11` and `11` followed by `1` are spelled alike. -/
theorem C37_repeats_from_eleven (m : ℕ) : ¬ (allSymmetries (11 + m)).Nodup := by
  have e : List.replicate (11 + m) (0 : ℤ) = List.ofFn (fun _ : Fin (11 + m) => (0 : ℤ)) := by simp
  have hperm : ∀ q : List ℕ, q.Perm (List.range' 1 (11 + m)) →
      (q, false) ∈ symPairs (List.replicate (11 + m) 0) := by
    intro q hq
    obtain ⟨σ, rfl⟩ := (perm_range'_iff q).1 hq
    rw [e, mem_symPairs]
    exact ⟨σ, rfl, Or.inl ⟨rfl, fun i => by simp⟩⟩
  let rest := (List.range' 2 9) ++ List.range' 12 m
  have hr : List.range' 1 (11 + m) = 1 :: ((List.range' 2 9) ++ 11 :: List.range' 12 m) := by
    rw [← List.range'_append_1]; rfl
  have p1 : (1 :: 11 :: rest).Perm (List.range' 1 (11 + m)) := by
    rw [hr]
    exact (List.perm_middle.symm).cons 1
  have p2 : (11 :: 1 :: rest).Perm (List.range' 1 (11 + m)) := (List.Perm.swap 1 11 rest).trans p1
  intro hnd
  unfold allSymmetries phaseSymmetries at hnd
  rw [List.nodup_map_iff_inj_on] at hnd
  · have := hnd _ (hperm _ p1) _ (hperm _ p2) (by
      congr 1)
    simp at this
  · unfold symPairs
    refine List.Nodup.filterMap ?_ (nodup_pyPerms _ _ (by simp) List.nodup_range')
    intro a a' b hb hb'
    simp only [Option.mem_def] at hb hb'
    have e : ∀ (W : List ℤ) (x : List ℕ) (y : List ℕ × Bool), (if permWeights W x = W then
        some (x, false) else if permWeights W x = W.map (- ·) then
        some (x, true) else none) = some y → y.1 = x := by
      intro W x y h
      split at h
      · cases h; rfl
      · split at h
        · cases h; rfl
        · cases h
    rw [← e _ _ _ hb, ← e _ _ _ hb']

end Lips

import Verif.Props.Symmetry

/-! C37 at ten particles: the strings are still read in one way only, so the result is exact and free of repetition up to ten. -/

namespace Lips

/-- The labels of a permutation, written in decimal one after another. -/
def decimalString {n : ℕ} (σ : Equiv.Perm (Fin n)) : List Char := (List.finRange n).flatMap fun k => pyStr ((σ k : ℕ) + 1)

theorem decimalString_eq {n : ℕ} (σ : Equiv.Perm (Fin n)) : (permLabels σ).flatMap pyStr = decimalString σ := by
  rw [permLabels, decimalString, List.flatMap_map]

theorem pyStr_ten : ∀ a ∈ List.range' 1 10, ∃ d s, pyStr a = d :: s ∧ d ≠ '0' := by
  have h : ∀ a ∈ List.range' 1 10, pyStr a ≠ [] ∧ (pyStr a).head? ≠ some '0' := by decide
  intro a ha
  obtain ⟨h1, h2⟩ := h a ha
  rcases hs : pyStr a with _ | ⟨d, s⟩
  · exact absurd hs h1
  · rw [hs] at h2
    exact ⟨d, s, rfl, by simpa using h2⟩

theorem flat_head : ∀ (l : List ℕ), (∀ a ∈ l, 1 ≤ a ∧ a ≤ 10) → ∀ s, l.flatMap pyStr ≠ '0' :: s
  | [], _, s => by simp
  | a :: l, h, s => by
    rw [List.forall_mem_cons] at h
    obtain ⟨d, t, e, hd⟩ := pyStr_ten a (by rw [List.mem_range'_1]; omega)
    rw [List.flatMap_cons, e, List.cons_append]
    intro h
    exact hd (List.cons.inj h).1

/-- Lists of labels from one to ten can be read back from the text. -/
theorem flat_inj : ∀ (l m : List ℕ), (∀ a ∈ l, 1 ≤ a ∧ a ≤ 10) → (∀ a ∈ m, 1 ≤ a ∧ a ≤ 10) → l.flatMap pyStr = m.flatMap pyStr → l = m
  | [], [], _, _, _ => rfl
  | [], b :: m, _, hm, h => by
    obtain ⟨d, t, e, -⟩ := pyStr_ten b (by have := hm b (by simp); rw [List.mem_range'_1]; omega)
    rw [List.flatMap_cons, e] at h
    simp at h
  | a :: l, [], hl, _, h => by
    obtain ⟨d, t, e, -⟩ := pyStr_ten a (by have := hl a (by simp); rw [List.mem_range'_1]; omega)
    rw [List.flatMap_cons, e] at h
    simp at h
  | a :: l, b :: m, hl, hm, h => by
    rw [List.forall_mem_cons] at hl hm
    rw [List.flatMap_cons, List.flatMap_cons] at h
    have key : a = b := by
      by_contra hab
      obtain ⟨⟨a1, a2⟩, hl'⟩ := hl
      obtain ⟨⟨b1, b2⟩, hm'⟩ := hm
      have h9 : ∀ x, 1 ≤ x → x ≤ 10 → x = 10 ∨ x ≤ 9 := by omega
      have p10 : pyStr 10 = ['1', '0'] := by decide
      have one : Nat.digitChar 1 = '1' := by decide
      rcases h9 a a1 a2 with rfl | ha <;> rcases h9 b b1 b2 with rfl | hb
      · exact hab rfl
      · rw [p10, pyStr_digit (by omega)] at h
        simp only [List.cons_append, List.nil_append, List.cons.injEq] at h
        exact flat_head m hm' _ h.2.symm
      · rw [p10, pyStr_digit (by omega)] at h
        simp only [List.cons_append, List.nil_append, List.cons.injEq] at h
        exact flat_head l hl' _ h.2
      · rw [pyStr_digit (by omega), pyStr_digit (by omega)] at h
        simp only [List.cons_append, List.nil_append, List.cons.injEq] at h
        exact hab ((digitChar_inj a (by omega) b (by omega)).1 h.1)
    subst key
    rw [flat_inj l m hl.2 hm.2 (List.append_cancel_left h)]

theorem decimalString_injective {n : ℕ} (hn : n ≤ 10) : Function.Injective (decimalString (n := n)) := by
  intro σ τ h
  rw [← decimalString_eq, ← decimalString_eq] at h
  have r : ∀ ρ : Equiv.Perm (Fin n), ∀ a ∈ permLabels ρ, 1 ≤ a ∧ a ≤ 10 := by
    intro ρ a ha
    simp only [permLabels, List.mem_map] at ha
    obtain ⟨i, -, rfl⟩ := ha
    have := (ρ i).2
    omega
  exact permLabels_injective (flat_inj _ _ (r σ) (r τ) h)

/-- C37 up to ten weights: the result consists exactly of the strings of the permutations mapping the weights to themselves, flagged `False`, and
of those mapping them to their negatives only, flagged `True`. -/
theorem C37_exactly_up_to_ten {n : ℕ} (hn : n ≤ 10) (w : Fin n → ℤ) (σ : Equiv.Perm (Fin n)) (b : Bool) :
    (decimalString σ, b) ∈ phaseSymmetries (List.ofFn w) ↔
      ((b = false ∧ WeightSym w 1 σ) ∨ (b = true ∧ WeightSym w (-1) σ ∧ ¬ WeightSym w 1 σ)) := by
  unfold phaseSymmetries
  simp only [List.mem_map, Prod.mk.injEq, Prod.exists]
  constructor
  · rintro ⟨q, b', h, h1, rfl⟩
    rw [mem_symPairs] at h
    obtain ⟨τ, rfl, h⟩ := h
    rw [decimalString_eq] at h1
    obtain rfl := decimalString_injective hn h1
    exact h
  · intro h
    exact ⟨permLabels σ, b, (mem_symPairs w _ b).2 ⟨σ, rfl, h⟩, decimalString_eq σ, rfl⟩

theorem symPairs_distinct {n : ℕ} (w : Fin n → ℤ) : (symPairs (List.ofFn w)).Pairwise (fun r r' => r.1 ≠ r'.1) := by
  unfold symPairs
  refine List.Pairwise.filterMap _ ?_ (nodup_pyPerms _ _ (by simp) List.nodup_range')
  intro a a' haa b hb b' hb'
  have e : ∀ (x : List ℕ) (y : List ℕ × Bool), (if permWeights (List.ofFn w) x = List.ofFn w then
      some (x, false) else if permWeights (List.ofFn w) x = (List.ofFn w).map (- ·) then
      some (x, true) else none) = some y → y.1 = x := by
    intro x y h
    split at h
    · cases h; rfl
    · split at h
      · cases h; rfl
      · cases h
  rw [e _ _ hb, e _ _ hb']
  exact haa

/-- C37: no permutation is returned twice up to ten weights, and nothing but permutations. -/
theorem C37_no_repetition_up_to_ten {n : ℕ} (hn : n ≤ 10) (w : Fin n → ℤ) :
    (phaseSymmetries (List.ofFn w)).Pairwise (fun r r' => r.1 ≠ r'.1) ∧
    ∀ r ∈ phaseSymmetries (List.ofFn w), ∃ σ : Equiv.Perm (Fin n), r.1 = decimalString σ := by
  constructor
  · unfold phaseSymmetries
    rw [List.pairwise_map]
    refine (symPairs_distinct w).imp_of_mem ?_
    rintro ⟨q, b⟩ ⟨q', b'⟩ hq hq' hne
    rw [mem_symPairs] at hq hq'
    obtain ⟨σ, rfl, _⟩ := hq
    obtain ⟨τ, rfl, _⟩ := hq'
    simp only [decimalString_eq]
    exact fun h => hne (by rw [decimalString_injective hn h])
  · intro r hr
    unfold phaseSymmetries at hr
    simp only [List.mem_map, Prod.exists] at hr
    obtain ⟨q, b, h, rfl⟩ := hr
    rw [mem_symPairs] at h
    obtain ⟨σ, rfl, _⟩ := h
    exact ⟨σ, decimalString_eq σ⟩

/-- C37, exactly: the list of all symmetries is free of repetition if and only if there are at most ten particles. -/
theorem C37_repeats_iff (n : ℕ) : (allSymmetries n).Nodup ↔ n ≤ 10 := by
  constructor
  · intro h
    by_contra hn
    obtain ⟨m, rfl⟩ : ∃ m, n = 11 + m := ⟨n - 11, by omega⟩
    exact C37_repeats_from_eleven m h
  · intro hn
    have e : List.replicate n (0 : ℤ) = List.ofFn (fun _ : Fin n => (0 : ℤ)) := by simp
    unfold allSymmetries
    rw [e]
    exact (C37_no_repetition_up_to_ten hn _).1.imp fun h h' => h (by rw [h'])

/-- C37 (finding): at ten particles the result is not closed under `inverse`, which reads the string character by character: the inverse of the
identity, itself one of the symmetries, is not one of them. -/
theorem C37_inverse_at_ten : (decimalString (1 : Equiv.Perm (Fin 10)), false) ∈ allSymmetries 10 ∧
    ∃ r, inverseRule (decimalString (1 : Equiv.Perm (Fin 10)), false) = .ok r ∧ r ∉ allSymmetries 10 := by
  have e : List.replicate 10 (0 : ℤ) = List.ofFn (fun _ : Fin 10 => (0 : ℤ)) := by simp
  refine ⟨?_, ("1023456789011".toList, false), by decide, ?_⟩
  · unfold allSymmetries
    rw [e, C37_exactly_up_to_ten le_rfl]
    exact .inl ⟨rfl, fun i => by simp⟩
  · intro h
    unfold allSymmetries at h
    rw [e] at h
    obtain ⟨σ, hσ⟩ := (C37_no_repetition_up_to_ten le_rfl _).2 _ h
    have hl := congrArg List.length hσ
    rw [← decimalString_eq, List.length_flatMap, (((perm_range'_iff (permLabels σ)).2 ⟨σ, rfl⟩).map _).sum_eq] at hl
    revert hl
    decide

/-- Ten weights, one, minus one and eight zeros: the exchange of the first two is returned flagged `True`. -/
example : (decimalString (Equiv.swap (0 : Fin 10) 1), true) ∈ phaseSymmetries (List.ofFn (![1, -1, 0, 0, 0, 0, 0, 0, 0, 0] : Fin 10 → ℤ)) := by
  rw [C37_exactly_up_to_ten (by omega)]
  refine .inr ⟨rfl, ?_, ?_⟩
  · unfold WeightSym; decide
  · unfold WeightSym; decide

end Lips

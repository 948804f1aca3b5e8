import Verif.Model.Invariants
import Verif.Spec.Invariants
import Verif.Props.DispatchNames
import Verif.Props.Symmetry
import Verif.Props.Gram
import Mathlib.Data.List.Sort
import Mathlib.Data.List.Nodup

/-!
Properties C53, C54, C55 and C57: the lists of Mandelstams, tr5 and two-particle brackets.
-/

namespace Lips

section Combs
variable {α β : Type*}

theorem mem_combs {k : ℕ} {l t : List α} : t ∈ combs k l ↔ t.Sublist l ∧ t.length = k := by
  induction l generalizing k t with
  | nil =>
    cases k with
    | zero => simp [combs]
    | succ k => simp only [combs, List.not_mem_nil, List.sublist_nil, false_iff, not_and]; rintro rfl; simp
  | cons x xs ih =>
    cases k with
    | zero =>
      simp only [combs, List.mem_singleton]
      constructor
      · rintro rfl; simp
      · rintro ⟨_, h⟩; exact List.length_eq_zero_iff.1 h
    | succ k =>
      simp only [combs, List.mem_append, List.mem_map, ih]
      constructor
      · rintro (⟨u, ⟨h1, h2⟩, rfl⟩ | ⟨h1, h2⟩)
        · exact ⟨h1.cons_cons x, by simp [h2]⟩
        · exact ⟨h1.cons x, h2⟩
      · rintro ⟨h1, h2⟩
        cases h1 with
        | cons _ h => exact .inr ⟨h, h2⟩
        | cons_cons _ h => exact .inl ⟨_, ⟨h, by simpa using h2⟩, rfl⟩

theorem nodup_combs {l : List α} (h : l.Nodup) (k : ℕ) : (combs k l).Nodup := by
  induction l generalizing k with
  | nil => cases k <;> simp [combs]
  | cons x xs ih =>
    cases k with
    | zero => simp [combs]
    | succ k =>
      obtain ⟨hx, hxs⟩ := List.nodup_cons.1 h
      simp only [combs]
      refine List.Nodup.append ((ih hxs k).map fun a b h => by simpa using h) (ih hxs _) ?_
      intro t ht ht'
      obtain ⟨u, _, rfl⟩ := List.mem_map.1 ht
      exact hx ((mem_combs.1 ht').1.subset (by simp))

theorem combs_map (f : α → β) (k : ℕ) (l : List α) : combs k (l.map f) = (combs k l).map (List.map f) := by
  induction l generalizing k with
  | nil => cases k <;> rfl
  | cons x xs ih =>
    cases k with
    | zero => rfl
    | succ k => simp only [List.map_cons, combs, ih, List.map_append, List.map_map]; rfl

end Combs

/-! ### Label sets and sorted lists -/

theorem sort_of_sublist_range {a m : ℕ} {t : List ℕ} (h : t.Sublist (List.range' a m)) :
    t.toFinset.sort (· ≤ ·) = t := by
  have hs : (List.range' a m).Pairwise (· < ·) := List.pairwise_lt_range'
  have ht := hs.sublist h
  exact (List.toFinset_sort (· ≤ ·) (ht.imp Nat.ne_of_lt)).2 (ht.imp Nat.le_of_lt)

theorem sublist_range_iff {m : ℕ} {t : List ℕ} :
    t.Sublist (List.range' 1 m) ↔ ∃ S : Finset ℕ, S ⊆ Finset.Icc 1 m ∧ t = S.sort (· ≤ ·) := by
  constructor
  · intro h
    refine ⟨t.toFinset, ?_, (sort_of_sublist_range h).symm⟩
    intro x hx
    have := h.subset (List.mem_toFinset.1 hx)
    simp only [List.mem_range'_1] at this
    exact Finset.mem_Icc.2 (by omega)
  · rintro ⟨S, hS, rfl⟩
    refine List.sublist_of_subperm_of_pairwise (r := (· ≤ ·)) (List.subperm_of_subset (Finset.sort_nodup _ _) ?_)
      (Finset.pairwise_sort _ _) ((List.pairwise_lt_range' (s := 1) (n := m)).imp Nat.le_of_lt)
    intro x hx
    have := Finset.mem_Icc.1 (hS ((Finset.mem_sort _).1 hx))
    simp only [List.mem_range'_1]; omega

theorem map_digitChar_inj {s t : List ℕ} (hs : ∀ x ∈ s, x < 10) (ht : ∀ x ∈ t, x < 10)
    (h : s.map Nat.digitChar = t.map Nat.digitChar) : s = t := by
  induction s generalizing t with
  | nil => cases t with
    | nil => rfl
    | cons => simp at h
  | cons x s ih => cases t with
    | nil => simp at h
    | cons y t =>
      simp only [List.map_cons, List.cons.injEq] at h
      rw [(digitChar_inj x (hs x (by simp)) y (ht y (by simp))).1 h.1,
        ih (fun z hz => hs z (by simp [hz])) (fun z hz => ht z (by simp [hz])) h.2]

/-- Label sets with one-digit labels are determined by their digits. -/
theorem setDigits_inj {S T : Finset ℕ} (hS : ∀ x ∈ S, x < 10) (hT : ∀ x ∈ T, x < 10)
    (h : setDigits S = setDigits T) : S = T := by
  have := map_digitChar_inj (fun x hx => hS x ((Finset.mem_sort _).1 hx)) (fun x hx => hT x ((Finset.mem_sort _).1 hx)) h
  rw [← Finset.sort_toFinset S (· ≤ ·), this, Finset.sort_toFinset]

/-! ### Mandelstams -/

theorem recS_free (n : ℕ) : ∀ (js : List ℕ) (m : ℕ) (s : List Char), (∀ j ∈ js, j < 10) → 1 ≤ m →
    (n % 2 = 1 ∨ s.length + m ≤ n / 2 + 1) →
    recS n m js s = (combs m js).map fun t => s ++ t.map Nat.digitChar := by
  intro js
  induction js with
  | nil => intro m s _ hm _; obtain ⟨k, rfl⟩ : ∃ k, m = k + 1 := ⟨m - 1, by omega⟩; simp [recS, combs]
  | cons j js ih =>
    intro m s hj hm hn
    obtain ⟨k, rfl⟩ : ∃ k, m = k + 1 := ⟨m - 1, by omega⟩
    have hj' : ∀ x ∈ js, x < 10 := fun x hx => hj x (by simp [hx])
    rw [recS, if_neg (by omega)]
    simp only [pyStr_digit (hj j (by simp)), List.dropLast_concat, combs, List.map_append, List.map_map,
      ih (k + 1) s hj' hm hn]
    congr 1
    rcases Nat.eq_zero_or_pos k with rfl | hk
    · simp [combs]
    · rw [if_pos (by omega), Nat.add_sub_cancel, ih k _ hj' hk (by rw [List.length_append, List.length_singleton]; omega)]
      refine List.map_congr_left fun t _ => ?_
      simp

theorem recS_half (n : ℕ) (hn : n % 2 = 0) : ∀ (js : List ℕ) (m : ℕ) (s : List Char), (∀ j ∈ js, j < 10) →
    (∀ j ∈ js, j ≤ n) → js.Pairwise (· < ·) → 1 ≤ m → s.length + m = n / 2 + 2 →
    recS n m js s = ((combs m js).filter fun t => decide (n ∉ t)).map fun t => s ++ t.map Nat.digitChar := by
  intro js
  induction js with
  | nil => intro m s _ _ _ hm _; obtain ⟨k, rfl⟩ : ∃ k, m = k + 1 := ⟨m - 1, by omega⟩; simp [recS, combs]
  | cons j js ih =>
    intro m s hj hle hp hm hs
    obtain ⟨k, rfl⟩ : ∃ k, m = k + 1 := ⟨m - 1, by omega⟩
    have hj' : ∀ x ∈ js, x < 10 := fun x hx => hj x (by simp [hx])
    have hle' : ∀ x ∈ js, x ≤ n := fun x hx => hle x (by simp [hx])
    obtain ⟨hp1, hp2⟩ := List.pairwise_cons.1 hp
    have hlast : j = n → js = [] := by
      rintro rfl
      cases js with
      | nil => rfl
      | cons y ys => have := hp1 y (by simp); have := hle' y (by simp); omega
    rw [recS]
    by_cases hjn : j = n
    · have := hlast hjn
      subst this
      subst hjn
      rcases Nat.eq_zero_or_pos k with rfl | hk
      · rw [if_pos ⟨hn, by omega, rfl⟩]
        simp [combs]
      · rw [if_neg (by omega)]
        obtain ⟨k', rfl⟩ : ∃ k', k = k' + 1 := ⟨k - 1, by omega⟩
        simp [recS, combs]
    · rw [if_neg (by tauto)]
      simp only [pyStr_digit (hj j (by simp)), List.dropLast_concat, combs, List.filter_append, List.map_append,
        List.filter_map, List.map_map, ih (k + 1) s hj' hle' hp2 hm hs]
      congr 1
      rcases Nat.eq_zero_or_pos k with rfl | hk
      · simp [combs, Ne.symm hjn]
      · rw [if_pos (by omega), Nat.add_sub_cancel,
          ih k _ hj' hle' hp2 hk (by rw [List.length_append, List.length_singleton]; omega)]
        have : ((fun t => decide (n ∉ t)) ∘ fun x : List ℕ => j :: x) = fun t => decide (n ∉ t) := by
          funext t; simp [Ne.symm hjn]
        rw [this]
        refine List.map_congr_left fun t _ => ?_
        simp

/-- The list of Mandelstams in terms of combinations. -/
theorem allS_eq {n : ℕ} (hn : n < 10) : allS n = (List.range' 3 (n / 2 + 1 - 3)).flatMap fun m =>
    ((combs m (List.range' 1 n)).filter fun t => decide (2 * m = n → n ∉ t)).map
      fun t => ['s', '_'] ++ t.map Nat.digitChar := by
  rw [allS]
  refine List.flatMap_congr fun m hm => ?_
  rw [List.mem_range'_1] at hm
  have h10 : ∀ j ∈ List.range' 1 n, j < 10 := by intro j hj; rw [List.mem_range'_1] at hj; omega
  by_cases h : 2 * m = n
  · rw [recS_half n (by omega) _ m _ h10 (by intro j hj; rw [List.mem_range'_1] at hj; omega)
      List.pairwise_lt_range' (by omega) (by simp only [List.length_cons, List.length_nil]; omega)]
    simp [h]
  · rw [recS_free n _ m _ h10 (by omega) (by simp only [List.length_cons, List.length_nil]; omega)]
    simp [h]

/-- Which label sets are listed. -/
theorem mem_allS {n : ℕ} (hn : n < 10) {S : Finset ℕ} (hS : S ⊆ allLabels n) :
    sName S ∈ allS n ↔ 3 ≤ S.card ∧ 2 * S.card ≤ n ∧ (2 * S.card = n → n ∉ S) := by
  have hlt : ∀ x ∈ S, x < 10 := fun x hx => by have := Finset.mem_Icc.1 (hS hx); omega
  rw [allS_eq hn]
  simp only [List.mem_flatMap, List.mem_map, List.mem_filter, List.mem_range'_1, mem_combs, decide_eq_true_eq]
  constructor
  · rintro ⟨m, hm, t, ⟨⟨h1, h2⟩, h3⟩, h4⟩
    have ht : t = S.sort (· ≤ ·) := by
      refine map_digitChar_inj ?_ (fun x hx => hlt x ((Finset.mem_sort _).1 hx)) (List.append_cancel_left h4)
      intro x hx
      have := h1.subset hx
      rw [List.mem_range'_1] at this
      omega
    subst ht
    rw [Finset.length_sort] at h2
    simp only [Finset.mem_sort] at h3
    exact ⟨by omega, by omega, fun he => h3 (by omega)⟩
  · rintro ⟨h1, h2, h3⟩
    refine ⟨S.card, by omega, S.sort (· ≤ ·), ⟨⟨sublist_range_iff.2 ⟨S, hS, rfl⟩, Finset.length_sort _⟩, ?_⟩, rfl⟩
    simpa using h3

/-- C53: the list has no repetitions; every entry is the name of a label set with between 3 and `n/2`
labels; and of any label set and its complement, both with at least three labels, exactly one is
listed. -/
theorem C53_mandelstams {n : ℕ} (hn : n < 10) :
    (allS n).Nodup ∧
    (∀ t ∈ allS n, ∃ S ⊆ allLabels n, 3 ≤ S.card ∧ 2 * S.card ≤ n ∧ t = sName S) ∧
    (∀ S ⊆ allLabels n, 3 ≤ S.card → 3 ≤ (allLabels n \ S).card →
      ∃! T, (T = S ∨ T = allLabels n \ S) ∧ sName T ∈ allS n) ∧
    (∀ S ⊆ allLabels n, ∀ T ⊆ allLabels n, sName S = sName T → S = T) := by
  refine ⟨?_, ?_, ?_, ?_⟩
  · rw [allS_eq hn]
    have hnd : ∀ m, (((combs m (List.range' 1 n)).filter fun t => decide (2 * m = n → n ∉ t)).map
        fun t => ['s', '_'] ++ t.map Nat.digitChar).Nodup := by
      intro m
      refine List.Nodup.map_on ?_ ((nodup_combs List.nodup_range' m).filter _)
      intro x hx y hy hxy
      have hb : ∀ z ∈ (combs m (List.range' 1 n)).filter fun t => decide (2 * m = n → n ∉ t), ∀ w ∈ z, w < 10 := by
        intro z hz w hw
        have := (mem_combs.1 (List.mem_filter.1 hz).1).1.subset hw
        rw [List.mem_range'_1] at this
        omega
      exact map_digitChar_inj (hb x hx) (hb y hy) (List.append_cancel_left hxy)
    rw [List.nodup_flatMap]
    refine ⟨fun m _ => hnd m, ?_⟩
    refine List.Pairwise.imp ?_ (List.nodup_range' (s := 3) (n := n / 2 + 1 - 3))
    intro a b hab t ha hb
    obtain ⟨u, hu, rfl⟩ := List.mem_map.1 ha
    obtain ⟨v, hv, huv⟩ := List.mem_map.1 hb
    have h1 := (mem_combs.1 (List.mem_filter.1 hu).1).2
    have h2 := (mem_combs.1 (List.mem_filter.1 hv).1).2
    have := congrArg List.length (List.append_cancel_left huv)
    simp only [List.length_map] at this
    omega
  · intro t ht
    rw [allS_eq hn] at ht
    simp only [List.mem_flatMap, List.mem_map, List.mem_filter, List.mem_range'_1, mem_combs] at ht
    obtain ⟨m, hm, u, ⟨⟨h1, h2⟩, _⟩, rfl⟩ := ht
    obtain ⟨S, hS, rfl⟩ := sublist_range_iff.1 h1
    rw [Finset.length_sort] at h2
    exact ⟨S, hS, by omega, by omega, rfl⟩
  · intro S hS h1 h2
    have hc : (allLabels n \ S).card + S.card = n := by
      rw [Finset.card_sdiff_add_card_eq_card hS]; simp [allLabels]
    have hsub : allLabels n \ S ⊆ allLabels n := Finset.sdiff_subset
    have hm1 := mem_allS hn hS
    have hm2 := mem_allS hn hsub
    have hnmem : 2 * S.card = n → (n ∉ allLabels n \ S ↔ n ∈ S) := by
      intro h
      have : n ∈ allLabels n := Finset.mem_Icc.2 ⟨by omega, le_rfl⟩
      simp [this]
    by_cases hin : 2 * S.card ≤ n ∧ (2 * S.card = n → n ∉ S)
    · refine ⟨S, ⟨.inl rfl, hm1.2 ⟨h1, hin.1, hin.2⟩⟩, ?_⟩
      rintro T ⟨rfl | rfl, hT⟩
      · rfl
      · obtain ⟨_, ha, hb⟩ := hm2.1 hT
        have he : 2 * S.card = n := by omega
        exact absurd ((hnmem he).1 (hb (by omega))) (hin.2 he)
    · refine ⟨allLabels n \ S, ⟨.inr rfl, hm2.2 ⟨h2, ?_, ?_⟩⟩, ?_⟩
      · by_contra h
        exact hin ⟨by omega, fun he => by omega⟩
      · intro he
        rw [hnmem (by omega)]
        by_contra h
        exact hin ⟨by omega, fun _ => h⟩
      · rintro T ⟨rfl | rfl, hT⟩
        · obtain ⟨_, ha, hb⟩ := hm1.1 hT
          exact absurd ⟨ha, hb⟩ hin
        · rfl
  · intro S hS T hT h
    have hb : ∀ U ⊆ allLabels n, ∀ x ∈ U, x < 10 := fun U hU x hx => by have := Finset.mem_Icc.1 (hU hx); omega
    exact setDigits_inj (hb S hS) (hb T hT) (List.append_cancel_left h)

/-- C53 at six points: ten invariants; one of each pair of complements. -/
example : (allS 6).map String.ofList = ["s_123", "s_124", "s_125", "s_134", "s_135", "s_145", "s_234", "s_235",
    "s_245", "s_345"] := by decide

/-! ### Beyond nine particles -/

theorem recS_step {n m : ℕ} {j : ℕ} {js : List ℕ} {s t : List Char} (hj : j < 10)
    (h : ¬ (n % 2 = 0 ∧ s.length = n / 2 + 1 ∧ j = n)) :
    (t ∈ recS n m js s → t ∈ recS n m (j :: js) s) ∧
    (1 < m → t ∈ recS n (m - 1) js (s ++ pyStr j) → t ∈ recS n m (j :: js) s) := by
  rw [recS, if_neg h]
  simp only [List.mem_append, pyStr_digit hj, List.dropLast_concat]
  refine ⟨fun h => .inr h, fun hm h => .inl ?_⟩
  rwa [if_pos (by omega)]

/-- C54 is false for every `n ≥ 10`: the list contains the text `s_1210`, made from the labels 1, 2
and 10, and evaluating that text at a point raises, as it is read as the labels 1, 2, 1, 0. -/
theorem C54_refuted {n : ℕ} (hn : 10 ≤ n) : "s_1210".toList ∈ allS n ∧
    ∀ {K : Type} [Field K] (ps : Point K n) (fuel : ℕ),
      computeText ps fuel "s_1210".toList = some (.error .indexError) := by
  constructor
  · rw [allS, List.mem_flatMap]
    refine ⟨3, by rw [List.mem_range'_1]; omega, ?_⟩
    obtain ⟨k, rfl⟩ : ∃ k, n = 10 + k := ⟨n - 10, by omega⟩
    have hr : List.range' 1 (10 + k) = [1, 2, 3, 4, 5, 6, 7, 8, 9, 10] ++ List.range' 11 k := by
      exact (List.range'_append_1 (s := 1) (m := 10) (n := k)).symm
    rw [hr]
    simp only [List.cons_append, List.nil_append]
    refine (recS_step (by omega) (by omega)).2 (by omega) ?_
    refine (recS_step (by omega) (by omega)).2 (by omega) ?_
    simp only [Nat.reduceSub, pyStr_digit (show 1 < 10 by omega), pyStr_digit (show 2 < 10 by omega)]
    have hne : ∀ j, ¬ ((10 + k) % 2 = 0 ∧ (['s', '_'] ++ [Nat.digitChar 1] ++ [Nat.digitChar 2]).length =
        (10 + k) / 2 + 1 ∧ j = 10 + k) := by
      intro j h
      have := h.2.1
      simp only [List.length_append, List.length_cons, List.length_nil] at this
      omega
    refine (recS_step (by omega) (hne _)).1 ?_
    refine (recS_step (by omega) (hne _)).1 ?_
    refine (recS_step (by omega) (hne _)).1 ?_
    refine (recS_step (by omega) (hne _)).1 ?_
    refine (recS_step (by omega) (hne _)).1 ?_
    refine (recS_step (by omega) (hne _)).1 ?_
    refine (recS_step (by omega) (hne _)).1 ?_
    rw [recS, if_neg (hne _)]
    simp only [List.mem_append]
    left
    rw [if_neg (by omega), if_pos trivial]
    decide
  · intro K _ ps fuel
    rw [computeText_plain _ _ _ (by decide)]
    have : classify "s_1210".toList = .mandelstam "1210".toList := by decide
    rw [this]
    have h0 : readDigits n "1210".toList = .error .indexError := by
      have e1 : label n 1 = .ok ⟨0, by omega⟩ := label_succ (⟨0, by omega⟩ : Fin n)
      have e2 : label n 2 = .ok ⟨1, by omega⟩ := label_succ (⟨1, by omega⟩ : Fin n)
      have e0 : label n 0 = .error .indexError := by simp [label]
      simp only [readDigits, show "1210".toList = ['1', '2', '1', '0'] from rfl, List.mapM_cons, List.mapM_nil]
      simp only [show '1'.toNat - 48 = 1 by decide, show '2'.toNat - 48 = 2 by decide,
        show '0'.toNat - 48 = 0 by decide, e1, e2, e0]
      rfl
    simp only [evalForm, h0]

/-! ### tr5 -/

/-- C55: from five to ten particles the list has no repetitions and consists of the names of the
4-subsets of the labels below `n`. -/
theorem C55_tr5 {n : ℕ} (h5 : 5 ≤ n) (h10 : n ≤ 10) :
    (allTr5 n).Nodup ∧ ∀ t, t ∈ allTr5 n ↔ ∃ S ⊆ allLabels (n - 1), S.card = 4 ∧ t = tr5Name S := by
  have hlt : ∀ j ∈ List.range' 1 (n - 1), j < 10 := by intro j hj; rw [List.mem_range'_1] at hj; omega
  have hstr : (List.range' 1 (n - 1)).flatMap pyStr = (List.range' 1 (n - 1)).map Nat.digitChar := by
    rw [List.map_eq_flatMap]
    exact List.flatMap_congr fun j hj => pyStr_digit (hlt j hj)
  have e : allTr5 n = (combs 4 (List.range' 1 (n - 1))).map fun t => ['t', 'r', '5', '_'] ++ t.map Nat.digitChar := by
    rw [allTr5, if_pos h5, hstr, combs_map, List.map_map]
    rfl
  rw [e]
  have hb : ∀ z ∈ combs 4 (List.range' 1 (n - 1)), ∀ w ∈ z, w < 10 := fun z hz w hw =>
    hlt w ((mem_combs.1 hz).1.subset hw)
  refine ⟨List.Nodup.map_on ?_ (nodup_combs List.nodup_range' 4), fun t => ?_⟩
  · intro x hx y hy hxy
    exact map_digitChar_inj (hb x hx) (hb y hy) (List.append_cancel_left hxy)
  · simp only [List.mem_map, mem_combs]
    constructor
    · rintro ⟨u, ⟨h1, h2⟩, rfl⟩
      obtain ⟨S, hS, rfl⟩ := sublist_range_iff.1 h1
      exact ⟨S, hS, by rwa [Finset.length_sort] at h2, rfl⟩
    · rintro ⟨S, hS, hc, rfl⟩
      exact ⟨S.sort (· ≤ ·), ⟨sublist_range_iff.2 ⟨S, hS, rfl⟩, by rw [Finset.length_sort, hc]⟩, rfl⟩

/-- C55: at five massless particles conserving momentum, every tr5 of four different labels is the
only listed one up to a sign. -/
theorem C55_five_points {K : Type*} [Field K] (c : Ctx K) (ps : Point K 5) (r l : Fin 5 → V2 K)
    (hm : ∀ k, IsMassless c (ps k) (r k) (l k)) (hc : Conserves ps) :
    (allTr5 5).map String.ofList = ["tr5_1234"] ∧
    ∃ x, computeTr5 ps (single 0) (single 1) (single 2) (single 3) = .ok x ∧
      ∀ q : Fin 4 → Fin 5, Function.Injective q → ∃ y,
        computeTr5 ps (single (q 0)) (single (q 1)) (single (q 2)) (single (q 3)) = .ok y ∧ (y = x ∨ y = -x) := by
  refine ⟨by decide, ?_⟩
  obtain ⟨x, hx, hx2⟩ := C24_delta5_is_tr5_squared c ps r l hm hc 1
  refine ⟨x, hx, fun q hq => ?_⟩
  obtain ⟨σ, hσ⟩ : ∃ σ : Equiv.Perm (Fin 5), ∀ i : Fin 4, σ i.castSucc = q i := by
    obtain ⟨σ, h⟩ := Equiv.Perm.exists_extending_pair Fin.castSucc q (Fin.castSucc_injective 4) hq
    exact ⟨σ, h⟩
  obtain ⟨y, hy, hy2⟩ := C24_delta5_is_tr5_squared c ps r l hm hc σ
  have e0 := hσ 0
  have e1 := hσ 1
  have e2 := hσ 2
  have e3 := hσ 3
  simp only [Fin.castSucc_zero, Fin.castSucc_one] at e0 e1
  refine ⟨y, ?_, ?_⟩
  · rw [← e0, ← e1, ← e2, ← e3]; exact hy
  · have : y ^ 2 = x ^ 2 := by rw [← hx2, ← hy2]
    exact sq_eq_sq_iff_eq_or_eq_neg.1 this

/-- C55: up to nine massless particles conserving momentum, a tr5 with any label in its last slot
is minus the sum of those with the other labels in it, so that the ones without the last label span
all of them. -/
theorem C55_last_label {K : Type*} [Field K] {n : ℕ} (hn : n < 10) (c : Ctx K) (ps : Point K n) (r l : Fin n → V2 K)
    (hm : ∀ k, IsMassless c (ps k) (r k) (l k)) (hc : Conserves ps) (a b d e : Fin n) :
    ∃ f : Fin n → K, (∀ k, computeTr5 ps (single a) (single b) (single d) (single k) = .ok (f k)) ∧
      f e = -∑ k ∈ Finset.univ.erase e, f k := by
  have ok : ∀ k, SlotOk c ps (single k) := by
    intro k b' k' h
    simp only [single, List.mem_singleton, Prod.mk.injEq] at h
    rw [h.2]; exact (hm k).cons
  refine ⟨fun k => SpecTr5 ![(ps a).r2, slotMom ps (single b), slotMom ps (single d), slotMom ps (single k)],
    fun k => tr5_value c ps (hm a) (by have := a.2; omega) _ _ _ (ok b) (ok d) (ok k), ?_⟩
  have h00 : ∀ i j, ∑ k, (ps k).r2 i j = 0 := hc
  rw [eq_neg_iff_add_eq_zero, Finset.add_sum_erase _
    (fun k => SpecTr5 ![(ps a).r2, slotMom ps (single b), slotMom ps (single d), slotMom ps (single k)]) (Finset.mem_univ e)]
  simp only [specTr5_expand, slotMom_single]
  simp only [Finset.sum_add_distrib, Finset.sum_sub_distrib, ← Finset.mul_sum, h00, mul_zero, sub_zero, add_zero]

/-- C55 fails from eleven particles on: the list contains `tr5_1231`, with a repeated label. -/
theorem C55_broken_from_eleven {n : ℕ} (hn : 11 ≤ n) : "tr5_1231".toList ∈ allTr5 n := by
  rw [allTr5, if_pos (by omega)]
  obtain ⟨k, rfl⟩ : ∃ k, n = 11 + k := ⟨n - 11, by omega⟩
  have hr : List.range' 1 (11 + k - 1) = [1, 2, 3, 4, 5, 6, 7, 8, 9, 10] ++ List.range' 11 k := by
    rw [show 11 + k - 1 = 10 + k by omega]; exact (List.range'_append_1 (s := 1) (m := 10) (n := k)).symm
  rw [hr, List.flatMap_append]
  refine List.mem_map.2 ⟨['1', '2', '3', '1'], mem_combs.2 ⟨?_, rfl⟩, rfl⟩
  exact List.Sublist.trans (by decide) (List.sublist_append_left _ _)

/-! ### Two-particle brackets -/

theorem pyStr_inj {a b : ℕ} (h : pyStr a = pyStr b) : a = b := by
  rw [← pyInt_pyStr a, h, pyInt_pyStr]

theorem twoText_inj {o o' c c' : Char} {a b a' b' : ℕ} (h : twoText o a b c = twoText o' a' b' c') :
    o = o' ∧ a = a' ∧ b = b' ∧ c = c' := by
  simp only [twoText, List.cons.injEq] at h
  obtain ⟨h1, h2⟩ := h
  obtain ⟨h3, h4⟩ := List.append_inj' h2 (by simp)
  have h5 := congrArg (List.splitOn '|') h3
  rw [List.splitOn_append_cons_self_of_not_mem (bar_not_mem_pyStr _),
    List.splitOn_append_cons_self_of_not_mem (bar_not_mem_pyStr _),
    List.splitOn_eq_singleton (bar_not_mem_pyStr _), List.splitOn_eq_singleton (bar_not_mem_pyStr _)] at h5
  simp only [List.cons.injEq, and_true] at h5
  exact ⟨h1, pyStr_inj h5.1, pyStr_inj h5.2, by simpa using h4⟩

/-- The list before the special case of four particles. -/
def twoList (n : ℕ) : List (List Char) := (List.range' 1 n).flatMap fun first =>
  (List.range' 1 n).flatMap fun last =>
    if first > last then []
    else if first < last then [twoText '⟨' first last '⟩', twoText '[' first last ']']
    else []

theorem mem_twoList (n : ℕ) : (twoList n).Nodup ∧ ∀ t, t ∈ twoList n ↔ ∃ i j, 1 ≤ i ∧ i < j ∧ j ≤ n ∧ (t = twoText '⟨' i j '⟩' ∨ t = twoText '[' i j ']') := by
  have inner : ∀ i j : ℕ, ∀ t, t ∈ (if i > j then [] else if i < j then
      [twoText '⟨' i j '⟩', twoText '[' i j ']'] else []) ↔ i < j ∧ (t = twoText '⟨' i j '⟩' ∨ t = twoText '[' i j ']') := by
    intro i j t
    split_ifs with h1 h2
    · simp; omega
    · simp [h2]
    · simp [h2]
  have mem1 : ∀ i t, t ∈ (List.range' 1 n).flatMap (fun last => if i > last then [] else if i < last then
      [twoText '⟨' i last '⟩', twoText '[' i last ']'] else []) ↔
      ∃ j, i < j ∧ 1 ≤ j ∧ j ≤ n ∧ (t = twoText '⟨' i j '⟩' ∨ t = twoText '[' i j ']') := by
    intro i t
    simp only [List.mem_flatMap, List.mem_range'_1, inner]
    constructor
    · rintro ⟨j, h1, h2, h3⟩; exact ⟨j, h2, by omega, by omega, h3⟩
    · rintro ⟨j, h1, h2, h3, h4⟩; exact ⟨j, by omega, h1, h4⟩
  refine ⟨?_, fun t => ?_⟩
  · rw [twoList, List.nodup_flatMap]
    refine ⟨fun i _ => ?_, ?_⟩
    · rw [List.nodup_flatMap]
      refine ⟨fun j _ => ?_, ?_⟩
      · split_ifs
        · simp
        · simp only [List.nodup_cons, List.mem_singleton, List.not_mem_nil, not_false_eq_true, List.nodup_nil, and_true]
          intro h; exact absurd (twoText_inj h).1 (by decide)
        · simp
      · refine List.Pairwise.imp ?_ (List.nodup_range' (s := 1) (n := n))
        intro a b hab t ha hb
        obtain ⟨_, ha⟩ := (inner _ _ _).1 ha
        obtain ⟨_, hb⟩ := (inner _ _ _).1 hb
        rcases ha with rfl | rfl <;> rcases hb with hb | hb <;> exact hab (twoText_inj hb).2.2.1
    · refine List.Pairwise.imp ?_ (List.nodup_range' (s := 1) (n := n))
      intro a b hab t ha hb
      obtain ⟨_, _, _, _, ha⟩ := (mem1 _ _).1 ha
      obtain ⟨_, _, _, _, hb⟩ := (mem1 _ _).1 hb
      rcases ha with rfl | rfl <;> rcases hb with hb | hb <;> exact hab (twoText_inj hb).2.1
  · rw [twoList, List.mem_flatMap]
    simp only [mem1, List.mem_range'_1]
    constructor
    · rintro ⟨i, h1, j, h2, h3, h4, h5⟩; exact ⟨i, j, h1.1, h2, h4, h5⟩
    · rintro ⟨i, j, h1, h2, h3, h4⟩; exact ⟨i, by omega, j, h2, by omega, h3, h4⟩

theorem allTwo_eq (n : ℕ) : allTwo n = if n = 4 then (twoList n).filter matchA2 else twoList n := by
  simp [allTwo, twoList, twoText]

/-- C57: for `n ≠ 4` each angle and square bracket with increasing labels occurs exactly once and
nothing else occurs; for `n = 4` the same with the angle brackets only. -/
theorem C57_two_brackets (n : ℕ) : (allTwo n).Nodup ∧ ∀ t, t ∈ allTwo n ↔
    ∃ i j, 1 ≤ i ∧ i < j ∧ j ≤ n ∧ (t = twoText '⟨' i j '⟩' ∨ (n ≠ 4 ∧ t = twoText '[' i j ']')) := by
  rw [allTwo_eq]
  obtain ⟨h1, h2⟩ := mem_twoList n
  by_cases hn : n = 4
  · simp only [if_pos hn]
    refine ⟨h1.filter _, fun t => ?_⟩
    rw [List.mem_filter, h2]
    have hm : ∀ i j, 1 ≤ i → i < j → j ≤ n → matchA2 (twoText '⟨' i j '⟩') = true ∧ matchA2 (twoText '[' i j ']') = false := by
      intro i j hi hij hj
      simp [twoText, pyStr_digit (show i < 10 by omega), pyStr_digit (show j < 10 by omega), matchA2,
        digitChar_isDigit i (by omega), digitChar_isDigit j (by omega)]
    constructor
    · rintro ⟨⟨i, j, hi, hij, hj, rfl | rfl⟩, hmt⟩
      · exact ⟨i, j, hi, hij, hj, .inl rfl⟩
      · rw [(hm i j hi hij hj).2] at hmt; cases hmt
    · rintro ⟨i, j, hi, hij, hj, rfl | ⟨h, _⟩⟩
      · exact ⟨⟨i, j, hi, hij, hj, .inl rfl⟩, (hm i j hi hij hj).1⟩
      · exact absurd hn h
  · simp only [if_neg hn]
    refine ⟨h1, fun t => ?_⟩
    rw [h2]
    simp [hn]

example : (allTwo 4).map String.ofList = ["⟨1|2⟩", "⟨1|3⟩", "⟨1|4⟩", "⟨2|3⟩", "⟨2|4⟩", "⟨3|4⟩"] ∧
    (allTwo 3).map String.ofList = ["⟨1|2⟩", "[1|2]", "⟨1|3⟩", "[1|3]", "⟨2|3⟩", "[2|3]"] := by decide

end Lips

import Verif.Props.StringTriples
import Verif.Props.GramList
import Mathlib.Data.List.Rotate

/-!
C113: which strings with three slots are generated.
-/

namespace Lips

/-- The labels `s, s + 1, ...` steps after `i` on the circle, `len` of them. -/
def steps (n i s len : ℕ) : List ℕ := (List.range' s len).map (cyc n i)

/-- The labels of `l` form a cyclic interval, as the generator tests it. -/
def neighbours (n : ℕ) (l : List ℕ) : Bool := match checkNeighbouring n (l.map Int.ofNat) with
  | .ok b => b
  | .error _ => false

theorem neighbours_iff {n : ℕ} {l : List ℕ} (hne : l ≠ []) (hr : ∀ x ∈ l, 1 ≤ x ∧ x ≤ n) : neighbours n l = true ↔ IsCyclicInterval n l.toFinset := by
  obtain ⟨b, e, h⟩ := C58_neighbouring n l hne hr
  rw [neighbours, e]
  exact h

theorem mem_five {n i : ℕ} {L : List ℕ} {t : ℕ × List ℕ × List ℕ × List ℕ} : t ∈ five n i L ↔ ∃ j k, 2 ≤ j ∧ 2 ≤ k ∧ j + k + 3 ≤ n ∧
    neighbours n (L.take j) = true ∧ neighbours n ((L.drop j).take k) = true ∧ neighbours n (L.drop (j + k)) = true ∧
      t = (i, L.take j, (L.drop j).take k, L.drop (j + k)) := by
  unfold five
  change t ∈ (List.range' 2 (n - 4 - 2)).flatMap (fun j => if neighbours n (L.take j) = true then (List.range' 2 (n - 2 - j - 2)).flatMap (fun k =>
    if neighbours n ((L.drop j).take k) = true then if neighbours n (L.drop (j + k)) = true then [(i, L.take j, (L.drop j).take k, L.drop (j + k))] else [] else []) else []) ↔ _
  simp only [List.mem_flatMap, List.mem_range'_1]
  constructor
  · rintro ⟨j, ⟨hj, hj'⟩, h⟩
    split at h
    · rename_i h1
      obtain ⟨k, hk, h⟩ := List.mem_flatMap.1 h
      rw [List.mem_range'_1] at hk
      split at h
      · rename_i h2
        split at h
        · rename_i h3
          exact ⟨j, k, hj, hk.1, by omega, h1, h2, h3, List.mem_singleton.1 h⟩
        · cases h
      · cases h
    · cases h
  · rintro ⟨j, k, hj, hk, hl, h1, h2, h3, rfl⟩
    refine ⟨j, ⟨hj, by omega⟩, ?_⟩
    rw [if_pos h1]
    exact List.mem_flatMap.2 ⟨k, List.mem_range'_1.2 ⟨hk, by omega⟩, by rw [if_pos h2, if_pos h3]; simp⟩

theorem steps_length (n i s len : ℕ) : (steps n i s len).length = len := by simp [steps]

theorem steps_append (n i s a b : ℕ) : steps n i s a ++ steps n i (s + a) b = steps n i s (a + b) := by
  rw [steps, steps, steps, ← List.map_append]
  congr 1
  simp

theorem steps_range {n i s len x : ℕ} (hi : 1 ≤ i) (hi' : i ≤ n) (h : s + len ≤ n) (hx : x ∈ steps n i s len) : 1 ≤ x ∧ x ≤ n := by
  obtain ⟨k, hk, rfl⟩ := List.mem_map.1 hx
  rw [List.mem_range'_1] at hk
  exact cyc_range hi hi' (by omega)

theorem rotate_at {α : Type*} (A B : List α) {m : ℕ} (h : A.length = m) : (A ++ B).rotate m = B ++ A := by
  subst h
  exact List.rotate_append_length_eq A B

/-- The particles other than `i`, in the order of the code, are those steps, up to rotation. -/
theorem particles_rotate {n i : ℕ} (hi : 1 ≤ i) (hi' : i ≤ n) : ((List.range' 1 n).erase i).rotate (i - 1) = steps n i 1 (n - 1) := by
  have e : List.range' 1 n = List.range' 1 (i - 1) ++ i :: List.range' (i + 1) (n - i) := by
    conv_lhs => rw [show n = (i - 1) + ((n - i) + 1) by omega, ← List.range'_append_1, List.range'_succ]
    congr 2
    · omega
    · congr 1; omega
  have h1 : i ∉ List.range' 1 (i - 1) := by rw [List.mem_range'_1]; omega
  rw [e, List.erase_append_right _ h1, List.erase_cons_head]
  have h2 : (List.range' 1 (i - 1)).length = i - 1 := by simp
  rw [rotate_at _ _ h2, ← show (n - i) + (i - 1) = n - 1 by omega, ← steps_append]
  congr 1
  · apply List.ext_getElem
    · simp [steps]
    · intro k h _
      simp only [List.length_range'] at h
      simp only [steps, List.getElem_map, List.getElem_range', cyc]
      rw [if_pos (by omega)]
      omega
  · apply List.ext_getElem
    · simp [steps]
    · intro k h _
      simp only [List.length_range'] at h
      simp only [steps, List.getElem_map, List.getElem_range', cyc]
      rw [if_neg (by omega)]
      omega

theorem rotations {n i : ℕ} (hi : 1 ≤ i) (hi' : i ≤ n) (h2 : 2 ≤ n) (L : List ℕ) :
    (∃ kk < ((List.range' 1 n).erase i).length, L = ((List.range' 1 n).erase i).rotate kk) ↔ ∃ t < n - 1, L = (steps n i 1 (n - 1)).rotate t := by
  have hlen : ((List.range' 1 n).erase i).length = n - 1 := by
    rw [List.length_erase_of_mem (List.mem_range'_1.2 ⟨hi, by omega⟩)]; simp
  have hl : ∀ m, (steps n i 1 (n - 1)).rotate (m % (n - 1)) = (steps n i 1 (n - 1)).rotate m := fun m => by
    exact (congrArg (fun z => (steps n i 1 (n - 1)).rotate (m % z)) (steps_length n i 1 (n - 1))).symm.trans (List.rotate_mod _ _)
  have hp : ∀ m, ((List.range' 1 n).erase i).rotate (m % (n - 1)) = ((List.range' 1 n).erase i).rotate m := fun m => by
    conv_lhs => rw [← hlen]
    exact List.rotate_mod _ _
  have hW := particles_rotate hi hi'
  have hP : (steps n i 1 (n - 1)).rotate (n - i) = (List.range' 1 n).erase i := by
    rw [← hW, List.rotate_rotate, show i - 1 + (n - i) = n - 1 by omega, ← hlen, List.rotate_length]
  rw [hlen]
  constructor
  · rintro ⟨kk, _, rfl⟩
    exact ⟨(n - i + kk) % (n - 1), Nat.mod_lt _ (by omega), by rw [hl, ← List.rotate_rotate, hP]⟩
  · rintro ⟨t, _, rfl⟩
    exact ⟨(i - 1 + t) % (n - 1), Nat.mod_lt _ (by omega), by rw [hp, ← List.rotate_rotate, hW]⟩

theorem steps_rotate {n i t : ℕ} (ht : t < n - 1) : (steps n i 1 (n - 1)).rotate t = steps n i (1 + t) (n - 1 - t) ++ steps n i 1 t := by
  have h : steps n i 1 (n - 1) = steps n i 1 t ++ steps n i (1 + t) (n - 1 - t) := by
    rw [steps_append]; congr 1; omega
  rw [h]
  exact rotate_at _ _ (steps_length n i 1 t)

/-- Steps that do not pass `i` are a cyclic interval. -/
theorem steps_interval {n i s len : ℕ} (hi : 1 ≤ i) (hi' : i ≤ n) (h : s + len ≤ n) (hl : 1 ≤ len) : IsCyclicInterval n (steps n i s len).toFinset := by
  have hr := cyc_range hi hi' (k := s) (by omega)
  refine ⟨cyc n i s, len, hr.1, hr.2, by omega, ?_⟩
  ext x
  rw [List.mem_toFinset, mem_arcSet, steps, List.mem_map]
  constructor
  · rintro ⟨k, hk, rfl⟩
    rw [List.mem_range'_1] at hk
    exact ⟨k - s, by omega, by unfold cyc; split_ifs <;> omega⟩
  · rintro ⟨k, hk, rfl⟩
    exact ⟨s + k, List.mem_range'_1.2 ⟨by omega, by omega⟩, by unfold cyc; split_ifs <;> omega⟩

/-- A cyclic interval without `i` that has both neighbours of `i` has all other labels. -/
theorem around {n i : ℕ} {S : Finset ℕ} (hi : 1 ≤ i) (hi' : i ≤ n) (h2 : 2 ≤ n) (hS : IsCyclicInterval n S) (h0 : i ∉ S) (h1 : cyc n i 1 ∈ S)
    (hn : cyc n i (n - 1) ∈ S) {k : ℕ} (hk : 1 ≤ k) (hk' : k < n) : cyc n i k ∈ S := by
  obtain ⟨a, len, ha, ha', hl, rfl⟩ := hS
  rw [mem_arcSet] at h0 h1 hn ⊢
  obtain ⟨u, hu, e1⟩ := h1
  obtain ⟨v, hv, en⟩ := hn
  have key : a = cyc n i 1 := by
    by_contra hne
    refine h0 ⟨u - 1, by omega, ?_⟩
    unfold cyc at *
    split_ifs at * <;> omega
  have hv' : n - 2 ≤ v := by
    rw [key] at en
    unfold cyc at en
    split_ifs at en <;> omega
  refine ⟨k - 1, by omega, ?_⟩
  rw [key]
  unfold cyc
  split_ifs <;> omega

theorem steps_nodup {n i s len : ℕ} (h : s + len ≤ n) : (steps n i s len).Nodup := by
  refine List.Nodup.map_on (fun x hx y hy e => ?_) List.nodup_range'
  rw [List.mem_range'_1] at hx hy
  exact cyc_inj (by omega) (by omega) e

theorem steps_other {n i s len x : ℕ} (hs : 1 ≤ s) (h : s + len ≤ n) (hx : x ∈ steps n i s len) : x ≠ i := by
  obtain ⟨k, hk, rfl⟩ := List.mem_map.1 hx
  rw [List.mem_range'_1] at hk
  unfold cyc
  split_ifs <;> omega

/-- A piece with both neighbours of `i` that is not everything is rejected. -/
theorem piece_bad {n i : ℕ} {M : List ℕ} (hi : 1 ≤ i) (hi' : i ≤ n) (h2 : 2 ≤ n) (hM : ∀ x ∈ M, x ∈ steps n i 1 (n - 1)) (hl : M.length < n - 1) (h1 : cyc n i 1 ∈ M)
    (hn : cyc n i (n - 1) ∈ M) : neighbours n M ≠ true := by
  rw [Ne, neighbours_iff (List.ne_nil_of_mem h1) fun x hx => steps_range hi hi' (by omega) (hM x hx)]
  intro h
  have hall : (steps n i 1 (n - 1)).toFinset ⊆ M.toFinset := fun x hx => by
    obtain ⟨k, hk, rfl⟩ := List.mem_map.1 (List.mem_toFinset.1 hx)
    rw [List.mem_range'_1] at hk
    exact around hi hi' h2 h (fun h => steps_other (i := i) le_rfl (by omega) (hM _ (List.mem_toFinset.1 h)) rfl) (List.mem_toFinset.2 h1) (List.mem_toFinset.2 hn) hk.1
      (by omega)
  have := Finset.card_le_card hall
  rw [List.toFinset_card_of_nodup (steps_nodup (by omega)), steps_length] at this
  have := List.toFinset_card_le M
  omega

theorem take_three {α : Type*} (X Y Z : List α) : (X ++ Y ++ Z).take X.length = X ∧ ((X ++ Y ++ Z).drop X.length).take Y.length = Y ∧
    (X ++ Y ++ Z).drop (X.length + Y.length) = Z := by
  refine ⟨by simp [List.append_assoc], by simp [List.append_assoc], ?_⟩
  rw [← List.length_append, List.drop_left]

theorem cut {α : Type*} {L X Y Z : List α} {j k : ℕ} (h : L = X ++ Y ++ Z) (hj : X.length = j) (hk : Y.length = k) :
    L.take j = X ∧ (L.drop j).take k = Y ∧ L.drop (j + k) = Z := by
  subst h hj hk
  exact take_three X Y Z

/-- A piece that has the end and the start of the steps is rejected. -/
theorem piece_across {n i t u w : ℕ} (hi : 1 ≤ i) (hi' : i ≤ n) (h2 : 2 ≤ n) (ht : 1 ≤ t) (ht' : t < n - 1) (hu : u < n - 1 - t) (hw : n - 1 - t < u + w)
    (hw' : w < n - 1) : neighbours n (((steps n i (1 + t) (n - 1 - t) ++ steps n i 1 t).drop u).take w) ≠ true := by
  have hlen : (steps n i (1 + t) (n - 1 - t) ++ steps n i 1 t).length = n - 1 := by simp [steps]; omega
  refine piece_bad hi hi' h2 (fun x hx => ?_) (by rw [List.length_take]; omega) ?_ ?_
  · have := List.mem_of_mem_drop (List.mem_of_mem_take hx)
    rw [← steps_rotate ht', List.mem_rotate] at this
    exact this
  · rw [List.mem_iff_getElem]
    refine ⟨n - 1 - t - u, by rw [List.length_take, List.length_drop]; omega, ?_⟩
    rw [List.getElem_take, List.getElem_drop, List.getElem_append_right (by rw [steps_length]; omega)]
    simp only [steps, List.getElem_map, List.getElem_range', List.length_map, List.length_range']
    congr 1
    omega
  · rw [List.mem_iff_getElem]
    refine ⟨n - 2 - t - u, by rw [List.length_take, List.length_drop]; omega, ?_⟩
    rw [List.getElem_take, List.getElem_drop, List.getElem_append_left (by rw [steps_length]; omega)]
    simp only [steps, List.getElem_map, List.getElem_range']
    congr 1
    omega

theorem whole {n i p q r : ℕ} (h : p + q + r + 1 = n) : steps n i (1 + 0) (n - 1 - 0) ++ steps n i 1 0 = steps n i 1 p ++ steps n i (1 + p) q ++ steps n i (1 + p + q) r := by
  rw [steps_append, add_assoc 1 p q, steps_append, show steps n i 1 0 = [] from rfl, List.append_nil, show n - 1 - 0 = p + q + r by omega]

/-- The other labels after `i`, cut into three arcs of at least two, and the arcs written in one of the three cyclic orders. -/
def IsTriple (n i : ℕ) (m1 m2 m3 : List ℕ) : Prop :=
  ∃ p q r, 2 ≤ p ∧ 2 ≤ q ∧ 2 ≤ r ∧ p + q + r + 1 = n ∧
    ((m1 = steps n i 1 p ∧ m2 = steps n i (1 + p) q ∧ m3 = steps n i (1 + p + q) r) ∨
      (m2 = steps n i 1 p ∧ m3 = steps n i (1 + p) q ∧ m1 = steps n i (1 + p + q) r) ∨
      (m3 = steps n i 1 p ∧ m1 = steps n i (1 + p) q ∧ m2 = steps n i (1 + p + q) r))

/-- C113: the strings with three slots that are generated, for every number of particles. -/
theorem C113_list {n i : ℕ} {m1 m2 m3 : List ℕ} : (i, m1, m2, m3) ∈ gen5 n ↔ 1 ≤ i ∧ i ≤ n ∧ IsTriple n i m1 m2 m3 := by
  have hgen : (i, m1, m2, m3) ∈ gen5 n ↔ 1 ≤ i ∧ i ≤ n ∧ ∃ L, (∃ kk < ((List.range' 1 n).erase i).length, L = ((List.range' 1 n).erase i).rotate kk) ∧
      (i, m1, m2, m3) ∈ five n i L := by
    simp only [gen5, List.mem_flatMap, List.mem_range'_1, List.mem_range]
    constructor
    · rintro ⟨i', ⟨h1, h2⟩, kk, hk, h⟩
      obtain ⟨j, k, -, -, -, -, -, -, e⟩ := mem_five.1 h
      obtain rfl : i = i' := congrArg Prod.fst e
      exact ⟨h1, by omega, _, ⟨kk, hk, rfl⟩, h⟩
    · rintro ⟨h1, h2, L, ⟨kk, hk, rfl⟩, h⟩
      exact ⟨i, ⟨h1, by omega⟩, kk, hk, h⟩
  rw [hgen]
  refine and_congr_right fun hi => and_congr_right fun hi' => ?_
  have good : ∀ s len, 1 ≤ s → s + len ≤ n → 2 ≤ len → neighbours n (steps n i s len) = true := fun s len hs h hl =>
    (neighbours_iff (List.ne_nil_of_length_pos (by rw [steps_length]; omega)) fun x hx => steps_range hi hi' h hx).2 (steps_interval hi hi' h (by omega))
  constructor
  · rintro ⟨L, hL, h⟩
    obtain ⟨j, k, hj, hk, hl, g1, g2, g3, e⟩ := mem_five.1 h
    simp only [Prod.mk.injEq, true_and] at e
    obtain ⟨rfl, rfl, rfl⟩ := e
    obtain ⟨t, ht, rfl⟩ := (rotations hi hi' (by omega) L).1 hL
    clear hL hgen
    rw [steps_rotate ht] at *
    have hlen : (steps n i (1 + t) (n - 1 - t) ++ steps n i 1 t).length = n - 1 := by simp [steps]; omega
    by_cases h0 : t = 0
    · subst h0
      obtain ⟨e1, e2, e3⟩ := cut (L := steps n i (1 + 0) (n - 1 - 0) ++ steps n i 1 0) (X := steps n i 1 j) (Y := steps n i (1 + j) k) (Z := steps n i (1 + j + k) (n - 1 - j - k))
        (whole (by omega)) (steps_length ..) (steps_length ..)
      rw [e1, e2, e3]
      exact ⟨j, k, n - 1 - j - k, hj, hk, by omega, by omega, .inl ⟨rfl, rfl, rfl⟩⟩
    by_cases h1 : n - 1 - t = j
    · obtain ⟨e1, e2, e3⟩ := cut (L := steps n i (1 + t) (n - 1 - t) ++ steps n i 1 t) (X := steps n i (1 + t) j) (Y := steps n i 1 k) (Z := steps n i (1 + k) (t - k))
        (by rw [List.append_assoc, steps_append, h1]; congr 2; omega) (steps_length ..) (steps_length ..)
      rw [e1, e2, e3]
      exact ⟨k, t - k, j, hk, by omega, hj, by omega, .inr (.inl ⟨rfl, rfl, by congr 1; omega⟩)⟩
    by_cases h2 : n - 1 - t = j + k
    · obtain ⟨e1, e2, e3⟩ := cut (L := steps n i (1 + t) (n - 1 - t) ++ steps n i 1 t) (X := steps n i (1 + t) j) (Y := steps n i (1 + t + j) k) (Z := steps n i 1 t)
        (by rw [steps_append, h2]) (steps_length ..) (steps_length ..)
      rw [e1, e2, e3]
      exact ⟨t, j, k, by omega, hj, hk, by omega, .inr (.inr ⟨rfl, rfl, rfl⟩)⟩
    exfalso
    rcases lt_or_ge (n - 1 - t) j with h3 | h3
    · exact piece_across (u := 0) (w := j) hi hi' (by omega) (by omega) ht (by omega) (by omega) (by omega) g1
    rcases lt_or_ge (n - 1 - t) (j + k) with h4 | h4
    · exact piece_across (u := j) (w := k) hi hi' (by omega) (by omega) ht (by omega) (by omega) (by omega) g2
    · refine piece_across (u := j + k) (w := n - 1 - (j + k)) hi hi' (by omega) (by omega) ht (by omega) (by omega) (by omega) ?_
      rw [List.take_of_length_le (by rw [List.length_drop, hlen])]
      exact g3
  · rintro ⟨p, q, r, hp, hq, hr, hn, h⟩
    have hsum : ∀ t j k X Y Z, t < n - 1 → 2 ≤ j → 2 ≤ k → j + k + 3 ≤ n → steps n i (1 + t) (n - 1 - t) ++ steps n i 1 t = X ++ Y ++ Z → X.length = j → Y.length = k →
        neighbours n X = true → neighbours n Y = true → neighbours n Z = true → ∃ L, (∃ kk < ((List.range' 1 n).erase i).length, L = ((List.range' 1 n).erase i).rotate kk) ∧
          (i, X, Y, Z) ∈ five n i L := by
      intro t j k X Y Z ht hj hk hl hs hX hY gX gY gZ
      obtain ⟨e1, e2, e3⟩ := cut hs hX hY
      refine ⟨_, (rotations hi hi' (by omega) _).2 ⟨t, ht, rfl⟩, mem_five.2 ⟨j, k, hj, hk, hl, ?_⟩⟩
      rw [steps_rotate ht, e1, e2, e3]
      exact ⟨gX, gY, gZ, rfl⟩
    have gA := good 1 p le_rfl (by omega) hp
    have gB := good (1 + p) q (by omega) (by omega) hq
    have gC := good (1 + p + q) r (by omega) (by omega) hr
    rcases h with ⟨rfl, rfl, rfl⟩ | ⟨rfl, rfl, rfl⟩ | ⟨rfl, rfl, rfl⟩
    · exact hsum 0 p q _ _ _ (by omega) hp hq (by omega) (whole (by omega)) (steps_length ..) (steps_length ..) gA gB gC
    · exact hsum (p + q) r p _ _ _ (by omega) hr hp (by omega) (by rw [List.append_assoc, steps_append, ← add_assoc, show n - 1 - (p + q) = r by omega]) (steps_length ..)
        (steps_length ..) gC gA gB
    · exact hsum p q r _ _ _ (by omega) hq hr (by omega) (by rw [steps_append, show n - 1 - p = q + r by omega]) (steps_length ..) (steps_length ..) gB gC gA

theorem nodup_flatMap_of {α β : Type*} {l : List α} {f : α → List β} (hl : l.Nodup) (hf : ∀ x ∈ l, (f x).Nodup) (hd : ∀ x ∈ l, ∀ y ∈ l, ∀ t ∈ f x, t ∈ f y → x = y) :
    (l.flatMap f).Nodup :=
  List.nodup_flatMap.2 ⟨hf, List.Pairwise.imp_of_mem (fun hx hy hxy t ht ht' => hxy (hd _ hx _ hy t ht ht')) hl⟩

theorem five_nodup {n i : ℕ} {L : List ℕ} (hL : L.length = n - 1) : (five n i L).Nodup := by
  unfold five
  change ((List.range' 2 (n - 4 - 2)).flatMap (fun j => if neighbours n (L.take j) = true then (List.range' 2 (n - 2 - j - 2)).flatMap (fun k =>
    if neighbours n ((L.drop j).take k) = true then if neighbours n (L.drop (j + k)) = true then [(i, L.take j, (L.drop j).take k, L.drop (j + k))] else [] else []) else [])).Nodup
  have inner : ∀ {j k t}, t ∈ (if neighbours n ((L.drop j).take k) = true then if neighbours n (L.drop (j + k)) = true then [(i, L.take j, (L.drop j).take k, L.drop (j + k))] else []
      else []) → t = (i, L.take j, (L.drop j).take k, L.drop (j + k)) := fun h => by
    split at h
    · split at h
      · exact List.mem_singleton.1 h
      · cases h
    · cases h
  refine nodup_flatMap_of List.nodup_range' (fun j hj => ?_) fun x hx y hy t ht ht' => ?_
  · rw [List.mem_range'_1] at hj
    split
    · refine nodup_flatMap_of List.nodup_range' (fun k _ => ?_) fun x hx y hy t ht ht' => ?_
      · split
        · split <;> simp
        · simp
      · rw [List.mem_range'_1] at hx hy
        have e := congrArg (fun t => t.2.2.1.length) ((inner ht).symm.trans (inner ht'))
        simp only [List.length_take, List.length_drop, hL] at e
        omega
    · simp
  · rw [List.mem_range'_1] at hx hy
    split at ht
    · split at ht'
      · obtain ⟨_, _, h1⟩ := List.mem_flatMap.1 ht
        obtain ⟨_, _, h2⟩ := List.mem_flatMap.1 ht'
        have e := congrArg (fun t => t.2.1.length) ((inner h1).symm.trans (inner h2))
        simp only [List.length_take, hL] at e
        omega
      · cases ht'
    · cases ht

/-- C113: and none twice. -/
theorem C113_once (n : ℕ) : (gen5 n).Nodup := by
  have first : ∀ {i L t}, t ∈ five n i L → t.1 = i ∧ t.2.1 ++ t.2.2.1 ++ t.2.2.2 = L := fun h => by
    obtain ⟨j, k, -, -, -, -, -, -, rfl⟩ := mem_five.1 h
    refine ⟨rfl, ?_⟩
    simp only
    rw [List.append_assoc, ← List.drop_drop, List.take_append_drop, List.take_append_drop]
  refine nodup_flatMap_of List.nodup_range' (fun i hi => ?_) fun x _ y _ t ht ht' => ?_
  · have hnd : ((List.range' 1 n).erase i).Nodup := (List.nodup_range' (s := 1) (n := n)).erase i
    have hlen : ((List.range' 1 n).erase i).length = n - 1 := by rw [List.length_erase_of_mem hi]; simp
    refine nodup_flatMap_of List.nodup_range (fun kk _ => five_nodup (by rw [List.length_rotate, hlen])) fun x hx y hy t ht ht' => ?_
    rw [List.mem_range] at hx hy
    have e := (first ht).2.symm.trans (first ht').2
    rcases hnd.rotate_congr_iff.1 e with h | h
    · rwa [Nat.mod_eq_of_lt hx, Nat.mod_eq_of_lt hy] at h
    · rw [h] at hx; simp at hx
  · obtain ⟨_, _, h⟩ := List.mem_flatMap.1 ht
    obtain ⟨_, _, h'⟩ := List.mem_flatMap.1 ht'
    exact (first h).1.symm.trans (first h').1

end Lips

import Verif.Spec.PointSlice
import Verif.Props.Indexing
import Mathlib.Tactic.Linarith
import Mathlib.Data.List.Basic

/-!
C130: slices of a point. Slices are not shifted to labels from one.
-/

namespace Lips

variable {α : Type*}

/-! ### Positions -/

theorem range_up {a b st : ℤ} (h : 0 < st) (x : ℤ) :
    (∃ k : ℕ, k < rangeLen a b st ∧ a + k * st = x) ↔ a ≤ x ∧ x < b ∧ st ∣ x - a := by
  unfold rangeLen
  rw [if_pos h]
  constructor
  · rintro ⟨k, hk, rfl⟩
    split at hk
    · rename_i hab
      have h2 : (k : ℤ) ≤ (b - a - 1) / st := by omega
      have h3 := (Int.le_ediv_iff_mul_le h).1 h2
      have h4 : (0 : ℤ) ≤ k * st := by positivity
      exact ⟨by linarith, by linarith, ⟨k, by ring⟩⟩
    · omega
  · rintro ⟨h1, h2, q, hq⟩
    have hq0 : 0 ≤ q := by
      by_contra hc
      have : st * q < 0 := mul_neg_of_pos_of_neg h (by omega)
      omega
    rw [if_pos (by omega)]
    refine ⟨q.toNat, ?_, ?_⟩
    · have h3 : q ≤ (b - a - 1) / st := (Int.le_ediv_iff_mul_le h).2 (by rw [mul_comm, ← hq]; omega)
      omega
    · rw [Int.toNat_of_nonneg hq0, mul_comm, ← hq]
      ring

theorem range_down {a b st : ℤ} (h : st < 0) (x : ℤ) :
    (∃ k : ℕ, k < rangeLen a b st ∧ a + k * st = x) ↔ x ≤ a ∧ b < x ∧ st ∣ a - x := by
  have key := range_up (a := -a) (b := -b) (st := -st) (by omega) (-x)
  have e : rangeLen (-a) (-b) (-st) = rangeLen a b st := by
    unfold rangeLen
    rw [if_pos (show 0 < -st by omega), if_neg (show ¬ 0 < st by omega)]
    by_cases hc : b < a
    · rw [if_pos (show -a < -b by omega), if_pos hc, show -b - -a - 1 = a - b - 1 by ring]
    · rw [if_neg (show ¬ -a < -b by omega), if_neg hc]
  rw [e] at key
  constructor
  · rintro ⟨k, hk, hx⟩
    obtain ⟨h1, h2, h3⟩ := key.1 ⟨k, hk, by rw [← hx]; ring⟩
    refine ⟨by omega, by omega, ?_⟩
    rw [neg_dvd] at h3
    have : a - x = -x - -a := by ring
    rwa [this]
  · rintro ⟨h1, h2, h3⟩
    obtain ⟨k, hk, hx⟩ := key.2 ⟨by omega, by omega, by rw [neg_dvd]; have : -x - -a = a - x := by ring
                                                        rwa [this]⟩
    exact ⟨k, hk, by linarith⟩

/-- The positions when the step is not zero. -/
theorem positions_ok {len : ℕ} {s : PySlice} (h : s.step.getD 1 ≠ 0) :
    s.positions len = .ok ((List.range (rangeLen (s.start len (s.step.getD 1)) (s.stop len (s.step.getD 1)) (s.step.getD 1))).map
      fun k : ℕ => (s.start len (s.step.getD 1) + k * s.step.getD 1).toNat) := by
  simp only [PySlice.positions, if_neg h]

theorem start_stop_up {len : ℕ} {s : PySlice} {st : ℤ} (h : 0 < st) :
    0 ≤ s.start len st ∧ s.start len st ≤ len ∧ 0 ≤ s.stop len st ∧ s.stop len st ≤ len := by
  obtain ⟨lo, hi, q⟩ := s
  simp only [PySlice.start, PySlice.stop, if_pos h, clipBound]
  refine ⟨?_, ?_, ?_, ?_⟩ <;> (try rcases lo with _ | lo) <;> (try rcases hi with _ | hi) <;> simp only [] <;> (try split) <;> omega

theorem start_stop_down {len : ℕ} {s : PySlice} {st : ℤ} (h : st < 0) :
    -1 ≤ s.start len st ∧ s.start len st ≤ len - 1 ∧ -1 ≤ s.stop len st ∧ s.stop len st ≤ len - 1 := by
  obtain ⟨lo, hi, q⟩ := s
  simp only [PySlice.start, PySlice.stop, if_neg (show ¬ 0 < st by omega), clipBound]
  refine ⟨?_, ?_, ?_, ?_⟩ <;> (try rcases lo with _ | lo) <;> (try rcases hi with _ | hi) <;> simp only [] <;> (try split) <;> omega

/-- Before the cut to natural numbers every position is in the list. -/
theorem position_bounds {len : ℕ} {s : PySlice} {st : ℤ} (h : st ≠ 0) {k : ℕ} (hk : k < rangeLen (s.start len st) (s.stop len st) st) :
    0 ≤ s.start len st + k * st ∧ s.start len st + k * st < len := by
  rcases lt_or_gt_of_ne h with h | h
  · have := (range_down (a := s.start len st) (b := s.stop len st) h _).1 ⟨k, hk, rfl⟩
    have := start_stop_down (len := len) (s := s) h
    omega
  · have := (range_up (a := s.start len st) (b := s.stop len st) h _).1 ⟨k, hk, rfl⟩
    have := start_stop_up (len := len) (s := s) h
    omega

theorem mem_positions {len : ℕ} {s : PySlice} {is : List ℕ} (h : s.positions len = .ok is) (p : ℕ) :
    p ∈ is ↔ ∃ k : ℕ, k < rangeLen (s.start len (s.step.getD 1)) (s.stop len (s.step.getD 1)) (s.step.getD 1) ∧
      s.start len (s.step.getD 1) + k * s.step.getD 1 = p := by
  have h0 : s.step.getD 1 ≠ 0 := by
    intro h0
    simp [PySlice.positions, h0] at h
  rw [positions_ok h0] at h
  injection h with h
  subst h
  simp only [List.mem_map, List.mem_range]
  constructor
  · rintro ⟨k, hk, rfl⟩
    have := position_bounds h0 hk
    exact ⟨k, hk, by omega⟩
  · rintro ⟨k, hk, e⟩
    exact ⟨k, hk, by omega⟩

/-- C130: the positions a slice takes. -/
theorem C130_members (len : ℕ) (s : PySlice) {is : List ℕ} (h : s.positions len = .ok is) (p : ℕ) :
    p ∈ is ↔ Taken len s.lo s.hi (s.step.getD 1) p := by
  rw [mem_positions h]
  have h0 : s.step.getD 1 ≠ 0 := by
    intro h0
    simp [PySlice.positions, h0] at h
  generalize s.step.getD 1 = st at h0 ⊢
  obtain ⟨lo, hi, q⟩ := s
  rcases lt_or_gt_of_ne h0 with h1 | h1
  · rw [range_down h1]
    simp only [Taken, if_neg (show ¬ 0 < st by omega), PySlice.start, PySlice.stop, clipBound, fromEnd]
    rcases lo with _ | lo <;> rcases hi with _ | hi <;> simp only [reduceCtorEq, false_imp_iff, implies_true, true_and, Option.some.injEq, forall_eq']
    · constructor
      · rintro ⟨a1, a2, a3⟩
        exact ⟨by omega, a1, a3⟩
      · rintro ⟨a1, a2, a3⟩
        exact ⟨a2, by omega, a3⟩
    · constructor
      · rintro ⟨a1, a2, a3⟩
        exact ⟨by omega, a1, by split at a2 <;> split <;> omega, a3⟩
      · rintro ⟨a1, a2, a4, a3⟩
        exact ⟨a2, by split at a4 <;> split <;> omega, a3⟩
    · constructor
      · rintro ⟨a1, a2, a3⟩
        have e : (if lo < 0 then max (lo + len) (-1) else min lo ((len : ℤ) - 1)) = min ((len : ℤ) - 1) (if lo < 0 then lo + len else lo) := by
          split at a1 <;> rename_i hlo <;> simp only [hlo, if_true, if_false] <;> omega
        rw [e] at a1 a3
        exact ⟨by omega, a1, a3⟩
      · rintro ⟨a1, a2, a3⟩
        have e : (if lo < 0 then max (lo + len) (-1) else min lo ((len : ℤ) - 1)) = min ((len : ℤ) - 1) (if lo < 0 then lo + len else lo) := by
          by_cases hlo : lo < 0 <;> simp only [hlo, if_true, if_false] at a2 ⊢ <;> omega
        rw [e]
        exact ⟨a2, by omega, a3⟩
    · constructor
      · rintro ⟨a1, a2, a3⟩
        have e : (if lo < 0 then max (lo + len) (-1) else min lo ((len : ℤ) - 1)) = min ((len : ℤ) - 1) (if lo < 0 then lo + len else lo) := by
          split at a1 <;> rename_i hlo <;> simp only [hlo, if_true, if_false] <;> omega
        rw [e] at a1 a3
        exact ⟨by omega, a1, by split at a2 <;> split <;> omega, a3⟩
      · rintro ⟨a1, a2, a4, a3⟩
        have e : (if lo < 0 then max (lo + len) (-1) else min lo ((len : ℤ) - 1)) = min ((len : ℤ) - 1) (if lo < 0 then lo + len else lo) := by
          by_cases hlo : lo < 0 <;> simp only [hlo, if_true, if_false] at a2 ⊢ <;> omega
        rw [e]
        exact ⟨a2, by split at a4 <;> split <;> omega, a3⟩
  · rw [range_up h1]
    have e : ∀ lo : ℤ, (p : ℤ) < len → ((if lo < 0 then max (lo + len) 0 else min lo len) ≤ (p : ℤ) ∨ max 0 (if lo < 0 then lo + (len : ℤ) else lo) ≤ p) →
        (if lo < 0 then max (lo + len) 0 else min lo (len : ℤ)) = max 0 (if lo < 0 then lo + (len : ℤ) else lo) := by
      intro lo hp hc
      by_cases hlo : lo < 0 <;> simp only [hlo, if_true, if_false] at hc ⊢ <;> omega
    simp only [Taken, if_pos h1, PySlice.start, PySlice.stop, clipBound, fromEnd]
    rcases lo with _ | lo <;> rcases hi with _ | hi <;> simp only [reduceCtorEq, false_imp_iff, implies_true, true_and, Option.some.injEq, forall_eq']
    · constructor
      · rintro ⟨a1, a2, a3⟩
        exact ⟨by omega, a1, a3⟩
      · rintro ⟨a1, a2, a3⟩
        exact ⟨a2, by omega, a3⟩
    · constructor
      · rintro ⟨a1, a2, a3⟩
        refine ⟨by split at a2 <;> omega, a1, by split at a2 <;> split <;> omega, a3⟩
      · rintro ⟨a1, a2, a4, a3⟩
        exact ⟨a2, by split at a4 <;> split <;> omega, a3⟩
    · constructor
      · rintro ⟨a1, a2, a3⟩
        have e := e lo a2 (Or.inl a1)
        rw [e] at a1 a3
        exact ⟨by omega, a1, a3⟩
      · rintro ⟨a1, a2, a3⟩
        rw [e lo (by omega) (Or.inr a2)]
        exact ⟨a2, by omega, a3⟩
    · constructor
      · rintro ⟨a1, a2, a3⟩
        have hp : (p : ℤ) < len := by split at a2 <;> omega
        have e := e lo hp (Or.inl a1)
        rw [e] at a1 a3
        exact ⟨by omega, a1, by split at a2 <;> split <;> omega, a3⟩
      · rintro ⟨a1, a2, a4, a3⟩
        rw [e lo (by omega) (Or.inr a2)]
        exact ⟨a2, by split at a4 <;> split <;> omega, a3⟩

/-- C130: a slice has positions exactly when its step is not zero. -/
theorem C130_zero_step (len : ℕ) (s : PySlice) :
    (s.step = some 0 → s.positions len = .error .valueError) ∧ (s.step ≠ some 0 → ∃ is, s.positions len = .ok is) := by
  refine ⟨fun h => by simp [PySlice.positions, h], fun h => ?_⟩
  have h0 : s.step.getD 1 ≠ 0 := by
    rcases hs : s.step with _ | k
    · simp
    · rw [hs] at h
      simpa using h
  exact ⟨_, positions_ok h0⟩

/-- C130: positions are taken in increasing order for a positive step and in decreasing order for a negative one. -/
theorem C130_order (len : ℕ) (s : PySlice) {is : List ℕ} (h : s.positions len = .ok is) :
    if 0 < s.step.getD 1 then is.Pairwise (· < ·) else is.Pairwise (· > ·) := by
  have h0 : s.step.getD 1 ≠ 0 := by
    intro h0
    simp [PySlice.positions, h0] at h
  rw [positions_ok h0] at h
  injection h with h
  subst h
  have hr : ∀ n : ℕ, (List.range n).Pairwise fun a b => a < b ∧ b < n := by
    intro n
    refine List.Pairwise.imp_of_mem ?_ (List.pairwise_lt_range (n := n))
    intro a b _ hb hab
    exact ⟨hab, List.mem_range.1 hb⟩
  split
  · rename_i h1
    refine List.pairwise_map.2 ((hr _).imp ?_)
    rintro a b ⟨hab, hb⟩
    have b1 := position_bounds h0 hb
    have b2 := position_bounds h0 (lt_trans hab hb)
    have : (a : ℤ) * s.step.getD 1 < b * s.step.getD 1 := mul_lt_mul_of_pos_right (by exact_mod_cast hab) h1
    show (_ : ℤ).toNat < (_ : ℤ).toNat
    omega
  · rename_i h1
    refine List.pairwise_map.2 ((hr _).imp ?_)
    rintro a b ⟨hab, hb⟩
    have b1 := position_bounds h0 hb
    have b2 := position_bounds h0 (lt_trans hab hb)
    have : (b : ℤ) * s.step.getD 1 < a * s.step.getD 1 := mul_lt_mul_of_neg_right (by exact_mod_cast hab) (by omega)
    show (_ : ℤ).toNat > (_ : ℤ).toNat
    omega

/-! ### Reading -/

theorem positions_lt {len : ℕ} {s : PySlice} {is : List ℕ} (h : s.positions len = .ok is) {p : ℕ} (hp : p ∈ is) : p < len :=
  ((C130_members len s h p).1 hp).1

theorem filterMap_positions (l : List α) (is : List ℕ) (h : ∀ p ∈ is, p < l.length) :
    (is.filterMap (l[·]?)).length = is.length ∧ ∀ j : ℕ, (is.filterMap (l[·]?))[j]? = (is[j]?).bind (l[·]?) := by
  induction is with
  | nil => simp
  | cons p is ih =>
    obtain ⟨h1, h2⟩ := ih fun q hq => h q (List.mem_cons_of_mem _ hq)
    have hp := h p List.mem_cons_self
    have e : ((p :: is).filterMap (l[·]?)) = l[p] :: is.filterMap (l[·]?) := by
      rw [List.filterMap_cons, List.getElem?_eq_getElem hp]
    rw [e]
    refine ⟨by simp [h1], fun j => ?_⟩
    rcases j with _ | j
    · simp [hp]
    · simpa using h2 j

/-- C130: `ps[lo:hi:step]` has the particles at the positions of the slice, in their order. -/
theorem C130_get (l : List α) (s : PySlice) {is : List ℕ} (h : s.positions l.length = .ok is) :
    ∃ r, sliceGet l s = .ok r ∧ r.length = is.length ∧ ∀ j : ℕ, r[j]? = (is[j]?).bind (l[·]?) := by
  refine ⟨is.filterMap (l[·]?), by simp only [sliceGet, h], ?_⟩
  exact filterMap_positions l is fun p hp => positions_lt h hp

theorem start_nat (len a : ℕ) (hi st : Option ℤ) : PySlice.start len ⟨some (a : ℤ), hi, st⟩ 1 = ((min a len : ℕ) : ℤ) := by
  simp only [PySlice.start, clipBound]
  rw [if_pos one_pos, if_neg (by omega)]
  omega

theorem stop_nat (len b : ℕ) (lo st : Option ℤ) : PySlice.stop len ⟨lo, some (b : ℤ), st⟩ 1 = ((min b len : ℕ) : ℤ) := by
  simp only [PySlice.stop, clipBound]
  rw [if_pos one_pos, if_neg (by omega)]
  omega

theorem rangeLen_one (x y : ℤ) : rangeLen x y 1 = (y - x).toNat := by
  unfold rangeLen
  rw [if_pos one_pos]
  rw [Int.ediv_one]
  split <;> omega

theorem positions_nat (len a b : ℕ) :
    PySlice.positions len ⟨some (a : ℤ), some (b : ℤ), none⟩ = .ok ((List.range (min b len - min a len)).map (min a len + ·)) := by
  rw [positions_ok (by simp)]
  simp only [Option.getD_none, start_nat, stop_nat, rangeLen_one]
  congr 1
  rw [show (((min b len : ℕ) : ℤ) - ((min a len : ℕ) : ℤ)).toNat = min b len - min a len by omega]
  refine List.map_congr_left fun k _ => ?_
  omega

/-- C130: with two natural bounds and no step, the slice is a piece of the list. -/
theorem sliceGet_nat (l : List α) (a b : ℕ) : sliceGet l ⟨some (a : ℤ), some (b : ℤ), none⟩ = .ok ((l.take b).drop a) := by
  obtain ⟨r, h1, h2, h3⟩ := C130_get l _ (positions_nat l.length a b)
  rw [h1]
  congr 1
  refine List.ext_getElem? fun j => ?_
  rw [h3, List.getElem?_drop, List.getElem?_take, List.getElem?_map]
  by_cases hj : j < min b l.length - min a l.length
  · rw [List.getElem?_range hj, if_pos (by omega)]
    simp only [Option.map_some, Option.bind_some]
    rw [min_eq_left (by omega)]
  · rw [List.getElem?_eq_none (by rw [List.length_range]; omega)]
    simp only [Option.map_none, Option.bind_none]
    split
    · rw [List.getElem?_eq_none (by omega)]
    · rfl

/-- C130: `ps[a:b]` numbers, from one, the particles with labels `a + 1`, …, `b`. -/
theorem C130_labels_partial (l : List α) (a b : ℕ) :
    ∃ r, sliceGet l ⟨some (a : ℤ), some (b : ℤ), none⟩ = .ok r ∧ ∀ i : ℤ,
      pyGet r i = if 1 ≤ i ∧ i ≤ b - a then pyGet l (a + i) else .error .indexError := by
  refine ⟨_, sliceGet_nat l a b, fun i => ?_⟩
  by_cases hi : 1 ≤ i ∧ i ≤ b - a
  · rw [if_pos hi]
    by_cases hl : (a : ℤ) + i ≤ l.length
    · rw [pyGet_in (by simp; omega), pyGet_in (by omega)]
      congr 1
      rw [List.getElem_drop, List.getElem_take]
      congr 1
      omega
    · rw [pyGet_out (by simp; omega), pyGet_out (by omega)]
  · rw [if_neg hi, pyGet_out (by simp; omega)]

/-- C130: `ps[:b]` numbers its particles as the point does. -/
theorem C130_prefix (l : List α) (b : ℕ) :
    ∃ r, sliceGet l ⟨none, some (b : ℤ), none⟩ = .ok r ∧ ∀ i : ℤ, pyGet r i = if i ≤ b then pyGet l i else .error .indexError := by
  obtain ⟨r, h1, h2⟩ := C130_labels_partial l 0 b
  refine ⟨r, ?_, fun i => ?_⟩
  · rw [← h1]
    simp [sliceGet, PySlice.positions, PySlice.start, PySlice.stop, clipBound]
  · rw [h2]
    by_cases hi : 1 ≤ i ∧ i ≤ (b : ℤ) - (0 : ℕ)
    · rw [if_pos hi, if_pos (by omega)]
      simp
    · rw [if_neg hi]
      split
      · rw [pyGet_out (by omega)]
      · rfl

/-- C130 (negation): a slice that does not begin at the first label does not contain what its bounds name as labels; its first particle is the one
after `ps[a]`. -/
theorem C130_not_base_one (l : List α) (a b : ℕ) (hab : a < b) {x y : α} (hx : pyGet l a = .ok x)
    (hy : pyGet l (a + 1) = .ok y) (hxy : x ≠ y) :
    ∃ r, sliceGet l ⟨some (a : ℤ), some (b : ℤ), none⟩ = .ok r ∧ pyGet r 1 = .ok y ∧ pyGet r 1 ≠ pyGet l a := by
  obtain ⟨r, h1, h2⟩ := C130_labels_partial l a b
  have h3 : pyGet r 1 = .ok y := by rw [h2, if_pos (by omega), hy]
  refine ⟨r, h1, h3, ?_⟩
  rw [h3, hx]
  intro hc
  injection hc with hc
  exact hxy hc.symm

/-- C130: a slice of a point has its field and its reference vector, and no internal masses. -/
theorem C130_point {F M : Type*} (p q : PointRec α F M) (s : PySlice) (h : p.slice s = .ok q) :
    q.field = p.field ∧ q.refVec = p.refVec ∧ sliceGet p.parts s = .ok q.parts ∧ (p.masses ≠ [] → q.masses ≠ p.masses) := by
  unfold PointRec.slice at h
  split at h
  · rename_i ps hps
    injection h with h
    subst h
    exact ⟨rfl, rfl, hps, fun hm hc => hm hc.symm⟩
  · exact absurd h (by simp)

/-! ### Writing -/

theorem writeAll_length (l : List α) (is : List ℕ) (vs : List α) : (writeAll l is vs).length = l.length := by
  induction is generalizing l vs with
  | nil => simp [writeAll]
  | cons i is ih =>
    rcases vs with _ | ⟨v, vs⟩
    · simp [writeAll]
    · rw [writeAll, ih, List.length_set]

theorem writeAll_other (l : List α) (is : List ℕ) (vs : List α) (p : ℕ) (hp : p ∉ is) : (writeAll l is vs)[p]? = l[p]? := by
  induction is generalizing l vs with
  | nil => simp [writeAll]
  | cons i is ih =>
    rcases vs with _ | ⟨v, vs⟩
    · simp [writeAll]
    · rw [writeAll, ih _ _ (fun hc => hp (List.mem_cons_of_mem _ hc)), List.getElem?_set_ne]
      rintro rfl
      exact hp List.mem_cons_self

theorem writeAll_at (l : List α) (is : List ℕ) (vs : List α) (hn : is.Nodup) (hl : ∀ p ∈ is, p < l.length) (hv : vs.length = is.length) :
    is.filterMap ((writeAll l is vs)[·]?) = vs := by
  induction is generalizing l vs with
  | nil =>
    simp at hv
    simp [hv]
  | cons i is ih =>
    rcases vs with _ | ⟨v, vs⟩
    · simp at hv
    · have h1 := List.nodup_cons.1 hn
      have h2 : (writeAll l (i :: is) (v :: vs))[i]? = some v := by
        rw [writeAll, writeAll_other _ _ _ _ h1.1, List.getElem?_set_self (hl i List.mem_cons_self)]
      rw [List.filterMap_cons, h2]
      simp only
      rw [writeAll, ih _ _ h1.2 (fun p hp => by rw [List.length_set]; exact hl p (List.mem_cons_of_mem _ hp)) (by simpa using hv)]

theorem positions_nodup {len : ℕ} {s : PySlice} {is : List ℕ} (h : s.positions len = .ok is) : is.Nodup := by
  have := C130_order len s h
  split at this
  · exact this.imp fun hab => by omega
  · exact this.imp fun hab => by omega

/-- C130: assigning to a slice with a step other than one: as many particles are needed as the slice has; they are read back from it, and the other
particles are left. -/
theorem C130_set_extended (l vs : List α) (s : PySlice) (hs : s.step.getD 1 ≠ 1) {is : List ℕ} (h : s.positions l.length = .ok is) :
    (vs.length ≠ is.length → sliceSet l s vs = .error .valueError) ∧
    (vs.length = is.length → ∃ r, sliceSet l s vs = .ok r ∧ r.length = l.length ∧ sliceGet r s = .ok vs ∧
      ∀ p : ℕ, ¬ Taken l.length s.lo s.hi (s.step.getD 1) p → pyGet r (p + 1) = pyGet l (p + 1)) := by
  have e : sliceSet l s vs = if vs.length = is.length then .ok (writeAll l is vs) else .error .valueError := by
    simp only [sliceSet, if_neg hs, h]
  refine ⟨fun hn => by rw [e, if_neg hn], fun hv => ⟨_, by rw [e, if_pos hv], writeAll_length _ _ _, ?_, fun p hp => ?_⟩⟩
  · simp only [sliceGet, writeAll_length, h]
    rw [writeAll_at l is vs (positions_nodup h) (fun p hp => positions_lt h hp) hv]
  · have h1 := writeAll_other l is vs p fun hc => hp ((C130_members _ _ h p).1 hc)
    have h2 : (((p : ℤ) + 1) - 1).toNat = p := by omega
    unfold pyGet rebase
    rw [writeAll_length, if_neg (by omega)]
    split
    · rename_i hr
      split at hr
      · injection hr with hr
        subst hr
        rw [h2, h1]
      · exact absurd hr (by simp)
    · rfl

/-- C130: assigning to `ps[a:b]`: any number of particles may be given; they are read back from where they were written, those with labels up to
`a` stay, and those with labels above `b` follow. If `b` is less than `a` nothing is removed. -/
theorem C130_set (l vs : List α) (a b : ℕ) (ha : a ≤ l.length) (hb : b ≤ l.length) :
    ∃ r, sliceSet l ⟨some (a : ℤ), some (b : ℤ), none⟩ vs = .ok r ∧ r.length + (max a b - a) = l.length + vs.length ∧
      sliceGet r ⟨some (a : ℤ), some ((a + vs.length : ℕ) : ℤ), none⟩ = .ok vs ∧
      (∀ i : ℤ, i ≤ a → pyGet r i = pyGet l i) ∧ ∀ i : ℤ, 1 ≤ i → pyGet r (a + vs.length + i) = pyGet l (max a b + i) := by
  have e : sliceSet l ⟨some (a : ℤ), some (b : ℤ), none⟩ vs = .ok (l.take a ++ vs ++ l.drop (max a b)) := by
    simp only [sliceSet, Option.getD_none, if_true, start_nat, stop_nat, Int.toNat_natCast]
    rw [min_eq_left ha, min_eq_left hb]
  have hl : (l.take a).length = a := by simp; omega
  refine ⟨_, e, by simp; omega, ?_, fun i hi => ?_, fun i hi => ?_⟩
  · rw [sliceGet_nat]
    congr 1
    rw [List.take_append_of_le_length (by simp; omega), List.take_of_length_le (by simp), List.drop_append_of_le_length (by omega),
      List.drop_of_length_le (by omega), List.nil_append]
  · by_cases h1 : 1 ≤ i
    · rw [pyGet_in (by simp; omega), pyGet_in (by omega)]
      congr 1
      rw [List.getElem_append_left (by simp; omega), List.getElem_append_left (by simp; omega), List.getElem_take]
    · rw [pyGet_out (by omega), pyGet_out (by omega)]
  · by_cases h1 : max a b + i ≤ l.length
    · rw [pyGet_in (by simp; omega), pyGet_in (by omega)]
      congr 1
      rw [List.getElem_append_right (by simp; omega), List.getElem_drop]
      congr 1
      simp
      omega
    · rw [pyGet_out (by simp; omega), pyGet_out (by omega)]

/-! ### Deleting -/

open Classical in
/-- C130: deleting a slice leaves the particles at the other positions, in their order. -/
theorem C130_del (l : List α) (s : PySlice) (hs : s.step ≠ some 0) :
    ∃ r, sliceDel l s = .ok r ∧
      r = ((List.range l.length).filter fun p => ¬ Taken l.length s.lo s.hi (s.step.getD 1) p).filterMap (l[·]?) := by
  obtain ⟨is, h⟩ := (C130_zero_step l.length s).2 hs
  refine ⟨(l.zipIdx.filter fun p => p.2 ∉ is).map Prod.fst, by simp only [sliceDel, h], ?_⟩
  have hm := C130_members l.length s h
  have key : ∀ (m : List α) (k : ℕ), (∀ j : ℕ, m[j]? = l[k + j]?) →
      ((m.zipIdx k).filter fun p => p.2 ∉ is).map Prod.fst =
        ((List.range' k m.length).filter fun p => ¬ Taken l.length s.lo s.hi (s.step.getD 1) p).filterMap (l[·]?) := by
    intro m
    induction m with
    | nil => intro k _; simp
    | cons x m ih =>
      intro k hk
      have h0 : l[k]? = some x := by simpa using (hk 0).symm
      have h1 := ih (k + 1) fun j => by
        have := hk (j + 1)
        rw [show k + 1 + j = k + (j + 1) by omega, ← this]
        simp
      rw [List.zipIdx_cons, List.length_cons, List.range'_succ, List.filter_cons, List.filter_cons]
      by_cases hc : k ∈ is
      · rw [if_neg (by simpa using hc), if_neg (by simpa using (hm k).1 hc), h1]
      · rw [if_pos (by simpa using hc), if_pos (by simpa using fun ht => hc ((hm k).2 ht)), List.map_cons, h1, List.filterMap_cons, h0]
  have := key l 0 fun j => by simp
  rw [List.range_eq_range']
  exact this

theorem filter_zip_keep (m : List α) (k : ℕ) (is : List ℕ) (h : ∀ j, k ≤ j → j < k + m.length → j ∉ is) :
    ((m.zipIdx k).filter fun p => p.2 ∉ is).map Prod.fst = m := by
  induction m generalizing k with
  | nil => simp
  | cons x m ih =>
    rw [List.zipIdx_cons, List.filter_cons, if_pos (by simpa using h k le_rfl (by simp)), List.map_cons,
      ih (k + 1) fun j h1 h2 => h j (by omega) (by simp; omega)]

theorem filter_zip_drop (m : List α) (k : ℕ) (is : List ℕ) (h : ∀ j, k ≤ j → j < k + m.length → j ∈ is) :
    ((m.zipIdx k).filter fun p => p.2 ∉ is).map Prod.fst = [] := by
  induction m generalizing k with
  | nil => simp
  | cons x m ih =>
    rw [List.zipIdx_cons, List.filter_cons, if_neg (by simpa using h k le_rfl (by simp)),
      ih (k + 1) fun j h1 h2 => h j (by omega) (by simp; omega)]

/-- C130: deleting `ps[a:b]` removes the particles with labels `a + 1`, …, `b`; those behind move up. -/
theorem C130_del_labels_partial (l : List α) (a b : ℕ) (hab : a ≤ b) (hb : b ≤ l.length) :
    ∃ r, sliceDel l ⟨some (a : ℤ), some (b : ℤ), none⟩ = .ok r ∧ r.length + (b - a) = l.length ∧
      (∀ i : ℤ, i ≤ a → pyGet r i = pyGet l i) ∧ ∀ i : ℤ, 1 ≤ i → pyGet r (a + i) = pyGet l (b + i) := by
  have e : sliceSet l ⟨some (a : ℤ), some (b : ℤ), none⟩ [] = .ok (l.take a ++ l.drop b) := by
    simp only [sliceSet, Option.getD_none, if_true, start_nat, stop_nat, Int.toNat_natCast]
    rw [min_eq_left (by omega), min_eq_left hb, max_eq_right hab, List.append_nil]
  have hd : sliceDel l ⟨some (a : ℤ), some (b : ℤ), none⟩ = sliceSet l ⟨some (a : ℤ), some (b : ℤ), none⟩ [] := by
    rw [e]
    simp only [sliceDel, positions_nat]
    congr 1
    have hm : ∀ j, j ∈ (List.range (min b l.length - min a l.length)).map (min a l.length + ·) ↔ a ≤ j ∧ j < b := by
      intro j
      rw [min_eq_left hb, min_eq_left (by omega : a ≤ l.length)]
      simp only [List.mem_map, List.mem_range]
      exact ⟨fun ⟨k, hk, hj⟩ => by omega, fun hj => ⟨j - a, by omega, by omega⟩⟩
    generalize (List.range (min b l.length - min a l.length)).map (min a l.length + ·) = is at hm
    have hsplit : l = l.take a ++ ((l.drop a).take (b - a) ++ l.drop b) := by
      conv_lhs => rw [← List.take_append_drop a l, ← List.take_append_drop (b - a) (l.drop a), List.drop_drop]
      rw [show a + (b - a) = b by omega]
    conv_lhs => rw [hsplit]
    rw [List.zipIdx_append, List.zipIdx_append, List.filter_append, List.filter_append, List.map_append, List.map_append,
      filter_zip_keep, filter_zip_drop, filter_zip_keep, List.nil_append]
    · intro j h1 h2
      simp only [List.length_take, List.length_drop] at h1 h2
      rw [hm]
      omega
    · intro j h1 h2
      simp only [List.length_take, List.length_drop] at h1 h2
      rw [hm]
      omega
    · intro j h1 h2
      simp only [List.length_take] at h1 h2
      rw [hm]
      omega
  obtain ⟨r, h1, h2, -, h4, h5⟩ := C130_set l [] a b (by omega) hb
  rw [max_eq_right hab] at h2
  refine ⟨r, by rw [hd, h1], by simpa using h2, h4, fun i hi => ?_⟩
  have := h5 i hi
  rw [max_eq_right hab] at this
  simpa using this

end Lips

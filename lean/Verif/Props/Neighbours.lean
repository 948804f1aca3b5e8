import Verif.Model.Invariants
import Verif.Spec.Invariants
import Mathlib.Data.Finset.Card
import Mathlib.Algebra.Order.Ring.Int

/-!
Property C58: the neighbouring test recognises exactly the cyclic intervals.
-/

namespace Lips

/-- Neighbours on the circle, as the code adds them. -/
def Adj (n x y : ℤ) : Prop := y = x + 1 ∨ y = x - 1 ∨ (x = n ∧ y = 1) ∨ (x = 1 ∧ y = n)

theorem mem_wrapped {n x y : ℤ} : y ∈ wrapped n x ↔ (x = n ∧ y = 1) ∨ (x = 1 ∧ y = n) := by
  unfold wrapped
  split_ifs with h1 h2 h2 <;> simp <;> omega

theorem mem_growNear {n : ℤ} {near : List ℤ} {x y : ℤ} :
    y ∈ growNear n near x ↔ y ∈ near ∨ (x ∈ near ∧ Adj n x y) := by
  unfold growNear Adj
  split_ifs with h
  · simp only [List.mem_append, List.mem_cons, List.not_mem_nil, or_false, mem_wrapped]
    tauto
  · tauto

theorem grow_mono {n : ℤ} (l near : List ℤ) {y : ℤ} (h : y ∈ near) : y ∈ l.foldl (growNear n) near := by
  induction l generalizing near with
  | nil => exact h
  | cons x l ih => exact ih _ (mem_growNear.2 (.inl h))

theorem grow_step {n : ℤ} (l near : List ℤ) {x y : ℤ} (hx : x ∈ l) (h : x ∈ near) (ha : Adj n x y) :
    y ∈ l.foldl (growNear n) near := by
  induction l generalizing near with
  | nil => cases hx
  | cons z l ih =>
    rcases List.mem_cons.1 hx with rfl | hx
    · exact grow_mono l (growNear n near x) (mem_growNear.2 (.inr ⟨h, ha⟩))
    · exact ih _ hx (mem_growNear.2 (.inl h))

theorem grow_sound {n : ℤ} {mid : List ℤ} {P : ℤ → Prop} (hP : ∀ x ∈ mid, P x → ∀ y ∈ mid, Adj n x y → P y)
    (l near : List ℤ) (hl : ∀ x ∈ l, x ∈ mid) (h : ∀ y ∈ near, y ∈ mid → P y) :
    ∀ y ∈ l.foldl (growNear n) near, y ∈ mid → P y := by
  induction l generalizing near with
  | nil => exact h
  | cons x l ih =>
    refine ih _ (fun z hz => hl z (by simp [hz])) fun y hy hym => ?_
    rcases mem_growNear.1 hy with hy | ⟨hx, ha⟩
    · exact h y hy hym
    · exact hP x (hl x (by simp)) (h x hx (hl x (by simp))) y hym ha

/-- Nothing more to add within `mid`. -/
def Closed (n : ℤ) (mid near : List ℤ) : Prop := ∀ x ∈ mid, x ∈ near → ∀ y ∈ mid, Adj n x y → y ∈ near

theorem closed_pass {n : ℤ} {mid near : List ℤ} (h : Closed n mid near) :
    Closed n mid (mid.foldl (growNear n) near) := by
  have hs := grow_sound (P := fun y => y ∈ near) (fun x hx hxn y hy ha => h x hx hxn y hy ha) mid near
    (fun _ h => h) fun y hy _ => hy
  exact fun x hx hxn y hy ha => grow_mono _ _ (h x hx (hs x hxn hx) y hy ha)

theorem passes {n : ℤ} {mid : List ℤ} (near : List ℤ) (h1 : ∃ a ∈ mid, a ∈ near) (k : ℕ) :
    let near' := (fun near => mid.foldl (growNear n) near)^[k] near
    Closed n mid near' ∨ k + 1 ≤ (mid.toFinset.filter (· ∈ near')).card := by
  induction k with
  | zero =>
    right
    obtain ⟨a, ha, han⟩ := h1
    exact Finset.card_pos.2 ⟨a, Finset.mem_filter.2 ⟨List.mem_toFinset.2 ha, han⟩⟩
  | succ k ih =>
    rw [Function.iterate_succ_apply']
    simp only at ih ⊢
    generalize (fun near => mid.foldl (growNear n) near)^[k] near = near' at ih
    by_cases hc : Closed n mid near'
    · exact .inl (closed_pass hc)
    · right
      have h := ih.resolve_left hc
      unfold Closed at hc
      push Not at hc
      obtain ⟨x, hx, hxn, y, hy, ha, hyn⟩ := hc
      refine Nat.lt_of_le_of_lt h (Finset.card_lt_card ?_)
      refine Finset.ssubset_iff_of_subset ?_ |>.2 ⟨y, ?_, ?_⟩
      · intro z hz
        rw [Finset.mem_filter] at hz ⊢
        exact ⟨hz.1, grow_mono _ _ hz.2⟩
      · simp only [Finset.mem_filter, List.mem_toFinset]
        exact ⟨hy, grow_step _ _ hx hxn ha⟩
      · simp [hyn]

/-- After the loop the set of near labels is closed. -/
theorem closed_final {n : ℤ} {mid : List ℤ} (near : List ℤ) (h1 : ∃ a ∈ mid, a ∈ near) :
    Closed n mid ((fun near => mid.foldl (growNear n) near)^[mid.length] near) := by
  rcases passes (n := n) near h1 mid.length with h | h
  · exact h
  · have h2 := Finset.card_le_card (Finset.filter_subset
      (· ∈ (fun near => mid.foldl (growNear n) near)^[mid.length] near) mid.toFinset)
    have h3 := List.toFinset_card_le mid
    omega

theorem iterate_sound {n : ℤ} {mid : List ℤ} {P : ℤ → Prop}
    (hP : ∀ x ∈ mid, P x → ∀ y ∈ mid, Adj n x y → P y) (near : List ℤ) (h : ∀ y ∈ near, y ∈ mid → P y) (k : ℕ) :
    ∀ y ∈ (fun near => mid.foldl (growNear n) near)^[k] near, y ∈ mid → P y := by
  induction k with
  | zero => exact h
  | succ k ih =>
    rw [Function.iterate_succ_apply']
    exact grow_sound hP mid _ (fun _ h => h) ih

theorem iterate_mono {n : ℤ} {mid : List ℤ} (near : List ℤ) (k : ℕ) {y : ℤ} (h : y ∈ near) :
    y ∈ (fun near => mid.foldl (growNear n) near)^[k] near := by
  induction k with
  | zero => exact h
  | succ k ih =>
    rw [Function.iterate_succ_apply']
    exact grow_mono _ _ ih

theorem mem_arcSet {n a len x : ℕ} : x ∈ arcSet n a len ↔ ∃ k < len, x = cyc n a k := by
  simp only [arcSet, Finset.mem_image, Finset.mem_range]
  constructor
  · rintro ⟨k, h, rfl⟩; exact ⟨k, h, rfl⟩
  · rintro ⟨k, h, rfl⟩; exact ⟨k, h, rfl⟩

/-- C58: on a non-empty list of labels, the test returns whether the labels form a cyclic interval. -/
theorem C58_neighbouring (n : ℕ) (mid : List ℕ) (hne : mid ≠ []) (hr : ∀ x ∈ mid, 1 ≤ x ∧ x ≤ n) :
    ∃ b, checkNeighbouring n (mid.map Int.ofNat) = .ok b ∧ (b = true ↔ IsCyclicInterval n mid.toFinset) := by
  obtain ⟨a, rest, hmid⟩ := List.exists_cons_of_ne_nil hne
  have ha : a ∈ mid := by rw [hmid]; simp
  have har := hr a ha
  set m := mid.map Int.ofNat with hm
  have hmem : ∀ x : ℕ, (x : ℤ) ∈ m ↔ x ∈ mid := by intro x; simp [hm]
  have hex : ∀ z ∈ m, ∃ x : ℕ, z = x ∧ x ∈ mid := by
    intro z hz
    obtain ⟨x, hx, rfl⟩ := List.mem_map.1 hz
    exact ⟨x, rfl, hx⟩
  have hcons : m = (a : ℤ) :: rest.map Int.ofNat := by rw [hm, hmid]; rfl
  set near0 : List ℤ := [(a : ℤ), a - 1, a + 1] ++ wrapped n a with hnear0
  set near := (fun near => m.foldl (growNear n) near)^[m.length] near0 with hnear
  have hcheck : checkNeighbouring n m = .ok (m.all fun x => decide (x ∈ near)) := by
    rw [hnear, hnear0, checkNeighbouring.eq_def, hcons]
  refine ⟨_, hcheck, ?_⟩
  simp only [List.all_eq_true, decide_eq_true_eq]
  have ha0 : (a : ℤ) ∈ near := iterate_mono near0 _ (by rw [hnear0]; simp)
  have hclosed : Closed n m near := closed_final near0 ⟨a, (hmem a).2 ha, by rw [hnear0]; simp⟩
  constructor
  · intro hall
    by_cases hfull : ∀ x, 1 ≤ x → x ≤ n → x ∈ mid
    · refine ⟨1, n, by omega, by omega, le_rfl, ?_⟩
      ext x
      rw [List.mem_toFinset, mem_arcSet]
      constructor
      · intro hx
        have := hr x hx
        exact ⟨x - 1, by omega, by unfold cyc; split_ifs <;> omega⟩
      · rintro ⟨k, hk, rfl⟩
        exact hfull _ (by unfold cyc; split_ifs <;> omega) (by unfold cyc; split_ifs <;> omega)
    · push Not at hfull
      obtain ⟨c, hc1, hc2, hc3⟩ := hfull
      -- first missing label going forwards
      have hfw : ∃ k, cyc n a k ∉ mid ∧ k < n := by
        refine ⟨if a ≤ c then c - a else c + n - a, ?_, ?_⟩
        · have : cyc n a (if a ≤ c then c - a else c + n - a) = c := by unfold cyc; split_ifs <;> omega
          rwa [this]
        · split_ifs <;> omega
      have hbw : ∃ k, 1 ≤ k ∧ k < n ∧ cyc n a (n - k) ∉ mid := by
        have hca : c ≠ a := fun h => hc3 (h ▸ ha)
        refine ⟨if c ≤ a then a - c else a + n - c, ?_, ?_, ?_⟩
        · split_ifs <;> omega
        · split_ifs <;> omega
        · have : cyc n a (n - (if c ≤ a then a - c else a + n - c)) = c := by unfold cyc; split_ifs <;> omega
          rwa [this]
      classical
      set v := Nat.find hfw with hv
      set u := Nat.find hbw with hu
      obtain ⟨hv1, hv2⟩ := Nat.find_spec hfw
      obtain ⟨hu1, hu2, hu3⟩ := Nat.find_spec hbw
      rw [← hv] at hv1 hv2
      rw [← hu] at hu1 hu2 hu3
      have hvmin : ∀ k < v, cyc n a k ∈ mid := by
        intro k hk
        by_contra h
        exact Nat.find_min hfw hk ⟨h, by omega⟩
      have humin : ∀ k, 1 ≤ k → k < u → cyc n a (n - k) ∈ mid := by
        intro k hk1 hk
        by_contra h
        exact Nat.find_min hbw hk ⟨hk1, by omega, h⟩
      have hv0 : 1 ≤ v := by
        rcases Nat.eq_zero_or_pos v with h | h
        · rw [h] at hv1
          exact absurd ha (by have : cyc n a 0 = a := by { unfold cyc; split_ifs <;> omega }
                              rwa [this] at hv1)
        · exact h
      have huv : u + v ≤ n := by
        by_contra h
        exact hu3 (hvmin (n - u) (by omega))
      -- positions kept
      have hsub : ∀ y ∈ mid, ∃ p, y = cyc n a p ∧ (p < v ∨ (n - u < p ∧ p < n)) := by
        intro y hy
        have := iterate_sound (n := n) (mid := m)
          (P := fun z => ∃ p, z = (cyc n a p : ℕ) ∧ (p < v ∨ (n - u < p ∧ p < n))) ?_ near0 ?_ m.length y
          (hall y ((hmem y).2 hy)) ((hmem y).2 hy)
        · obtain ⟨p, h1, h2⟩ := this
          exact ⟨p, by exact_mod_cast h1, h2⟩
        · rintro x hx ⟨p, rfl, hp⟩ z hz hadj
          obtain ⟨y, rfl, hy⟩ := hex z hz
          have hyr := hr y hy
          set q := if a ≤ y then y - a else y + n - a with hq
          have hqy : y = cyc n a q := by rw [hq]; unfold cyc; split_ifs <;> omega
          have hqn : q < n := by rw [hq]; split_ifs <;> omega
          have hqv : q ≠ v := by rintro h; rw [h] at hqy; rw [hqy] at hy; exact hv1 hy
          have hqu : q ≠ n - u := by rintro h; rw [h] at hqy; rw [hqy] at hy; exact hu3 hy
          refine ⟨q, by exact_mod_cast hqy, ?_⟩
          have hpq : q = p + 1 ∨ p = q + 1 ∨ (p = n - 1 ∧ q = 0) ∨ (p = 0 ∧ q = n - 1) ∨ p = q := by
            unfold Adj at hadj
            rw [hq]
            unfold cyc at hadj
            split_ifs at hadj ⊢ <;> push_cast at hadj <;> omega
          omega
        · intro z hz hzm
          obtain ⟨y, rfl, hy⟩ := hex z hzm
          have hyr := hr y hy
          set q := if a ≤ y then y - a else y + n - a with hq
          have hqy : y = cyc n a q := by rw [hq]; unfold cyc; split_ifs <;> omega
          have hqn : q < n := by rw [hq]; split_ifs <;> omega
          have hqv : q ≠ v := by rintro h; rw [h] at hqy; rw [hqy] at hy; exact hv1 hy
          have hqu : q ≠ n - u := by rintro h; rw [h] at hqy; rw [hqy] at hy; exact hu3 hy
          refine ⟨q, by exact_mod_cast hqy, ?_⟩
          have hpq : q = 0 ∨ q = 1 ∨ q = n - 1 := by
            simp only [hnear0, List.mem_append, List.mem_cons, List.not_mem_nil, or_false, mem_wrapped] at hz
            rw [hq]
            split_ifs <;> omega
          omega
      refine ⟨cyc n a (n - u + 1), u - 1 + v, ?_, ?_, by omega, ?_⟩
      · unfold cyc; split_ifs <;> omega
      · unfold cyc; split_ifs <;> omega
      · ext y
        rw [List.mem_toFinset, mem_arcSet]
        constructor
        · intro hy
          obtain ⟨p, rfl, hp⟩ := hsub y hy
          rcases hp with hp | ⟨hp1, hp2⟩
          · refine ⟨p + u - 1, by omega, ?_⟩
            unfold cyc; split_ifs <;> omega
          · refine ⟨p - (n - u + 1), by omega, ?_⟩
            unfold cyc; split_ifs <;> omega
        · rintro ⟨k, hk, rfl⟩
          by_cases hku : k < u - 1
          · have : cyc n (cyc n a (n - u + 1)) k = cyc n a (n - (u - 1 - k)) := by
              unfold cyc; split_ifs <;> omega
            rw [this]
            exact humin _ (by omega) (by omega)
          · have : cyc n (cyc n a (n - u + 1)) k = cyc n a (k - (u - 1)) := by
              unfold cyc; split_ifs <;> omega
            rw [this]
            exact hvmin _ (by omega)
  · rintro ⟨s, len, hs1, hs2, hlen, hset⟩
    have hin : ∀ y, y ∈ mid ↔ ∃ k < len, y = cyc n s k := by
      intro y
      rw [← mem_arcSet, ← hset, List.mem_toFinset]
    obtain ⟨k0, hk0, hak⟩ := (hin a).1 ha
    have hadj : ∀ k, k + 1 < len → Adj n (cyc n s k : ℕ) (cyc n s (k + 1) : ℕ) ∧ Adj n (cyc n s (k + 1) : ℕ) (cyc n s k : ℕ) := by
      intro k hk
      unfold Adj cyc
      split_ifs <;> push_cast <;> omega
    have hmk : ∀ k < len, ((cyc n s k : ℕ) : ℤ) ∈ m := fun k hk => (hmem _).2 ((hin _).2 ⟨k, hk, rfl⟩)
    have hup : ∀ d, k0 + d < len → ((cyc n s (k0 + d) : ℕ) : ℤ) ∈ near := by
      intro d
      induction d with
      | zero => intro _; rw [Nat.add_zero, ← hak]; exact ha0
      | succ d ih =>
        intro h
        exact hclosed _ (hmk (k0 + d) (by omega)) (ih (by omega)) _ (hmk _ h) (hadj (k0 + d) h).1
    have hdown : ∀ d, d ≤ k0 → ((cyc n s (k0 - d) : ℕ) : ℤ) ∈ near := by
      intro d
      induction d with
      | zero => intro _; rw [Nat.sub_zero, ← hak]; exact ha0
      | succ d ih =>
        intro h
        have e : k0 - d = k0 - (d + 1) + 1 := by omega
        have h2 := (hadj (k0 - (d + 1)) (by omega)).2
        rw [← e] at h2
        exact hclosed _ (hmk (k0 - d) (by omega)) (ih (by omega)) _ (hmk _ (by omega)) h2
    intro z hz
    obtain ⟨y, rfl, hy⟩ := hex z hz
    obtain ⟨k, hk, rfl⟩ := (hin y).1 hy
    rcases Nat.le_total k0 k with h | h
    · have := hup (k - k0) (by omega)
      rwa [Nat.add_sub_cancel' h] at this
    · have := hdown (k0 - k) (by omega)
      rwa [Nat.sub_sub_self h] at this

/-- C58: a cyclic interval through the end and a set that is not one. -/
example : checkNeighbouring 7 [1, 6, 7, 2] = .ok true ∧ checkNeighbouring 7 [1, 2, 4] = .ok false := by decide

end Lips

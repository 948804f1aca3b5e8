import Verif.Props.Arcs

/-! Property C95: the three arcs of a shorthand do not depend on the order of its labels. -/

namespace Lips

/-- Number of steps from `a` forward to `b`, among `n` positions. -/
def gap (n a b : ℕ) : ℕ := if a ≤ b then b - a else b + n - a

/-- The arc that begins at position `a` and ends before the nearer of `b` and `c`. -/
def arcBefore (n a b c : ℕ) : List ℤ := (List.range' 0 (min (gap n a b) (gap n a c))).map (lab n a)

theorem arcBefore_comm (n a b c : ℕ) : arcBefore n a b c = arcBefore n a c b := by
  unfold arcBefore; rw [Nat.min_comm]

theorem lab_zero' {n a : ℕ} (ha : a < n) : lab n a 0 = (a : ℤ) + 1 := by
  unfold lab; split <;> omega

theorem lab_gap {n a b : ℕ} (ha : a < n) (hb : b < n) : lab n a (gap n a b) = (b : ℤ) + 1 := by
  unfold lab gap; split <;> split <;> omega

/-- Forward from `a`, a step short of both others is at neither of them. -/
theorem lab_ne {n a b o : ℕ} (ha : a < n) (_hb : b < n) (h0 : 0 < o) (ho : o < gap n a b) : lab n a o ≠ (b : ℤ) + 1 := by
  unfold lab; unfold gap at ho; split at ho <;> split <;> omega

/-- Forward from `b`, a step short of `a` is not on the arc from `a` that ends before `b`. -/
theorem lab_not_mem {n a b d o : ℕ} (ha : a < n) (hb : b < n) (_hab : a ≠ b) (h0 : 0 < o) (ho : o < gap n b a) (hd : d ≤ gap n a b) :
    lab n b o ∉ (List.range' 0 d).map (lab n a) := by
  simp only [List.mem_map, List.mem_range'_1, not_exists, not_and]
  rintro x ⟨-, hx⟩ e
  unfold lab at e
  unfold gap at ho hd
  split at ho <;> split at hd <;> split at e <;> split at e <;> omega

theorem gap_pos {n a b : ℕ} (ha : a < n) (hb : b < n) (hab : a ≠ b) : 0 < gap n a b ∧ gap n a b < n := by
  unfold gap; split <;> omega

theorem mem_arc {n a b c : ℕ} (ha : a < n) (hb : b < n) (hc : c < n) (hab : a ≠ b) (hac : a ≠ c) :
    ((a : ℤ) + 1) ∈ arcBefore n a b c := by
  have := gap_pos ha hb hab
  have := gap_pos ha hc hac
  simp only [arcBefore, List.mem_map, List.mem_range'_1]
  exact ⟨0, by omega, lab_zero' ha⟩

/-- The arcs in terms of the gaps. -/
theorem arcs_gap {n a b c fuel : ℕ} (ha : a < n) (hb : b < n) (hc : c < n) (hab : a ≠ b) (hbc : b ≠ c) (hac : a ≠ c)
    (hf : n ≤ fuel) :
    arcs n fuel (a + 1) (b + 1) (c + 1) = some (arcBefore n a b c, arcBefore n b a c, arcBefore n c a b) := by
  have grow : ∀ (x y z : ℕ) (others : List ℤ), x < n → y < n → z < n → x ≠ y → x ≠ z →
      (∀ o, 0 < o → o < min (gap n x y) (gap n x z) → lab n x o ∉ others) → ((y : ℤ) + 1) ∈ others → ((z : ℤ) + 1) ∈ others →
      growArc n others fuel ((x : ℤ) + 1) [] = some (arcBefore n x y z) := by
    intro x y z others hx hy hz hxy hxz h1 h2 h3
    have g1 := gap_pos hx hy hxy
    have g2 := gap_pos hx hz hxz
    rw [← lab_zero' hx, growArc_from hx others 0 (min (gap n x y) (gap n x z)) fuel (by omega) (by omega) hf h1 ?_]
    · rfl
    · rcases Nat.le_total (gap n x y) (gap n x z) with h | h
      · rw [Nat.min_eq_left h, lab_gap hx hy]; exact h2
      · rw [Nat.min_eq_right h, lab_gap hx hz]; exact h3
  unfold arcs
  rw [grow a b c _ ha hb hc hab hac ?_ (by simp) (by simp)]
  · simp only
    rw [grow b a c _ hb ha hc hab.symm hbc ?_ (by simp [mem_arc ha hb hc hab hac]) (by simp)]
    · simp only
      rw [grow c a b _ hc ha hb hac.symm hbc.symm ?_ (by simp [mem_arc ha hb hc hab hac]) (by simp [mem_arc hb ha hc hab.symm hbc])]
      intro o h0 ho
      rw [List.mem_append, not_or]
      exact ⟨lab_not_mem ha hc hac h0 (by omega) (by omega), lab_not_mem hb hc hbc h0 (by omega) (by omega)⟩
    · intro o h0 ho
      rw [List.mem_append, not_or, List.mem_singleton]
      exact ⟨lab_ne hb hc h0 (by omega), lab_not_mem ha hb hab h0 (by omega) (by omega)⟩
  · intro o h0 ho
    rw [List.mem_append, not_or, List.mem_singleton, List.mem_singleton]
    exact ⟨lab_ne ha hb h0 (by omega), lab_ne ha hc h0 (by omega)⟩

/-- C95: the corners of the shorthand for three different labels, with the labels in another order, are the same
corners in that order. (The two exchanges generate all orders.) -/
theorem C95_order (n fuel : ℕ) (a b c : ℤ) (ha : 1 ≤ a ∧ a ≤ n) (hb : 1 ≤ b ∧ b ≤ n) (hc : 1 ≤ c ∧ c ≤ n) (hab : a ≠ b)
    (hbc : b ≠ c) (hac : a ≠ c) (hf : n ≤ fuel) :
    ∃ A B C : List ℤ, arcs n fuel a b c = some (A, B, C) ∧ arcs n fuel b a c = some (B, A, C) ∧
      arcs n fuel b c a = some (B, C, A) ∧ arcs n fuel c a b = some (C, A, B) ∧ arcs n fuel a c b = some (A, C, B) ∧
      arcs n fuel c b a = some (C, B, A) := by
  obtain ⟨a, rfl⟩ : ∃ a' : ℕ, a = (a' : ℤ) + 1 := ⟨(a - 1).toNat, by omega⟩
  obtain ⟨b, rfl⟩ : ∃ a' : ℕ, b = (a' : ℤ) + 1 := ⟨(b - 1).toNat, by omega⟩
  obtain ⟨c, rfl⟩ : ∃ a' : ℕ, c = (a' : ℤ) + 1 := ⟨(c - 1).toNat, by omega⟩
  have h1 : a ≠ b := by omega
  have h2 : b ≠ c := by omega
  have h3 : a ≠ c := by omega
  refine ⟨_, _, _, arcs_gap (by omega) (by omega) (by omega) h1 h2 h3 hf, ?_, ?_, ?_, ?_, ?_⟩
  · rw [arcs_gap (by omega) (by omega) (by omega) h1.symm h3 h2 hf, arcBefore_comm n c b a]
  · rw [arcs_gap (by omega) (by omega) (by omega) h2 h3.symm h1.symm hf, arcBefore_comm n b c a, arcBefore_comm n c b a,
      arcBefore_comm n a b c]
  · rw [arcs_gap (by omega) (by omega) (by omega) h3.symm h1 h2.symm hf, arcBefore_comm n a c b, arcBefore_comm n b c a]
  · rw [arcs_gap (by omega) (by omega) (by omega) h3 h2.symm h1 hf, arcBefore_comm n a c b]
  · rw [arcs_gap (by omega) (by omega) (by omega) h2.symm h1.symm h3.symm hf, arcBefore_comm n c b a, arcBefore_comm n b c a,
      arcBefore_comm n a c b]

end Lips

import Verif.Props.StringPairs
import Verif.Props.Neighbours

/-!
C113: the strings with three slots, ⟨a|P|Q|R|a], which are generated from seven points on: their values, and which ones there are.
-/

namespace Lips

open Finset

variable {K : Type*} [Field K] {n : ℕ}

/-! ### Values -/

/-- The value of ⟨a|P|Q|R|a]. -/
def fiveVal (r l : Fin n → V2 K) (a : Fin n) (P Q R : Finset (Fin n)) : K :=
  ∑ p ∈ P, ∑ q ∈ Q, ∑ t ∈ R, SpecAngle (r a) (r p) * SpecSquare (l p) (l q) * SpecAngle (r q) (r t) * SpecSquare (l t) (l a)

theorem sVal_add (r l : Fin n → V2 K) {a : Fin n} {S : Finset (Fin n)} (ha : a ∉ S) : sVal r l (insert a S) = sVal r l S + threeVal r l a a S := by
  have sym : ∀ p q : Fin n, SpecAngle (r p) (r q) * SpecSquare (l q) (l p) = SpecAngle (r q) (r p) * SpecSquare (l p) (l q) := fun p q => by
    rw [angle_turn, square_turn]; ring
  have h : ∀ p ∈ S, ∑ q ∈ (insert a S).filter (p < ·), SpecAngle (r p) (r q) * SpecSquare (l q) (l p) =
      ∑ q ∈ S.filter (p < ·), SpecAngle (r p) (r q) * SpecSquare (l q) (l p) + if p < a then SpecAngle (r a) (r p) * SpecSquare (l p) (l a) else 0 := fun p _ => by
    rw [filter_insert]
    split
    · rw [sum_insert fun h => ha (mem_filter.1 h).1, add_comm, sym p a]
    · rw [add_zero]
  unfold sVal threeVal
  rw [sum_insert ha, filter_insert, if_neg (lt_irrefl a), sum_congr rfl h, sum_add_distrib, add_left_comm]
  congr 1
  rw [sum_filter, ← sum_add_distrib]
  refine sum_congr rfl fun p hp => ?_
  rcases lt_trichotomy p a with h | h | h
  · rw [if_pos h, if_neg (not_lt.2 h.le), zero_add]
  · exact absurd (h ▸ hp) ha
  · rw [if_neg (not_lt.2 h.le), if_pos h, add_zero]

theorem five_left (r l : Fin n → V2 K) (a : Fin n) (P R : Finset (Fin n)) : fiveVal r l a P P R = sVal r l P * threeVal r l a a R := by
  unfold fiveVal threeVal
  rw [sum_congr rfl fun p _ => sum_comm, sum_comm, mul_sum]
  refine sum_congr rfl fun t _ => ?_
  have := four_equal r l a t P
  simp only [fourVal, Bool.false_eq_true, if_false] at this
  rw [show sVal r l P * (SpecAngle (r a) (r t) * SpecSquare (l t) (l a)) = SpecAngle (r a) (r t) * sVal r l P * SpecSquare (l t) (l a) by ring, ← this, sum_mul]
  exact sum_congr rfl fun p _ => by rw [sum_mul]

theorem five_right (r l : Fin n → V2 K) (a : Fin n) (P R : Finset (Fin n)) : fiveVal r l a P R R = sVal r l R * threeVal r l a a P := by
  unfold fiveVal threeVal
  rw [mul_sum]
  refine sum_congr rfl fun p _ => ?_
  have h1 := four_swap r l p a R R
  rw [four_equal, sVal_swap, angle_square] at h1
  simp only [fourVal, if_true] at h1
  rw [show sVal r l R * (SpecAngle (r a) (r p) * SpecSquare (l p) (l a)) = SpecAngle (r a) (r p) * -(-SpecSquare (l p) (l a) * sVal r l R) by ring, ← h1, mul_sum]
  refine sum_congr rfl fun q _ => ?_
  rw [mul_sum]
  exact sum_congr rfl fun t _ => by ring

/-- C113: if the slots and the label are all labels, the value is a difference of products of s, so it has no parity-odd part. -/
theorem C113_mandelstams {r l : Fin n → V2 K} (h : SumZero r l) {a : Fin n} {P Q R : Finset (Fin n)} (haP : a ∉ P) (haQ : a ∉ Q) (haR : a ∉ R) (hPQ : Disjoint P Q)
    (hPR : Disjoint P R) (hQR : Disjoint Q R) (hu : insert a (P ∪ Q ∪ R) = univ) :
    fiveVal r l a P Q R = sVal r l P * sVal r l R - sVal r l (insert a P) * sVal r l (insert a R) := by
  have total : fiveVal r l a P univ R = 0 := by
    unfold fiveVal
    refine sum_eq_zero fun p _ => ?_
    rw [sum_comm]
    refine sum_eq_zero fun t _ => ?_
    have : ∑ q, SpecSquare (l p) (l q) * SpecAngle (r q) (r t) = 0 := by
      have := sum_between h (r t) (l p)
      rw [← this]
      exact sum_congr rfl fun q _ => by rw [angle_turn, square_turn]; ring
    rw [show ∑ q, SpecAngle (r a) (r p) * SpecSquare (l p) (l q) * SpecAngle (r q) (r t) * SpecSquare (l t) (l a) =
      SpecAngle (r a) (r p) * (∑ q, SpecSquare (l p) (l q) * SpecAngle (r q) (r t)) * SpecSquare (l t) (l a) by
        rw [mul_sum, sum_mul]; exact sum_congr rfl fun q _ => by ring, this]
    ring
  have addm : ∀ {A B : Finset (Fin n)}, Disjoint A B → fiveVal r l a P (A ∪ B) R = fiveVal r l a P A R + fiveVal r l a P B R := fun hd => by
    unfold fiveVal
    rw [← sum_add_distrib]
    exact sum_congr rfl fun p _ => sum_union hd
  have single : fiveVal r l a P {a} R = threeVal r l a a P * threeVal r l a a R := by
    unfold fiveVal threeVal
    rw [sum_mul_sum]
    exact sum_congr rfl fun p _ => by rw [sum_singleton]; exact sum_congr rfl fun t _ => by ring
  have ha : a ∉ P ∪ Q ∪ R := by simp [haP, haQ, haR]
  rw [← hu, insert_eq, addm (disjoint_singleton_left.2 ha), addm (disjoint_union_left.2 ⟨hPR, hQR⟩), addm hPQ, five_left, five_right, single] at total
  rw [sVal_add r l haP, sVal_add r l haR]
  linear_combination total

/-- C113: so reading the slots from right to left does not change the value. -/
theorem C113_reverse {r l : Fin n → V2 K} (h : SumZero r l) {a : Fin n} {P Q R : Finset (Fin n)} (haP : a ∉ P) (haQ : a ∉ Q) (haR : a ∉ R) (hPQ : Disjoint P Q)
    (hPR : Disjoint P R) (hQR : Disjoint Q R) (hu : insert a (P ∪ Q ∪ R) = univ) : fiveVal r l a R Q P = fiveVal r l a P Q R := by
  rw [C113_mandelstams h haP haQ haR hPQ hPR hQR hu,
    C113_mandelstams h haR haQ haP hQR.symm hPR.symm hPQ.symm (by rw [union_assoc, union_comm, union_comm Q P]; exact hu)]
  ring

/-- The text ⟨a|(P)|(Q)|(R)|a], with the labels of each slot in the order given. -/
def sixText (a : Fin n) (P Q R : List (Fin n)) : List Char :=
  stringText '⟨' (a + 1) [(true, P.map fun k : Fin n => (true, (k : ℕ) + 1)), (true, Q.map fun k : Fin n => (true, (k : ℕ) + 1)),
    (true, R.map fun k : Fin n => (true, (k : ℕ) + 1))] (a + 1) ']'

theorem list_written {P : List (Fin n)} (hP : P ≠ []) : SlotWritten (P.map fun k => (true, k)) := by
  rcases P with _ | ⟨x, xs⟩
  · exact absurd rfl hP
  · exact ⟨x, _, rfl⟩

/-- C113: compute reads the texts and returns the values, whatever the order in the slots. -/
theorem C113_value {c : Ctx K} {ps : Point K n} {r l : Fin n → V2 K} (h : Spin c ps r l) (fuel : ℕ) (a : Fin n) {P Q R : List (Fin n)} (hP : P ≠ []) (hQ : Q ≠ [])
    (hR : R ≠ []) (nP : P.Nodup) (nQ : Q.Nodup) (nR : R.Nodup) :
    computeText ps fuel (sixText a P Q R) = some (.ok (.num (fiveVal r l a P.toFinset Q.toFinset R.toFinset))) := by
  have x := (C17_expansion c ps r l a a [P.map fun k => (true, k), Q.map fun k => (true, k), R.map fun k => (true, k)] (h a).toHasSpinors
    (h a).toHasSpinors fun k _ => h k).2 (by simp)
  have w : ∀ s ∈ [(true, P.map fun k => (true, k)), (true, Q.map fun k => (true, k)), (true, R.map fun k => (true, k))], SlotWritten (n := n) s.2 := by
    simpa using ⟨list_written hP, list_written hQ, list_written hR⟩
  have tot : ∀ {P : List (Fin n)} (_ : P.Nodup) (f : Fin n → K), (P.map f).sum = ∑ k ∈ P.toFinset, f k := fun nP f => by rw [List.sum_toFinset _ nP]
  have e : sixText a P Q R = stringText '⟨' (a + 1)
      ([(true, P.map fun k => (true, k)), (true, Q.map fun k => (true, k)), (true, R.map fun k => (true, k))].map slotOf) (a + 1) ']' := by
    simp only [sixText, slotOf, List.map_cons, List.map_nil, List.map_map]
    rfl
  rw [e, C82_string ps fuel '⟨' ']' (by decide) (by decide) a a _ (by simp) w]
  simp only [List.map_cons, List.map_nil]
  rw [x.1]
  simp only [asNum, specString, List.map_map, Function.comp_def, sgn, if_true, one_mul, tot nP, tot nQ, tot nR, mul_sum, fiveVal, mul_assoc]

end Lips

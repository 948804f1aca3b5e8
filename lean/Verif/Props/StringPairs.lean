import Verif.Props.StringLists
import Verif.Props.DispatchNames

/-!
C111: the strings with two slots, ⟨a|P|Q|d⟩ and [a|P|Q|d]. This file has their values: how they change when a slot is replaced by its
complement, and which ones are products.
-/

namespace Lips

open Finset

variable {K : Type*} [Field K] {n : ℕ}

/-! ### Specification -/

/-- The text ⟨a|(P)|(Q)|d⟩, or [a|(P)|(Q)|d] if `sq`; labels are written from one on, in increasing order. -/
def fourText (sq : Bool) (a d : Fin n) (P Q : Finset (Fin n)) : List Char :=
  stringText (if sq then '[' else '⟨') (a + 1) [(true, (P.sort (· ≤ ·)).map fun k : Fin n => (true, (k : ℕ) + 1)),
    (true, (Q.sort (· ≤ ·)).map fun k : Fin n => (true, (k : ℕ) + 1))] (d + 1) (if sq then ']' else '⟩')

/-- The value. -/
def fourVal (sq : Bool) (r l : Fin n → V2 K) (a d : Fin n) (P Q : Finset (Fin n)) : K :=
  if sq then ∑ p ∈ P, ∑ q ∈ Q, SpecSquare (l a) (l p) * SpecAngle (r p) (r q) * SpecSquare (l q) (l d)
  else ∑ p ∈ P, ∑ q ∈ Q, SpecAngle (r a) (r p) * SpecSquare (l p) (l q) * SpecAngle (r q) (r d)

/-- The bracket between the ends. -/
def endsVal (sq : Bool) (r l : Fin n → V2 K) (a d : Fin n) : K := if sq then SpecSquare (l a) (l d) else SpecAngle (r a) (r d)

/-- The value of s_S. -/
def sVal (r l : Fin n → V2 K) (S : Finset (Fin n)) : K :=
  ∑ p ∈ S, ∑ q ∈ S.filter (p < ·), SpecAngle (r p) (r q) * SpecSquare (l q) (l p)

/-- `P` is the slot `S` beside the label `a`, or the complement of `S`; only then is `sgn` negative. -/
def IsSlot (a : Fin n) (S P : Finset (Fin n)) (pos : Bool) : Prop := P.erase a = (if pos then S else Sᶜ).erase a

/-! ### Elementary rules -/

theorem angle_turn (u v : V2 K) : SpecAngle u v = -SpecAngle v u := by unfold SpecAngle; ring
theorem square_turn (u v : V2 K) : SpecSquare u v = -SpecSquare v u := by unfold SpecSquare; ring
theorem angle_square (u v : V2 K) : SpecAngle u v = -SpecSquare u v := by unfold SpecAngle SpecSquare; ring

/-- The strings between square brackets are those between angle brackets with the spinors exchanged. -/
theorem four_swap (r l : Fin n → V2 K) (a d : Fin n) (P Q : Finset (Fin n)) : fourVal true r l a d P Q = -fourVal false l r a d P Q := by
  unfold fourVal
  simp only [if_true, Bool.false_eq_true, if_false, ← sum_neg_distrib]
  refine sum_congr rfl fun p _ => sum_congr rfl fun q _ => ?_
  simp only [angle_square]
  ring

theorem SumZero.swap {r l : Fin n → V2 K} (h : SumZero r l) : SumZero l r := fun i j => by
  rw [← h j i]
  exact sum_congr rfl fun k _ => mul_comm _ _

theorem sVal_swap (r l : Fin n → V2 K) (S : Finset (Fin n)) : sVal l r S = sVal r l S := by
  unfold sVal
  refine sum_congr rfl fun p _ => sum_congr rfl fun q _ => ?_
  unfold SpecAngle SpecSquare
  ring

theorem ends_swap (r l : Fin n → V2 K) (a d : Fin n) : endsVal true r l a d = -endsVal false l r a d := by
  simp only [endsVal, if_true, Bool.false_eq_true, if_false, angle_square, neg_neg]

/-- C111: reading a string from right to left changes the sign. -/
theorem C111_reverse (sq : Bool) (r l : Fin n → V2 K) (a d : Fin n) (P Q : Finset (Fin n)) :
    fourVal sq r l d a Q P = -fourVal sq r l a d P Q := by
  have key : ∀ r l : Fin n → V2 K, fourVal false r l d a Q P = -fourVal false r l a d P Q := by
    intro r l
    simp only [fourVal, Bool.false_eq_true, if_false, ← sum_neg_distrib]
    rw [sum_comm]
    refine sum_congr rfl fun p _ => sum_congr rfl fun q _ => ?_
    rw [angle_turn (r d), square_turn (l q), angle_turn (r p)]
    ring
  cases sq
  · exact key r l
  · rw [four_swap, four_swap, key l r]

/-- The end does not count inside its slot. -/
theorem four_erase (sq : Bool) (r l : Fin n → V2 K) (a d : Fin n) (P Q : Finset (Fin n)) :
    fourVal sq r l a d (P.erase a) Q = fourVal sq r l a d P Q := by
  have key : ∀ r l : Fin n → V2 K, fourVal false r l a d (P.erase a) Q = fourVal false r l a d P Q := by
    intro r l
    simp only [fourVal, Bool.false_eq_true, if_false]
    exact sum_erase _ (sum_eq_zero fun q _ => by rw [angle_self]; ring)
  cases sq
  · exact key r l
  · rw [four_swap, four_swap, key]

theorem four_erase' (sq : Bool) (r l : Fin n → V2 K) (a d : Fin n) (P Q : Finset (Fin n)) :
    fourVal sq r l a d P (Q.erase d) = fourVal sq r l a d P Q := by
  rw [← neg_inj, ← C111_reverse, ← C111_reverse, four_erase]

/-- C111: for momenta that sum to zero, the complement of a slot gives the opposite value. -/
theorem C111_complement (sq : Bool) {r l : Fin n → V2 K} (h : SumZero r l) (a d : Fin n) (P Q : Finset (Fin n)) :
    fourVal sq r l a d Pᶜ Q = -fourVal sq r l a d P Q ∧ fourVal sq r l a d P Qᶜ = -fourVal sq r l a d P Q := by
  have key : ∀ {r l : Fin n → V2 K}, SumZero r l → ∀ (a d : Fin n) (P Q : Finset (Fin n)), fourVal false r l a d Pᶜ Q = -fourVal false r l a d P Q := by
    intro r l h a d P Q
    simp only [fourVal, Bool.false_eq_true, if_false]
    rw [eq_neg_iff_add_eq_zero, add_comm, sum_add_sum_compl, sum_comm]
    refine sum_eq_zero fun q _ => ?_
    rw [← sum_mul, sum_between h, zero_mul]
  have key' : ∀ (sq : Bool) {r l : Fin n → V2 K}, SumZero r l → ∀ (a d : Fin n) (P Q : Finset (Fin n)), fourVal sq r l a d Pᶜ Q = -fourVal sq r l a d P Q := by
    intro sq r l h a d P Q
    cases sq
    · exact key h a d P Q
    · rw [four_swap, four_swap, key h.swap]
  refine ⟨key' sq h a d P Q, ?_⟩
  rw [← neg_inj, ← C111_reverse, key' sq h, C111_reverse]

theorem four_slot (sq : Bool) {r l : Fin n → V2 K} (h : SumZero r l) {a d : Fin n} {S P : Finset (Fin n)} {pos : Bool} (hP : IsSlot a S P pos)
    (Q : Finset (Fin n)) : fourVal sq r l a d P Q = sgn pos * fourVal sq r l a d S Q := by
  rw [← four_erase, hP, four_erase]
  cases pos
  · rw [if_neg (by decide), (C111_complement sq h a d S Q).1]; simp [sgn]
  · simp [sgn]

theorem four_slot' (sq : Bool) {r l : Fin n → V2 K} (h : SumZero r l) {a d : Fin n} {S Q : Finset (Fin n)} {pos : Bool} (hQ : IsSlot d S Q pos)
    (P : Finset (Fin n)) : fourVal sq r l a d P Q = sgn pos * fourVal sq r l a d P S := by
  rw [← four_erase', hQ, four_erase']
  cases pos
  · rw [if_neg (by decide), (C111_complement sq h a d P S).2]; simp [sgn]
  · simp [sgn]

/-! ### Products -/

theorem schouten (u v w x : V2 K) : SpecAngle u w * SpecAngle x v - SpecAngle u x * SpecAngle w v = -(SpecAngle u v * SpecAngle w x) := by
  unfold SpecAngle
  ring

theorem sVal_insert (r l : Fin n → V2 K) {x : Fin n} {S : Finset (Fin n)} (hx : ∀ y ∈ S, y < x) :
    sVal r l (insert x S) = sVal r l S + ∑ p ∈ S, SpecAngle (r p) (r x) * SpecSquare (l x) (l p) := by
  have hn : x ∉ S := fun h => lt_irrefl _ (hx x h)
  unfold sVal
  rw [sum_insert hn, filter_insert, if_neg (lt_irrefl x), filter_false_of_mem fun y hy => not_lt.2 (hx y hy).le, sum_empty, zero_add,
    ← sum_add_distrib]
  refine sum_congr rfl fun p hp => ?_
  rw [filter_insert, if_pos (hx p hp), sum_insert fun h => hn (mem_filter.1 h).1, add_comm]

theorem four_equal (r l : Fin n → V2 K) (a d : Fin n) (S : Finset (Fin n)) : fourVal false r l a d S S = SpecAngle (r a) (r d) * sVal r l S := by
  induction S using Finset.induction_on_max with
  | empty => simp [fourVal, sVal]
  | insert x S hx ih =>
    have hn : x ∉ S := fun h => lt_irrefl _ (hx x h)
    rw [sVal_insert r l hx, mul_add, ← ih]
    simp only [fourVal, Bool.false_eq_true, if_false]
    rw [sum_insert hn, sum_insert hn, square_self, mul_zero, zero_mul, zero_add, mul_sum]
    rw [sum_congr rfl fun p (_ : p ∈ S) => sum_insert (f := fun q => SpecAngle (r a) (r p) * SpecSquare (l p) (l q) * SpecAngle (r q) (r d)) hn,
      sum_add_distrib, ← add_assoc, add_comm, ← sum_add_distrib]
    congr 1
    refine sum_congr rfl fun p _ => ?_
    have := schouten (r a) (r d) (r x) (r p)
    rw [angle_turn (r p) (r x), square_turn (l p) (l x)]
    linear_combination SpecSquare (l x) (l p) * this

/-- C111: a string both of whose slots are the same set or its complement is the product of the bracket between the ends and of s_S, up to
sign. -/
theorem C111_factor (sq : Bool) {r l : Fin n → V2 K} (h : SumZero r l) {a d : Fin n} {S P Q : Finset (Fin n)} {p q : Bool} (hP : IsSlot a S P p)
    (hQ : IsSlot d S Q q) : fourVal sq r l a d P Q = sgn p * sgn q * (endsVal sq r l a d * sVal r l S) := by
  rw [four_slot sq h hP, four_slot' sq h hQ, mul_assoc]
  congr 2
  cases sq
  · rw [four_equal]; rfl
  · rw [four_swap, four_equal, ends_swap, sVal_swap]; simp [endsVal]

/-- C111: for equal ends, a string whose slots differ by one label is a product of a string with one slot and a bracket, up to sign. -/
theorem C111_one_apart (sq : Bool) {r l : Fin n → V2 K} (h : SumZero r l) {a x : Fin n} {S P Q : Finset (Fin n)} {p q : Bool} (hx : x ∉ S)
    (hP : IsSlot a S P p) (hQ : IsSlot a (insert x S) Q q) : fourVal sq r l a a P Q = sgn p * sgn q *
      (if sq then threeVal r l x a S * SpecSquare (l x) (l a) else threeVal r l a x S * SpecAngle (r x) (r a)) := by
  rw [four_slot sq h hP, four_slot' sq h hQ, mul_assoc]
  congr 2
  have key : ∀ r l : Fin n → V2 K, fourVal false r l a a S (insert x S) = (∑ k ∈ S, SpecAngle (r a) (r k) * SpecSquare (l k) (l x)) * SpecAngle (r x) (r a) := by
    intro r l
    have e := four_equal r l a a S
    rw [angle_self, zero_mul] at e
    simp only [fourVal, Bool.false_eq_true, if_false] at e ⊢
    rw [sum_congr rfl fun p (_ : p ∈ S) => sum_insert (f := fun q => SpecAngle (r a) (r p) * SpecSquare (l p) (l q) * SpecAngle (r q) (r a)) hx,
      sum_add_distrib, e, add_zero, sum_mul]
  cases sq
  · exact key r l
  · rw [four_swap, key, if_pos rfl, threeVal, sum_mul, sum_mul, ← sum_neg_distrib]
    refine sum_congr rfl fun k _ => ?_
    unfold SpecAngle SpecSquare
    ring

/-- C111: for equal ends and three slots that together contain each other label once, the three strings have the same value up to sign. -/
theorem C111_three (sq : Bool) {r l : Fin n → V2 K} (h : SumZero r l) {a : Fin n} {P Q R : Finset (Fin n)} (hPQ : Disjoint P Q) (hPR : Disjoint P R)
    (hQR : Disjoint Q R) (hu : insert a (P ∪ Q ∪ R) = univ) :
    fourVal sq r l a a P R = -fourVal sq r l a a P Q ∧ fourVal sq r l a a Q R = fourVal sq r l a a P Q := by
  have key : ∀ {P Q R : Finset (Fin n)}, Disjoint P Q → Disjoint P R → Disjoint Q R → insert a (P ∪ Q ∪ R) = univ →
      fourVal sq r l a a P R = -fourVal sq r l a a P Q := by
    intro P Q R hPQ hPR hQR hu
    have hs : fourVal sq r l a a P (P ∪ Q) = fourVal sq r l a a P Q := by
      have e : fourVal sq r l a a P P = 0 := by
        have := C111_factor sq h (a := a) (d := a) (S := P) (P := P) (Q := P) (p := true) (q := true) rfl rfl
        rw [this]
        cases sq <;> simp [endsVal, angle_self, square_self]
      have add : fourVal sq r l a a P (P ∪ Q) = fourVal sq r l a a P P + fourVal sq r l a a P Q := by
        cases sq <;> simp only [fourVal, if_true, Bool.false_eq_true, if_false, ← sum_add_distrib] <;>
          exact sum_congr rfl fun p _ => sum_union hPQ
      rw [add, e, zero_add]
    have hR : IsSlot a (P ∪ Q) R false := by
      unfold IsSlot
      ext k
      have hk := mem_univ k
      rw [← hu] at hk
      simp only [mem_insert, mem_union] at hk
      simp only [mem_erase, Bool.false_eq_true, if_false, mem_compl, mem_union]
      constructor
      · rintro ⟨h1, h2⟩
        refine ⟨h1, ?_⟩
        rintro (h3 | h3)
        · exact disjoint_left.1 hPR h3 h2
        · exact disjoint_left.1 hQR h3 h2
      · rintro ⟨h1, h2⟩
        exact ⟨h1, (hk.resolve_left h1).resolve_left h2⟩
    rw [four_slot' sq h hR, hs]
    simp [sgn]
  refine ⟨key hPQ hPR hQR hu, ?_⟩
  have e := key hPQ.symm hQR hPR (by rw [union_comm Q P]; exact hu)
  rw [e, C111_reverse, neg_neg]

/-! ### What is computed -/

theorem sort_written {P : Finset (Fin n)} (hP : P.Nonempty) : SlotWritten ((P.sort (· ≤ ·)).map fun k => (true, k)) := by
  rcases h : P.sort (· ≤ ·) with _ | ⟨x, xs⟩
  · have := P.length_sort (· ≤ ·)
    rw [h] at this
    exact absurd (card_eq_zero.1 this.symm) hP.ne_empty
  · exact ⟨x, _, rfl⟩

theorem four_slots (sq : Bool) (a d : Fin n) (P Q : Finset (Fin n)) : fourText sq a d P Q = stringText (if sq then '[' else '⟨') (a + 1)
    ([(true, (P.sort (· ≤ ·)).map fun k => (true, k)), (true, (Q.sort (· ≤ ·)).map fun k => (true, k))].map slotOf) (d + 1) (if sq then ']' else '⟩') := by
  simp only [fourText, slotOf, List.map_cons, List.map_nil, List.map_map]
  rfl

/-- C111: compute reads the texts and returns the values. -/
theorem C111_value {c : Ctx K} {ps : Point K n} {r l : Fin n → V2 K} (h : Spin c ps r l) (fuel : ℕ) (sq : Bool) (a d : Fin n) {P Q : Finset (Fin n)}
    (hP : P.Nonempty) (hQ : Q.Nonempty) : computeText ps fuel (fourText sq a d P Q) = some (.ok (.num (fourVal sq r l a d P Q))) := by
  have x := (C17_expansion c ps r l a d [(P.sort (· ≤ ·)).map fun k => (true, k), (Q.sort (· ≤ ·)).map fun k => (true, k)] (h a).toHasSpinors
    (h d).toHasSpinors fun k _ => h k).1 (by simp)
  have w : ∀ s ∈ [(true, (P.sort (· ≤ ·)).map fun k => (true, k)), (true, (Q.sort (· ≤ ·)).map fun k => (true, k))], SlotWritten (n := n) s.2 := by
    simpa using ⟨sort_written hP, sort_written hQ⟩
  have tot : ∀ (P : Finset (Fin n)) (f : Fin n → K), ((P.sort (· ≤ ·)).map f).sum = ∑ k ∈ P, f k := fun P f => by
    rw [← List.sum_toFinset _ (Finset.sort_nodup _ _), Finset.sort_toFinset]
  rw [four_slots]
  cases sq
  · rw [if_neg (by decide), if_neg (by decide), C82_string ps fuel '⟨' '⟩' (by decide) (by decide) a d _ (by simp) w]
    simp only [List.map_cons, List.map_nil]
    rw [x.1]
    simp only [asNum, specString, List.map_map, Function.comp_def, sgn, if_true, one_mul, tot, mul_sum, fourVal, Bool.false_eq_true, if_false, mul_assoc]
  · rw [if_pos rfl, if_pos rfl, C82_string ps fuel '[' ']' (by decide) (by decide) a d _ (by simp) w]
    simp only [List.map_cons, List.map_nil]
    rw [x.2]
    simp only [asNum, specString, List.map_map, Function.comp_def, sgn, if_true, one_mul, tot, mul_sum, fourVal, mul_assoc]

theorem pairs_sort (f : Fin n → Fin n → K) : ∀ ls : List (Fin n), ls.Pairwise (· < ·) →
    specPairs f ls = ∑ p ∈ ls.toFinset, ∑ q ∈ ls.toFinset.filter (p < ·), f p q
  | [], _ => rfl
  | x :: ls, h => by
    have h' := List.pairwise_cons.1 h
    have hn : x ∉ ls.toFinset := fun hx => lt_irrefl _ (h'.1 x (List.mem_toFinset.1 hx))
    rw [specPairs, pairs_sort f ls h'.2, List.toFinset_cons, sum_insert hn, filter_insert, if_neg (lt_irrefl x),
      filter_true_of_mem fun y hy => h'.1 y (List.mem_toFinset.1 hy)]
    congr 1
    · rw [← List.sum_toFinset _ (h'.2.imp fun h => ne_of_lt h)]
    · refine sum_congr rfl fun p hp => ?_
      rw [filter_insert, if_neg (not_lt.2 (h'.1 p (List.mem_toFinset.1 hp)).le)]

/-- C111: compute of s_S returns its value, up to nine particles. -/
theorem C111_mandelstam (h9 : n ≤ 9) {c : Ctx K} {ps : Point K n} {r l : Fin n → V2 K} (h : Spin c ps r l) (fuel : ℕ) {S : Finset (Fin n)}
    (hS : S.Nonempty) : computeText ps fuel ("s_".toList ++ digitText (S.sort (· ≤ ·))) = some (.ok (.num (sVal r l S))) := by
  have hne : S.sort (· ≤ ·) ≠ [] := fun e => by
    have := S.length_sort (· ≤ ·)
    rw [e] at this
    exact absurd (card_eq_zero.1 this.symm) hS.ne_empty
  rw [C82_mandelstam ps fuel _ (by decide) _ hne (fun k _ => by omega), C15_sum_of_pairs c ps _ r l fun k _ => h k,
    pairs_sort _ _ (Finset.sortedLT_sort S).pairwise, Finset.sort_toFinset]
  rfl

end Lips

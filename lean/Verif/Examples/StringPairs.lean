import Verif.Props.StringPairsMore

/-! Concrete cases for C111. -/

namespace Lips

open Finset

example : fourText false (0 : Fin 6) 1 {1, 2} {2, 3} = "⟨1|(2+3)|(3+4)|2⟩".toList := by
  have h : (({1, 2} : Finset (Fin 6)).sort (· ≤ ·)) = [1, 2] := (List.toFinset_sort (l := [(1 : Fin 6), 2]) (· ≤ ·) (by decide)).2 (by decide)
  have h' : (({2, 3} : Finset (Fin 6)).sort (· ≤ ·)) = [2, 3] := (List.toFinset_sort (l := [(2 : Fin 6), 3]) (· ≤ ·) (by decide)).2 (by decide)
  rw [fourText, h, h']
  rfl

theorem six_slots : ListedSlot (0 : Fin 6) 0 {1, 2} ∧ ListedSlot (5 : Fin 6) 5 {2, 3} := ⟨⟨by decide, by decide, by decide⟩, ⟨by decide, by decide, by decide⟩⟩

/-- At six points ⟨1|(2+3)|(3+4)|6⟩ is generated, whatever the order of sets, and does not vanish at the example point. -/
example (ord : SetOrder) (hord : ∀ k l, (ord k l).Perm l) : ∃ L v, all4 6 ord = .ok L ∧ fourText false (0 : Fin 6) 5 {1, 2} {2, 3} ∈ L.map Brk.text ∧
    v ≠ 0 ∧ computeText (spinPoint f10007 spinSix) 3 (fourText false (0 : Fin 6) 5 {1, 2} {2, 3}) = some (.ok (.num v)) := by
  obtain ⟨L, h, -, hL⟩ := C111_six hord
  exact ⟨L, _, h, (hL _).2 ⟨_, _, _, _, _, ⟨by decide, six_slots.1, six_slots.2, by decide, by decide, by decide⟩, rfl⟩, by decide +kernel,
    C111_value spinSix_spin 3 false 0 5 (by decide) (by decide)⟩

/-- ⟨1|(2+3)|(1+4+5)|6⟩ factors: the second slot is the complement of the first, beside 6. -/
example : Factors (0 : Fin 6) 5 {1, 2} {3, 4, 0} ∧ ¬ Factors (0 : Fin 6) 5 {1, 2} {2, 3} := by
  refine ⟨⟨{1, 2}, true, false, by unfold IsSlot; decide, by unfold IsSlot; decide⟩, ?_⟩
  rintro ⟨S, p, q, h1, h2⟩
  rw [isSlot_iff (by decide)] at h1 h2
  revert h1 h2
  cases p <;> cases q <;> revert S <;> decide

/-- With equal ends ⟨1|(2+3)|(2+3+4)|1⟩ is a product that is not zero. -/
example : OneApart (0 : Fin 6) {1, 2} {1, 2, 3} ∧ fourVal false rSix lSix 0 0 {1, 2} {1, 2, 3} ≠ 0 :=
  ⟨⟨{1, 2}, 3, true, true, by decide, by decide, by unfold IsSlot; decide, by unfold IsSlot; decide⟩, by decide +kernel⟩

/-- At seven points ⟨1|(2+4)|(3+6)|1⟩ is not taken to be a product. -/
example : Kept (0 : Fin 7) 0 {1, 3} {2, 5} :=
  ⟨le_refl _, ⟨by decide, by decide, by decide⟩, ⟨by decide, by decide, by decide⟩, by decide, fun _ => by decide, by decide⟩

/-- At seven points in ascending order ⟨1|(2+4)|(3+6)|1⟩ is lost and ⟨1|(2+3)|(6+7)|1⟩ is generated; for the ends 4 the neighbouring one is lost too. -/
example (ord : SetOrder) (hord : ∀ k l, (ord k l).Perm l) (hasc : ∀ k l, l.Pairwise (· < ·) → ord k l = l) : ∃ L, all4 7 ord = .ok L ∧
    fourText false (0 : Fin 7) 0 {1, 3} {2, 5} ∉ L.map Brk.text ∧ fourText false (0 : Fin 7) 0 {1, 2} {5, 6} ∈ L.map Brk.text ∧
    fourText false (3 : Fin 7) 3 {1, 2} {4, 5} ∉ L.map Brk.text := by
  obtain ⟨L, h, hL⟩ := C111_seven_ascending hord hasc
  have k1 : Kept (0 : Fin 7) 0 {1, 3} {2, 5} :=
    ⟨le_refl _, ⟨by decide, by decide, by decide⟩, ⟨by decide, by decide, by decide⟩, by decide, fun _ => by decide, by decide⟩
  have k2 : Kept (0 : Fin 7) 0 {1, 2} {5, 6} :=
    ⟨le_refl _, ⟨by decide, by decide, by decide⟩, ⟨by decide, by decide, by decide⟩, by decide, fun _ => by decide, by decide⟩
  have k3 : Kept (3 : Fin 7) 3 {1, 2} {4, 5} :=
    ⟨le_refl _, ⟨by decide, by decide, by decide⟩, ⟨by decide, by decide, by decide⟩, by decide, fun _ => by decide, by decide⟩
  refine ⟨L, h, fun hm => ?_, (hL false 0 _ _ k2 (by decide)).2 ⟨by decide, by decide, by decide⟩, fun hm => ?_⟩
  · exact absurd ((hL false 0 _ _ k1 (by decide)).1 hm).1 (by decide)
  · exact ((hL false 3 _ _ k3 (by decide)).1 hm).2.1 rfl

/-- In descending order none is lost. -/
example : ∃ L, all4 7 (fun _ l => l.reverse) = .ok L ∧ fourText true (0 : Fin 7) 0 {1, 3} {2, 5} ∈ L.map Brk.text := by
  obtain ⟨L, h, -, hL⟩ := C111_descending (n := 7) (ord := fun _ l => l.reverse) (by decide) (by decide) fun k l h2 hl hr => by
    match l, h2 with
    | a :: b :: l, _ =>
      rw [List.pairwise_reverse] at hr
      exact List.lt_asymm (List.rel_of_pairwise_cons hl (a' := b) (by simp)) (List.rel_of_pairwise_cons hr (a' := b) (by simp))
  exact ⟨L, h, (hL _).2 ⟨_, _, _, _, _,
    ⟨le_refl _, ⟨by decide, by decide, by decide⟩, ⟨by decide, by decide, by decide⟩, by decide, fun _ => by decide, by decide⟩, rfl⟩⟩

/-- At nine points the strings are generated for some order, so that `C111_nine_twice` is about something. -/
example : ∃ L, all4 9 (fun _ l => l.reverse) = .ok L := by
  obtain ⟨L, h, -⟩ := C111_descending (n := 9) (ord := fun _ l => l.reverse) (by decide) (by decide) fun k l h2 hl hr => by
    match l, h2 with
    | a :: b :: l, _ =>
      rw [List.pairwise_reverse] at hr
      exact List.lt_asymm (List.rel_of_pairwise_cons hl (a' := b) (by simp)) (List.rel_of_pairwise_cons hr (a' := b) (by simp))
  exact ⟨L, h⟩

/-- The hypotheses of `C111_equal_ends` for a string that is none of the listed ones: ⟨1|(2+4)|(2+4+5+7)|1⟩ at seven points. -/
example : ({1, 3, 4, 6} : Finset (Fin 7)) ⊆ others 0 0 ∧ 2 ≤ #(others (0 : Fin 7) 0 \ {1, 3, 4, 6}) ∧
    ¬ Factors (0 : Fin 7) 0 {1, 3} {1, 3, 4, 6} ∧ ¬ OneApart (0 : Fin 7) {1, 3} {1, 3, 4, 6} := by
  refine ⟨by decide, by decide, ?_, ?_⟩
  · rintro ⟨S, p, q, h1, h2⟩
    rw [isSlot_iff (by decide)] at h1 h2
    revert h1 h2
    cases p <;> cases q <;> revert S <;> decide +kernel
  · rintro ⟨S, x, p, q, hx, hxa, h1, h2⟩
    rw [isSlot_iff (by decide)] at h1 h2
    revert hx hxa h1 h2
    cases p <;> cases q <;> revert S x <;> decide +kernel

end Lips

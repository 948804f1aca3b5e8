import Verif.Props.StringLists
import Verif.Examples.Compute

/-! Concrete cases for C110. -/

namespace Lips

open Finset

/-- At six points ⟨1|(2+3)|6] is generated and ⟨1|(4+5)|6] is not. -/
example : ListedSlot (0 : Fin 6) 5 {1, 2} ∧ ¬ ListedSlot (0 : Fin 6) 5 {3, 4} :=
  ⟨⟨by decide, by decide, by decide⟩, fun h => absurd h.small (by decide)⟩

example : threeText (0 : Fin 6) 5 {1, 2} = "⟨1|(2+3)|6]".toList := by
  have h : (({1, 2} : Finset (Fin 6)).sort (· ≤ ·)) = [1, 2] := (List.toFinset_sort (l := [(1 : Fin 6), 2]) (· ≤ ·) (by decide)).2 (by decide)
  rw [threeText, h]
  rfl

example : ∃ L, all3 6 = .ok L ∧ threeText (0 : Fin 6) 5 {1, 2} ∈ L.map Brk.text := by
  obtain ⟨L, h, -, hL⟩ := C110_list (n := 6) (by decide)
  exact ⟨L, h, (hL _).2 ⟨0, 5, {1, 2}, ⟨by decide, by decide, by decide⟩, rfl⟩⟩

theorem pt6_spin : Spin (f13 .symmetric) pt6 (fun k => (spin6 k).1) fun k => (spin6 k).2 := pt6_massless

/-- A slot with an end and a label too many: at the example point ⟨1|(1+4+5)|6] is minus the generated ⟨1|(2+3)|6], not zero. -/
example : ∃ L v, all3 6 = .ok L ∧ computeText pt6 7 (threeText (0 : Fin 6) 5 {0, 3, 4}) = some (.ok (.num v)) ∧ v ≠ 0 ∧
    threeText (0 : Fin 6) 5 {1, 2} ∈ L.map Brk.text ∧ computeText pt6 7 (threeText (0 : Fin 6) 5 {1, 2}) = some (.ok (.num (-v))) := by
  obtain ⟨L, h, -, hL⟩ := C110_list (n := 6) (by decide)
  have hv := C110_value pt6_spin 7 0 5 (P := {0, 3, 4}) (by decide)
  obtain ⟨v, h1, -, -, -, h2⟩ := C110_complete (by decide) h pt6_spin pt6_conserves 7 0 5 (P := {0, 3, 4}) (by decide)
  obtain ⟨T, hT, hm, he⟩ := h2 (by decide) (by decide)
  have e1 : ({0, 3, 4} : Finset (Fin 6)) ∩ others 0 5 = {3, 4} := by decide
  have e2 : others (0 : Fin 6) 5 \ {0, 3, 4} = {1, 2} := by decide
  rw [e1, e2] at hT
  rw [e1] at he
  have hT' : T = {1, 2} := by
    rcases hT with rfl | rfl
    · obtain ⟨a, d, P, hP, ht⟩ := (hL _).1 hm
      obtain ⟨rfl, rfl, rfl⟩ := threeText_inj (by decide) hP.ne ht
      exact absurd hP.small (by decide)
    · rfl
  subst hT'
  rw [if_neg (by decide)] at he
  refine ⟨L, v, h, h1, ?_, hm, he⟩
  rw [hv] at h1
  cases h1
  decide

/-- At six points ⟨1|(2+4)|5] is not kept by the restriction: neither {1,5,2,4} nor {1,5,3,6} is an interval. -/
example : ∃ L L', all3 6 = .ok L ∧ purge3 6 L L = .ok L' ∧ threeText (0 : Fin 6) 4 {1, 3} ∈ L.map Brk.text ∧ threeText (0 : Fin 6) 4 {1, 3} ∉ L'.map Brk.text ∧
    threeText (0 : Fin 6) 5 {1, 2} ∈ L'.map Brk.text := by
  obtain ⟨L, h, -, hL⟩ := C110_list (n := 6) (by decide)
  obtain ⟨L', h', -, hL'⟩ := C110_restricted (n := 6) (by decide) h
  refine ⟨L, L', h, h', (hL _).2 ⟨0, 4, {1, 3}, ⟨by decide, by decide, by decide⟩, rfl⟩, fun hm => ?_, (hL' _).2 ⟨0, 5, {1, 2}, ⟨by decide, by decide, by decide⟩, rfl, ?_⟩⟩
  · obtain ⟨a, d, P, hP, ht, hi⟩ := (hL' _).1 hm
    obtain ⟨rfl, rfl, rfl⟩ := threeText_inj (by decide) hP.ne ht
    have none : ∀ a < 7, ∀ len < 7, labelsOf ({0, 4} ∪ ({1, 3} : Finset (Fin 6))) ≠ arcSet 6 a len ∧
        labelsOf ({0, 4} ∪ (others 0 4 \ ({1, 3} : Finset (Fin 6)))) ≠ arcSet 6 a len := by decide +kernel
    rcases hi with ⟨x, len, _, hx, hl, he⟩ | ⟨x, len, _, hx, hl, he⟩
    · exact (none x (by omega) len (by omega)).1 he
    · exact (none x (by omega) len (by omega)).2 he
  · exact .inl ⟨6, 4, by decide, by decide, by decide, by decide⟩

end Lips

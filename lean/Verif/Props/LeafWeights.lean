import Verif.Spec.LeafWeight
import Verif.Props.Weights

/-! C122 for the written invariants, with the weights read off the writing. -/

namespace Lips

variable {K : Type*} [Field K] {n : ℕ}

theorem nameWeight_leaf (w : Form → Option ℤ) {l : Leaf} (h : l.Ok) : nameWeight w l.name = w l.form := by
  unfold nameWeight
  rw [rsubs_plain _ (name_plain h)]
  have : classify l.name = l.form := by
    refine (C92_reads ?_).mpr (C94_names h)
    cases l <;> simp [Leaf.form]
    split <;> simp
  simp only [this]

/-- C122: an invariant as it is written is multiplied by `t` to the number of its angle ends that are particle `A` minus the number of
its square ends that are. -/
theorem C122_little_group_written (c : Ctx K) (A : Fin n) (t : K) (ps ps' : Point K n) (H : LittleGroup c A t ps ps') (fuel : ℕ) {l : Leaf}
    (h : l.Ok) : callNumber ps' fuel l.name = (callNumber ps fuel l.name).map (Except.map (t ^ l.phase (A + 1) * ·)) := by
  refine C122_little_group c A t ps ps' H fuel l.name _ ?_
  rw [nameWeight_leaf _ h]
  cases l with
  | two sq bar a b => cases sq <;> simp [Leaf.form, Form.phase, Leaf.phase, isLabel, labelIs]; ring
  | str o a ss b d =>
    obtain ⟨ho, hd, -⟩ := h
    simp only [List.mem_cons, List.not_mem_nil, or_false] at ho hd
    rcases ho with rfl | rfl <;> rcases hd with rfl | rfl <;> simp [Leaf.form, Form.phase, Leaf.phase, isLabel, labelIs]
  | _ => simp [Leaf.form, Form.phase, Leaf.phase]

/-- C122: and by the square of `t` to its mass dimension when all spinors are multiplied by `t`. -/
theorem C122_dimension_written (c : Ctx K) (t : K) (ps ps' : Point K n) (H : Rescaled c t ps ps') (fuel : ℕ) {l : Leaf} (h : l.Ok) :
    callNumber ps' fuel l.name = (callNumber ps fuel l.name).map (Except.map ((t ^ 2) ^ l.dim * ·)) := by
  refine C122_dimension c t ps ps' H fuel l.name _ ?_
  rw [nameWeight_leaf _ h]
  cases l with
  | two sq bar a b => cases sq <;> simp [Leaf.form, Form.dimension, Leaf.dim]
  | delta k ks =>
    obtain ⟨x, xs, rfl⟩ := List.exists_cons_of_ne_nil h.1
    simp [Leaf.form, Form.dimension, Leaf.dim]
  | _ => simp [Leaf.form, Form.dimension, Leaf.dim]

/-- The string ⟨1|2+3|1]: weight zero for particle 1 and dimension two. -/
example : Leaf.Ok (.str '⟨' '1' [⟨true, '2', [('+', '3')]⟩] '1' ']') ∧ Leaf.phase 1 (.str '⟨' '1' [⟨true, '2', [('+', '3')]⟩] '1' ']') = 0 ∧
    Leaf.dim (.str '⟨' '1' [⟨true, '2', [('+', '3')]⟩] '1' ']') = 2 := by
  refine ⟨?_, by decide, by decide⟩
  simp [Leaf.Ok, WSlot.Ok]

end Lips

import Verif.Props.Symmetry
import Verif.Props.Relabel
import Verif.Props.Indexing
import Verif.Props.Arcs
import Verif.Examples.Compute

/-! Concrete cases meeting the hypotheses of the theorems on images, symmetries, indexing and
arcs. -/

namespace Lips

/-- C32, C34: a point with pairwise different entries, moved by a three-cycle and copied. -/
example : imageStr (fun x y => decide (x = y)) [10, 20, 30] ['2', '3', '1'] = .ok [30, 10, 20] := by
  have h := C32_image_moves (n := 3) (by omega) (by omega) (fun x y : ℕ => decide (x = y)) (by simp)
    ![10, 20, 30] (by decide) (finRotate 3)
  have e1 : permString (finRotate 3) = ['2', '3', '1'] := by decide
  have e2 : List.ofFn (moved ![10, 20, 30] (finRotate 3)) = [30, 10, 20] := by decide
  rw [e1, e2] at h
  exact h

example : ∀ i j : Fin 3, i ≠ j → (fun x y : ℕ => decide (x = y)) (![10, 20, 30] i) (![10, 20, 30] j) = false := by
  decide

/-- C32: the six particles of the example point have pairwise different momenta. -/
theorem pt6_distinct : ∀ i j : Fin 6, i ≠ j → (pt6 i).r2 ≠ (pt6 j).r2 := by
  have h : ∀ k, (pt6 k).r2 = outer (lDownUp (spin6 k).2) (rDownUp (spin6 k).1) :=
    fun k => ofSpinors_r2 _ _ _
  intro i j hij
  rw [h, h]
  revert i j
  decide

/-- C36: a string and its inverse. -/
example : inverseStr ['2', '3', '1'] = .ok ['3', '1', '2'] := by decide

/-- C37: weights with a symmetry of each kind, and without the transposition of the first two. -/
example : WeightSym ![1, -1, 0] (-1) (Equiv.swap 0 1) := by unfold WeightSym; decide
example : ¬ WeightSym ![1, -1, 0] 1 (Equiv.swap 0 1) := by unfold WeightSym; decide
example : phaseSymmetries [1, -1, 0] = [(['1', '2', '3'], false), (['2', '1', '3'], true)] := by decide

/-- C38: a history with a refused and three accepted steps. -/
example : [LOp.set 4 9, .set 2 7, .del 1, .insert 2 5].foldl (fun m o => (o.run m).1) [1, 2, 3] =
    ([7, 5, 3] : List ℕ) := by decide

/-- C39. -/
example : pyInsert [1, 2, 3] 2 9 = ([1, 9, 2, 3], none) := by decide
example : pyInsert ([] : List ℕ) 1 9 = ([], some .indexError) := by decide

/-- C42. -/
example : complementary 6 [4, 2, 2] = .ok [1, 3, 5, 6] := by decide

/-- C43, C44: arcs of a seven-point configuration, and a triple on which it does not end. -/
example : arcs 7 7 2 6 4 = some ([2, 3], [6, 7, 1], [4, 5]) := by decide
example : ∀ fuel, arcs 6 fuel 7 8 9 = none :=
  C44_diverges 6 (by omega) 7 8 9 (by unfold InRange; omega) (by unfold InRange; omega)

end Lips

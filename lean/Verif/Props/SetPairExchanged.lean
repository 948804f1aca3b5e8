import Verif.Props.SetPairStops
import Verif.Examples.Compute

/-! Property C70: the cases in which the requests are not kept, shown on a concrete point. -/

namespace Lips

variable {V : Type*}

/-- Two invariants with values on the six-point example that differ by more than a sign are not the same. -/
theorem not_same {x y : Inv 6} {a b : F13} (hx : x.value pt6 = some (.ok a)) (hy : y.value pt6 = some (.ok b))
    (h1 : a ≠ b) (h2 : a ≠ -b) : ¬SameUpToSign F13 x y := by
  rintro (rfl | h)
  · rw [hx] at hy; simp only [Option.some.injEq, Except.ok.injEq] at hy; exact h1 hy
  · obtain ⟨z, e1, e2⟩ := h (f13 .symmetric) pt6 _ _ pt6_massless pt6_conserves
    rw [hx] at e1
    simp only [Option.some.injEq, Except.ok.injEq] at e1
    subst e1
    rw [hy] at e2
    simp only [Option.some.injEq, Except.ok.injEq] at e2
    rcases e2 with e2 | e2
    · exact h1 e2.symm
    · exact h2 (by rw [e2, neg_neg])

/-- C70 fails: asked for `s_123 = v` and `s_45 = w` at six points, `_set_pair_inner` goes on to ask for `s_45 = v`
and `s_456 = w`. With different values these are not the requests. -/
theorem C70_exchanged_not_kept (v w : V) (hvw : v ≠ w) :
    ∃ x' y', pairStep (((Inv.mandel [0, 1, 2], v), (Inv.mandel [3, 4], w)) : Req 6 V × Req 6 V) = some (x', y') ∧
      ¬KeepsRequests F13 (Inv.mandel [0, 1, 2], v) (Inv.mandel [3, 4], w) x' y' := by
  refine ⟨(.mandel [3, 4], v), (.mandel [3, 4, 5], w), ?_, ?_⟩
  · simp only [pairStep, Inv.blank, dispatchPair, (C70_exchanged_six v w).1]; rfl
  · rintro (⟨h, -⟩ | ⟨-, h, -⟩)
    · refine not_same (a := computeS pt6 [0, 1, 2]) (b := computeS pt6 [3, 4]) rfl rfl ?_ ?_ h <;> decide +kernel
    · exact hvw h.symm

/-- C70 fails: asked for `⟨1|2+3|1] = v` and `s_123 = w` at six points, `_set_pair_inner` goes on to ask for
`⟨2|3⟩ = w` and `s_123 = v`. Even with equal values these are not the requests. -/
theorem C70_contained_not_kept (v w : V) :
    ∃ x' y', pairStep (((Inv.three ⟨true, 0, [1, 2], 0⟩, v), (Inv.mandel [0, 1, 2], w)) : Req 6 V × Req 6 V) =
        some (x', y') ∧ x' = (.two true 1 2, w) ∧ y' = (.mandel [0, 1, 2], v) ∧
      ¬KeepsRequests F13 (Inv.three ⟨true, 0, [1, 2], 0⟩, v) (Inv.mandel [0, 1, 2], w) x' y' := by
  refine ⟨_, _, rfl, rfl, rfl, ?_⟩
  have e : (Inv.three ⟨true, 0, [1, 2], 0⟩ : Inv 6).value pt6 = some (.ok 6) := by
    refine congrArg some ((T3.value_eq (c := f13 .symmetric) pt6_massless _).trans (congrArg _ ?_))
    decide +kernel
  have e2 : (Inv.two true 1 2 : Inv 6).value pt6 = some (.ok 10) := by
    refine congrArg some (?_ : angle (pt6 1) (pt6 2) = .ok 10)
    simp only [angle, (pt6_massless 1).r_u, (pt6_massless 2).r_d]
    decide +kernel
  have e3 : (Inv.mandel [0, 1, 2] : Inv 6).value pt6 = some (.ok 9) :=
    congrArg some (congrArg _ (by decide +kernel))
  rintro (⟨h, -⟩ | ⟨h, -⟩)
  · exact not_same e e2 (by decide) (by decide) h
  · exact not_same e e3 (by decide) (by decide) h

/-! Cases meeting the hypotheses of the other theorems on pairs. -/

/-- C70: a call that keeps the requests, `⟨1|2⟩` and `s_345` at six points. -/
example (v w : V) : pairStep (((Inv.two true 0 1, v), (Inv.mandel [2, 3, 4], w)) : Req 6 V × Req 6 V) =
    some ((.two true 0 1, v), (.mandel [0, 1, 5], w)) := rfl

/-- C71: the longest chain, four calls. -/
example (v w : V) : pairIter 4 (((Inv.mandel [4, 5, 6], v), (Inv.three ⟨true, 0, [1, 2], 3⟩, w)) : Req 7 V × Req 7 V) ≠ none :=
  (Option.some_ne_none _ : some _ ≠ none)

/-- C72: at five points `⟨1|2⟩` and `⟨1|2+3|4]` leave particle five, and particle one joins it. -/
example : canFix true 0 1 (⟨'⟨', 0, [[1, 2]], 3, ']'⟩ : Str 5) = some (4, 0, true) := by decide

/-- C86: at five points `⟨1|2|3]` and `⟨4|2|3]`. -/
example : fix33 (⟨true, 0, [1], 2⟩ : T3 5) ⟨true, 3, [1], 2⟩ = some (4, 2, false) := by decide

/-- C86: at five points `⟨1|2|3]` and `⟨4|5|3]`, which leave no particle. -/
example : fix33 (⟨true, 0, [1], 2⟩ : T3 5) ⟨true, 3, [4], 2⟩ = some (0, 3, true) := by decide

end Lips

import Verif.Props.EvalArr
import Verif.Props.NodeText
import Verif.Lemmas.NodeSame
import Verif.Examples.Compute

/-! Texts with open indices at a concrete point, meeting the hypotheses of C106, and points where the partial results are wrong. -/

namespace Lips

/-- The texts `parse` leaves, read as Python reads them. -/
example : nodeOf (parseText "⟨1|@(|2|3|-|4|5|)@|6⟩".toList) =
    some (.bin .matmul (.bin .matmul (.oPs "⟨1|".toList) (.bin .sub (.oPs "|2|3|".toList) (.oPs "|4|5|".toList))) (.oPs "|6⟩".toList)) := isNode_eq (by decide +kernel)

example : nodeOf (parseText "[1|@|2|@|3⟩".toList) =
    some (.bin .matmul (.bin .matmul (.oPs "[1|".toList) (.oPs "|2|".toList)) (.oPs "|3⟩".toList)) := isNode_eq (by decide +kernel)

example : nodeOf (parseText "⟨1_|2|3_⟩".toList) =
    some (.bin .matmul (.bin .matmul (lowAngleRow "⟨1|".toList "⟨2|".toList) (.oPs "|2|".toList)) (lowAngleCol "|3⟩".toList "|4⟩".toList)) :=
  isNode_eq (by decide +kernel)

example : nodeOf (parseText "[1^|2+3|4_⟩".toList) =
    some (.bin .matmul (.bin .matmul (highSquareRow "[1|".toList "[2|".toList) (flipNode "|2+3|".toList)) (lowAngleCol "|4⟩".toList "|5⟩".toList)) :=
  isNode_eq (by decide +kernel)

/-- Two brackets of massive particles next to each other: the second is taken for the arguments of a call, which is not modelled. -/
example : (nodeOf (parseText "⟨1_|4_⟩[1^|4^]".toList)).isSome = false ∧ (nodeOf (parseText "⟨1_|@|3_⟩".toList)).isSome = false := by decide +kernel

theorem front6 : OpenEndText 6 "⟨1|".toList '⟨' 0 [] :=
  ⟨by decide +kernel, "1".toList, by decide +kernel, .inr ⟨rfl, .inl ⟨rfl, by decide +kernel⟩⟩⟩
theorem frontSq6 : OpenEndText 6 "[1|".toList '[' 0 [] :=
  ⟨by decide +kernel, "1".toList, by decide +kernel, .inr ⟨rfl, .inr ⟨rfl, by decide +kernel⟩⟩⟩
theorem back6 : OpenBeginText 6 "|6⟩".toList [] 5 '⟩' :=
  ⟨by decide +kernel, "6".toList, by decide +kernel, .inr ⟨rfl, .inl ⟨rfl, by decide +kernel⟩⟩⟩
theorem back3 : OpenBeginText 6 "|3⟩".toList [] 2 '⟩' :=
  ⟨by decide +kernel, "3".toList, by decide +kernel, .inr ⟨rfl, .inl ⟨rfl, by decide +kernel⟩⟩⟩
theorem mid23 : DoubleOpenText 6 "|2|3|".toList [[(true, 1)], [(true, 2)]] := ⟨by decide +kernel, _, rfl, by decide +kernel⟩
theorem mid45 : DoubleOpenText 6 "|4|5|".toList [[(true, 3)], [(true, 4)]] := ⟨by decide +kernel, _, rfl, by decide +kernel⟩
theorem mid2 : DoubleOpenText 6 "|2|".toList [[(true, 1)]] := ⟨by decide +kernel, _, rfl, by decide +kernel⟩
theorem long6 : OpenEndText 6 "⟨1|2+3|".toList '⟨' 0 [[(true, 1), (true, 2)]] :=
  ⟨by decide +kernel, "1".toList, by decide +kernel, .inl ⟨_, rfl, by decide +kernel⟩⟩
theorem longBack6 : OpenBeginText 6 "|4|6⟩".toList [[(true, 3)]] 5 '⟩' :=
  ⟨by decide +kernel, "6".toList, by decide +kernel, .inl ⟨_, rfl, by decide +kernel⟩⟩

/-- C106_glue and C106_glue_middle apply. -/
example (fuel : ℕ) : ∃ x, computeNB pt6 '⟨' 0 ([[(true, 1), (true, 2)]] ++ [[(true, 3)]]) 5 '⟩' = .ok x ∧
    computeNode pt6 fuel (.bin .matmul (.oPs "⟨1|2+3|".toList) (.oPs "|4|6⟩".toList)) = .ok (.sc (.fld x)) :=
  C106_glue (f13 .symmetric) pt6 fuel (pt6_massless 0).toHasSpinors (pt6_massless 5).toHasSpinors long6 longBack6 (by unfold Fits; decide)

/-- C106_linear: `⟨1|(|2|3| - |4|5|)|6⟩`, from the text to the value. -/
example (fuel : ℕ) : ∃ x y, computeNB pt6 '⟨' 0 [[(true, 1)], [(true, 2)]] 5 '⟩' = .ok x ∧ computeNB pt6 '⟨' 0 [[(true, 3)], [(true, 4)]] 5 '⟩' = .ok y ∧
    computeArr pt6 fuel "⟨1|@(|2|3|-|4|5|)@|6⟩".toList = some (.ok (.sc (.fld (x - y)))) := by
  obtain ⟨x, y, h1, h2, -, h3⟩ := C106_linear (f13 .symmetric) pt6 fuel (pt6_massless 0).toHasSpinors (pt6_massless 5).toHasSpinors front6 mid23 mid45
    back6 (by unfold Fits; decide) (by unfold Fits; decide)
  refine ⟨x, y, h1, h2, ?_⟩
  rw [computeArr, show nodeOf (parseText "⟨1|@(|2|3|-|4|5|)@|6⟩".toList) = some (.bin .matmul (.bin .matmul (.oPs "⟨1|".toList)
    (.bin .sub (.oPs "|2|3|".toList) (.oPs "|4|5|".toList))) (.oPs "|6⟩".toList)) from isNode_eq (by decide +kernel), Option.map_some, h3]

/-- The value of `[1|@|2|@|3⟩` is not that of `[1|2|3⟩`. -/
theorem C106_square_wrong (fuel : ℕ) : ∃ x y : F13, x ≠ y ∧ computeNB pt6 '[' 0 [[(true, 1)]] 2 '⟩' = .ok x ∧
    computeArr pt6 fuel "[1|@|2|@|3⟩".toList = some (.ok (.sc (.fld y))) := by
  obtain ⟨h1, h2⟩ := C106_glue_middle_partial (f13 .symmetric) pt6 fuel (pt6_massless 0).toHasSpinors (pt6_massless 2).toHasSpinors frontSq6 mid2 back3
    (by unfold Fits; decide) (by decide)
  refine ⟨_, bil (frontOf '[' (spin6 0).1 (spin6 0).2) (chain pt6 false [] * chain pt6 true [[(true, 1)]] * chain pt6 true [])
    (backOf '⟩' (spin6 2).1 (spin6 2).2), ?_, h1, ?_⟩
  swap
  · rw [computeArr, show nodeOf (parseText "[1|@|2|@|3⟩".toList) = some (.bin .matmul (.bin .matmul (.oPs "[1|".toList) (.oPs "|2|".toList))
      (.oPs "|3⟩".toList)) from isNode_eq (by decide +kernel), Option.map_some, h2]
    rfl
  · decide +kernel

/-- After `[i^|` the piece `|2|3|` is not turned into the string it should be. -/
example (fuel : ℕ) : ∃ M : M2 F13, M ≠ chain pt6 false [[(true, 1)], [(true, 2)]] ∧ evalArr (leafArr pt6 fuel) (flipNode "|2|3|".toList) = .ok (.arr ⟨2, 2, M⟩) := by
  refine ⟨_, ?_, C106_flip_partial (f13 .symmetric) pt6 fuel mid23 fun k _ => (pt6_massless k).toHasSpinors.cons⟩
  decide +kernel

example (fuel : ℕ) : evalArr (leafArr pt6 fuel) (flipNode "|2|".toList) = .ok (.arr ⟨2, 2, chain pt6 false [[(true, 1)]]⟩) :=
  C106_flip_one (f13 .symmetric) pt6 fuel mid2 fun _ k _ => (pt6_massless k).toHasSpinors.cons

/-- C106_value and C106_spin_index: `⟨1_|4_⟩` is `⟨2|5⟩`, the contraction of the second components. -/
def env6 (t : List Char) : Option (Quant F13) :=
  if t = "⟨1|".toList then some (.mat 1 2 fun _ j => (![(spin6 0).1 1, -(spin6 0).1 0] : V2 F13) j)
  else if t = "⟨2|".toList then some (.mat 1 2 fun _ j => (![(spin6 1).1 1, -(spin6 1).1 0] : V2 F13) j)
  else if t = "|4⟩".toList then some (.mat 2 1 fun i _ => (spin6 3).1 i)
  else if t = "|5⟩".toList then some (.mat 2 1 fun i _ => (spin6 4).1 i)
  else none

theorem row6 (fuel : ℕ) (k : Fin 6) (t : List Char) (h : OpenEndText 6 t '⟨' k []) :
    ∃ v, leafArr pt6 fuel t = .ok v ∧ Rep v (.mat 1 2 fun _ j => (![(spin6 k).1 1, -(spin6 k).1 0] : V2 F13) j) := by
  refine ⟨_, leaf_openEnd (f13 .symmetric) pt6 fuel (pt6_massless k).toHasSpinors h, ?_⟩
  simp only [chain, frontOf, if_true, Matrix.vecMul_one, rowArr]
  exact .mat 1 2 _

theorem col6 (fuel : ℕ) (k : Fin 6) (t : List Char) (h : OpenBeginText 6 t [] k '⟩') :
    ∃ v, leafArr pt6 fuel t = .ok v ∧ Rep v (.mat 2 1 fun i _ => (spin6 k).1 i) := by
  refine ⟨_, leaf_openBegin (f13 .symmetric) pt6 fuel (pt6_massless k).toHasSpinors h (.inl rfl), ?_⟩
  simp only [chain, backOf, if_true, Matrix.one_mulVec, colArr]
  exact .mat 2 1 _

theorem env6_leaf (fuel : ℕ) (t : List Char) (q : Quant F13) (h : env6 t = some q) : ∃ v, leafArr pt6 fuel t = .ok v ∧ Rep v q := by
  unfold env6 at h
  split_ifs at h with h1 h2 h3 h4
  · cases h
    subst h1
    exact row6 fuel 0 _ front6
  · cases h
    subst h2
    exact row6 fuel 1 _ ⟨by decide +kernel, "2".toList, by decide +kernel, .inr ⟨rfl, .inl ⟨rfl, by decide +kernel⟩⟩⟩
  · cases h
    subst h3
    exact col6 fuel 3 _ ⟨by decide +kernel, "4".toList, by decide +kernel, .inr ⟨rfl, .inl ⟨rfl, by decide +kernel⟩⟩⟩
  · cases h
    subst h4
    exact col6 fuel 4 _ ⟨by decide +kernel, "5".toList, by decide +kernel, .inr ⟨rfl, .inl ⟨rfl, by decide +kernel⟩⟩⟩

example (fuel : ℕ) : ∃ w, computeArr pt6 fuel "⟨1_|4_⟩".toList = some (.ok (.sc w)) ∧
    w.toField = .ok ((spin6 1).1 1 * (spin6 4).1 0 - (spin6 1).1 0 * (spin6 4).1 1) := by
  have hm : Means env6 (.bin .matmul (lowAngleRow "⟨1|".toList "⟨2|".toList) (lowAngleCol "|4⟩".toList "|5⟩".toList)) (.mat 1 1 _) :=
    .matmul ((C106_spin_index env6 "⟨1|".toList "⟨2|".toList).1 _ _ rfl rfl).1 ((C106_spin_index env6 "|4⟩".toList "|5⟩".toList).2 _ _ rfl rfl).1
  obtain ⟨v, h1, h2⟩ := C106_value (leafArr pt6 fuel) env6 (env6_leaf fuel) hm
  obtain ⟨w, h3, h4⟩ := (C106_scalar v _ h2).1 _ (.one _)
  refine ⟨w, ?_, ?_⟩
  · rw [computeArr, show nodeOf (parseText "⟨1_|4_⟩".toList) = some (.bin .matmul (lowAngleRow "⟨1|".toList "⟨2|".toList)
      (lowAngleCol "|4⟩".toList "|5⟩".toList)) from isNode_eq (by decide +kernel), Option.map_some, computeNode, h1]
    simp only [h3]
  · rw [h4]
    decide +kernel

/-- C106_shapes: two rows cannot be contracted. -/
example (fuel : ℕ) : evalArr (leafArr pt6 fuel) (.bin .matmul (.oPs "⟨1|".toList) (.oPs "⟨1|".toList)) = .error .valueError := by
  have h := leaf_openEnd (f13 .symmetric) pt6 fuel (pt6_massless 0).toHasSpinors front6
  exact (C106_shapes (leafArr pt6 fuel) _ _ _ _ (by rw [evalArr]; exact h)).1 (by rw [evalArr]; exact h) (by decide)

/-- C106_reads: the minus sign is applied after the power, `@` groups to the left with `*`. -/
example : nodeOf ['-', '2', '*', '*', '3', '@', ' ', 'ϵ', '*', '1'] =
    some (.bin .mul (.bin .matmul (.neg (.bin .pow (.num 2) (.num 3))) (.name ['ϵ'])) (.num 1)) := by
  have hs : Spells ['-', '2', '*', '*', '3', '@', ' ', 'ϵ', '*', '1'] [.op .sub, .num 2, .op .pow, .num 3, .op .matmul, .id ['ϵ'], .op .mul, .num 1] :=
    .tok (t := .op .sub) trivial (by simp [NTok.endsAt]) <| .tok (t := .num 2) trivial (by simp [NTok.endsAt]) <|
    .tok (t := .op .pow) trivial (by simp [NTok.endsAt]) <| .tok (t := .num 3) trivial (by simp [NTok.endsAt]) <|
    .tok (t := .op .matmul) trivial (by simp [NTok.endsAt]) <| .blank <|
    .tok (t := .id ['ϵ']) ⟨by simp, by decide⟩ (by simp [NTok.endsAt]; decide) <| .tok (t := .op .mul) trivial (by simp [NTok.endsAt]) <|
    .tok (t := .num 1) trivial (by simp) .nil
  refine (C106_reads hs _).mpr (.term (.times (ts := [.op .sub, .num 2, .op .pow, .num 3, .op .matmul, .id ['ϵ']]) (.inl rfl)
    (.times (ts := [.op .sub, .num 2, .op .pow, .num 3]) (.inr (.inr rfl)) (.factor (.neg (.power (.pow (ts := [.num 2]) (.atom (.num 2))
      (.power (.primary (.atom (.num 3)))))))) (.power (.primary (.atom (.name ['ϵ']))))) (.power (.primary (.atom (.num 1))))))

/-- C106_entry and C106_slice: entries and slices of `ϵ`. -/
theorem eval_eps (leaf : List Char → Except Err (PVal F13)) : evalArr leaf (.name ['ϵ']) = .ok (.arr ⟨2, 2, !![0, 1; -1, 0]⟩) := by
  simp [evalArr, epsArr]

example (leaf : List Char → Except Err (PVal F13)) : evalArr leaf (.subscript (.name ['ϵ']) [.pos (-2), .pos 1]) = .ok (.sc (.fld 1)) ∧
    evalArr leaf (.subscript (.name ['ϵ']) [.pos 2, .pos 1]) = .error .indexError :=
  ⟨by simpa using (C106_entry leaf _ _ (eval_eps leaf) (-2) 1).1 0 1 (.inr rfl) (.inl rfl) (by decide) (by decide),
    (C106_entry leaf _ _ (eval_eps leaf) 2 1).2 (.inr (.inl (by decide)))⟩

example : (slicePositions 5 (some (-3)) (some 9)).map Fin.val = [2, 3, 4] ∧ (slicePositions 5 none (some (-4))).map Fin.val = [0] := by
  rw [slicePositions_val, slicePositions_val]; decide

end Lips

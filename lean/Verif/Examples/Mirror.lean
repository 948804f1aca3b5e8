import Verif.Props.Mirror
import Verif.Examples.EvalArr
import Verif.Examples.Covariance

/-!
Concrete cases for C129.
-/

namespace Lips

open Matrix

/-- A check of mirror images of names. -/
def mirrorCheck (t t' : List Char) : Bool :=
  match rsubsDict t boldDigits, rsubsDict t' boldDigits with
  | .ok u, .ok u' => decide ((classify u).mirror = some (classify u'))
  | _, _ => false

theorem mirrorNames_of {t t' : List Char} (h : mirrorCheck t t' = true) : MirrorNames t t' := by
  unfold mirrorCheck at h
  rcases h1 : rsubsDict t boldDigits with e | u <;> rcases h2 : rsubsDict t' boldDigits with e' | u' <;> rw [h1, h2] at h
  · cases h
  · cases h
  · cases h
  · exact ⟨u, u', h1, h2, of_decide_eq_true h⟩

/-- Mirror images of names of all kinds. -/
example : [("⟨1|", "|1]"), ("|2⟩", "[2|"), ("⟨1|2⟩", "[2|1]"), ("[1|2]", "⟨2|1⟩"), ("⟨1|2+3|4]", "⟨4|2+3|1]"), ("⟨1|2|3-5|4⟩", "[4|3-5|2|1]"),
    ("[1|2|", "|2|1⟩"), ("|3|4|1]", "⟨1|4|3|"), ("|2|", "|2|"), ("|2|3|4|", "|4|3|2|"), ("tr(1|2+3)", "tr(2+3|1)"), ("s_123", "s_123"),
    ("Δ_12|34|56", "Δ_12|34|56")].all (fun p => mirrorCheck p.1.toList p.2.toList) = true := by decide +kernel

theorem backSquare6 : OpenBeginText 6 "|2+3|1]".toList [[(true, 1), (true, 2)]] 0 ']' :=
  ⟨by decide +kernel, "1".toList, by decide +kernel, .inl ⟨_, rfl, by decide +kernel⟩⟩

/-- With the brackets exchanged the row `⟨1|2+3|` is the column `|2+3|1]`, which is not zero. -/
example (fuel : ℕ) : ∃ v : Matrix (Fin 2) (Fin 1) F13, v ≠ 0 ∧ computeNode pt6 fuel (.oPs "|2+3|1]".toList) = .ok (.arr ⟨2, 1, v⟩) ∧
    computeNode (swapped (f13 .symmetric) pt6) fuel (.oPs "⟨1|2+3|".toList) = .ok (.arr ⟨1, 2, vᵀ⟩) := by
  have hv : computeNode pt6 fuel (.oPs "|2+3|1]".toList) =
      .ok (.arr ⟨2, 1, fun i _ => (chain pt6 true [[(true, 1), (true, 2)]]).mulVec (backOf ']' (spin6 0).1 (spin6 0).2) i⟩) := by
    rw [computeNode]
    simp only [evalArr, leaf_openBegin (f13 .symmetric) pt6 fuel (pt6_massless 0).toHasSpinors backSquare6 (.inr rfl), asScalar]
    rfl
  have key := (C129_values (f13 .symmetric) pt6 (fun k => (pt6_massless k).toHasSpinors) fuel
    (.name (mirrorNames_of (t := "⟨1|2+3|".toList) (t' := "|2+3|1]".toList) (by decide +kernel)))).1 2 1 _ hv
  refine ⟨_, fun e => ?_, hv, key⟩
  have h0 := congrFun (congrFun e 0) 0
  have h1 := congrFun (congrFun e 1) 0
  revert h0 h1
  decide +kernel

/-- `⟨1|(|2| - 3|3|)|4]` and its mirror image `⟨4|(|2| - 3|3|)|1]`. -/
example (fuel : ℕ) : ∃ r r', computeArr pt6 fuel "⟨4|@((|2|-3*|3|)@|1])".toList = some r' ∧
    computeArr (swapped (f13 .symmetric) pt6) fuel "⟨1|@(|2|-3*|3|)@|4]".toList = some r ∧ TransposedRes r' r := by
  refine C129_text (f13 .symmetric) pt6 (fun k => (pt6_massless k).toHasSpinors) fuel
    (a := .bin .matmul (.bin .matmul (.oPs "⟨1|".toList) (.bin .sub (.oPs "|2|".toList) (.bin .mul (.num 3) (.oPs "|3|".toList)))) (.oPs "|4]".toList))
    (a' := .bin .matmul (.oPs "⟨4|".toList) (.bin .matmul (.bin .sub (.oPs "|2|".toList) (.bin .mul (.num 3) (.oPs "|3|".toList))) (.oPs "|1]".toList)))
    (isNode_eq (by decide +kernel)) (isNode_eq (by decide +kernel)) ?_
  exact .matmul (.matmul (.name (mirrorNames_of (by decide +kernel))) (.bin (by decide) (.name (mirrorNames_of (by decide +kernel)))
    (.bin (by decide) (.num 3) (.name (mirrorNames_of (by decide +kernel)))))) (.name (mirrorNames_of (by decide +kernel)))

/-- `tr5` changes its sign. -/
example : Tr5Name "tr5(1|2|3|4)".toList ∧ Tr5Name "tr5_1234".toList :=
  ⟨⟨_, _, rsubs_plain _ (by decide +kernel), rfl⟩, ⟨_, _, rsubs_plain _ (by decide +kernel), rfl⟩⟩

/-- The massive spinor `[1^|` and the massive spinor `|1^⟩`, the indices of both of which are raised with `ϵ`. -/
example : Mirror MirrorNames Tr5Name (highSquareRow "[1|".toList "[2|".toList)
    (.subscript (.bin .matmul (.block (.list [.oPs "|1⟩".toList, .oPs "|2⟩".toList])) (.neg (.neg (.name ['ϵ'])))) [.slice none none, .slice (some 0) (some 1)]) :=
  .both _ _ (.matmul (.neg .eps) (.shortColumn (.name (mirrorNames_of (by decide +kernel))) (.name (mirrorNames_of (by decide +kernel)))))

end Lips

import Verif.Props.RelabelShort
import Verif.Props.RelabelWritten
import Verif.Examples.EvalArr

/-! Names and expressions on the image of a concrete point, meeting the hypotheses of C126. -/

namespace Lips

/-- Labels 1, 2, 3 in a cycle, labels 4 and 5 exchanged. -/
abbrev perm6 : Equiv.Perm (Fin 6) := ⟨![1, 2, 0, 4, 3, 5], ![2, 0, 1, 4, 3, 5], by decide, by decide⟩

/-- The names of all kinds, with their labels renamed. Internal masses keep their names, as does the mass of no particle. -/
example : [("⟨1|2+3|4]", "⟨2|3+1|5]"), ("tr5(1|2|3|4)", "tr5(2|3|1|5)"), ("tr5_1234", "tr5_2315"), ("tr(1+2|3)", "tr(2+3|1)"), ("s_45", "s_54"), ("m_4", "m_5"),
    ("m7", "m7"), ("μ1", "μ1"), ("m_t4", "m_t4"), ("Δ_12|34|56", "Δ_23|15|46"), ("|1]", "|2]"), ("⟨01|", "⟨02|")].all
    (fun q => relabelName perm6 q.1.toList = q.2.toList) = true := by decide +kernel

/-- None of these is a shorthand. -/
example : ¬ Shorthand "tr5(1|2|3|4)".toList ∧ ¬ Shorthand "Δ_12|34|56".toList ∧ ¬ Shorthand "m_4".toList := by
  refine ⟨?_, ?_, ?_⟩ <;> rintro (h | h | h | ⟨h, h'⟩) <;> revert h <;> first | decide | (revert h'; decide)

example (fuel : ℕ) : computeText (moved pt6 perm6) fuel "Δ_23|15|46".toList = computeText pt6 fuel "Δ_12|34|56".toList := by
  have e : "Δ_23|15|46".toList = relabelName perm6 "Δ_12|34|56".toList := by decide +kernel
  rw [e]
  exact C126_names (by decide) pt6 perm6 fuel _ (by decide) (by rintro (h | h | h | ⟨-, h⟩) <;> revert h <;> decide)

/-- A text and the text with its labels renamed; the coefficient is not renamed. -/
example (fuel : ℕ) : computeArr (moved pt6 perm6) fuel "2*⟨2|3+1|5]/s_54-[2|@|3⟩".toList = computeArr pt6 fuel "2*⟨1|2+3|4]/s_45-[1|@|2⟩".toList := by
  refine C126_text (by decide) pt6 perm6 fuel (a := .bin .sub (.bin .div (.bin .mul (.num 2) (.oPs "⟨1|2+3|4]".toList)) (.oPs "s_45".toList))
    (.bin .matmul (.oPs "[1|".toList) (.oPs "|2⟩".toList))) (isNode_eq (by decide +kernel)) (isNode_eq (by decide +kernel)) ?_
  intro t ht
  have : t ∈ ["⟨1|2+3|4]".toList, "s_45".toList, "[1|".toList, "|2⟩".toList] := ht
  simp only [List.mem_cons, List.not_mem_nil, or_false] at this
  rcases this with rfl | rfl | rfl | rfl <;> exact ⟨by decide, by rintro (h | h | h | ⟨h, -⟩) <;> revert h <;> decide⟩

/-- The hypotheses on the particles of `C126_image`. -/
example (eq : Particle F13 → Particle F13 → Bool) (hr : ∀ x, eq x x = true) (hd : ∀ i j, i ≠ j → eq (pt6 i) (pt6 j) = false) :
    ∃ ps' : Point F13 6, imageStr eq (List.ofFn pt6) "231546".toList = .ok (List.ofFn ps') ∧
      computeNode ps' 6 (.oPs "s_23".toList) = computeNode pt6 6 (.oPs "s_12".toList) := by
  have e : "231546".toList = permString perm6 := by decide +kernel
  obtain ⟨ps', h1, h2⟩ := C126_image (by decide) (by decide) eq hr pt6 hd perm6
  refine ⟨ps', by rw [e]; exact h1, ?_⟩
  have e' : Node.rename (relabelName perm6) (.oPs "s_12".toList) = .oPs "s_23".toList := by
    simp only [Node.rename]; exact congrArg Node.oPs (by decide +kernel)
  rw [← e']
  refine h2 6 _ fun t ht => ?_
  obtain rfl : t = "s_12".toList := by simpa [Node.names] using ht
  exact ⟨by decide, by rintro (h | h | h | ⟨h, -⟩) <;> revert h <;> decide⟩

/-- An expression as it is written: a coefficient, a two-bracket without bar, a power, a string, a trace and a Gram determinant. -/
def written6 : List WTok := [.ch '2', .leaf (.two false false ['1'] ['2']), .ch '^', .ch '3', .ch ' ', .ch '-', .leaf (.str '⟨' '1' [⟨true, '2', [('+', '3')]⟩] '4' ']'),
  .ch '*', .leaf (.trace ⟨false, '4', []⟩ [⟨false, '5', [('-', '1')]⟩]), .ch '/', .leaf (.delta "12".toList ["34".toList, "56".toList])]

theorem written6_expression : Expression written6 := by
  refine ⟨?_, ?_⟩
  · intro t ht
    simp only [written6, List.mem_cons, List.not_mem_nil, or_false] at ht
    rcases ht with rfl | rfl | rfl | rfl | rfl | rfl | rfl | rfl | rfl | rfl | rfl <;>
      simp [WTok.Fit, Leaf.Ok, Digits, WSlot.Ok]
  · simp [written6, WTok.blank, WTok.Apart, Leaf.open]

example (fuel : ℕ) : evalChars (leafNum (moved pt6 perm6) fuel) "2⟨23⟩^3 -⟨2|(3+1)|5]*tr(5|4-2)/Δ_23|15|46".toList =
    evalChars (leafNum pt6 fuel) "2⟨12⟩^3 -⟨1|(2+3)|4]*tr(4|5-1)/Δ_12|34|56".toList := by
  have e : "2⟨23⟩^3 -⟨2|(3+1)|5]*tr(5|4-2)/Δ_23|15|46".toList = exprText (written6.map (WTok.relabel (relabelChar perm6))) := by decide +kernel
  have e' : "2⟨12⟩^3 -⟨1|(2+3)|4]*tr(4|5-1)/Δ_12|34|56".toList = exprText written6 := by decide +kernel
  rw [e, e']
  refine C126_written (by decide) pt6 perm6 fuel written6_expression ?_
  intro l hl
  simp only [written6, List.mem_cons, List.not_mem_nil, or_false, WTok.leaf.injEq, reduceCtorEq, false_or] at hl
  rcases hl with rfl | rfl | rfl | rfl <;> rfl

/-- Neither text is one of the names. -/
example : classify (exprText written6) = .expression ∧ classify (exprText (written6.map (WTok.relabel (relabelChar perm6)))) = .expression := by
  decide +kernel

end Lips

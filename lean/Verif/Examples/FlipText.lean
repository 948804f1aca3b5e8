import Verif.Props.FlipText
import Verif.Examples.RelabelText

/-! An expression on a concrete point with angle and square brackets exchanged, meeting the hypotheses of C127. -/

namespace Lips

/-- The signs and brackets of invariants of all kinds. -/
example : exprText (flipExpr ([.two false false ['1'] ['2'], .mandel ['s'] "12".toList, .tr5l "1234".toList, .trace ⟨false, '1', []⟩ [⟨false, '2', []⟩],
      .delta "12".toList ["34".toList], .str '⟨' '1' [⟨false, '2', []⟩] '3' ']', .str '[' '1' [⟨false, '2', []⟩, ⟨false, '3', []⟩] '4' ']',
      .omega "135".toList].flatMap fun l => [.leaf l, .ch ' '])) =
    "(-[12]) s12 (-tr5_1234) tr(2|1) Δ_12|34 [1|2|3⟩ (-⟨1|2|3|4⟩) Ω_135 ".toList := by decide +kernel

theorem written6_even : ∀ i, .leaf i ∈ written6 → i.EvenTrace ∧ i.shorthand = false := by
  intro i hi
  simp only [written6, List.mem_cons, List.not_mem_nil, or_false, WTok.leaf.injEq, reduceCtorEq, false_or] at hi
  rcases hi with rfl | rfl | rfl | rfl <;> simp [Leaf.EvenTrace, Leaf.shorthand]

/-- The text is read. -/
def readsOk (s : List Sym) : Bool := match readText s with | .ok _ => true | .error _ => false

theorem written6_reads : ∃ e, readText (written6.map WTok.sym) = .ok e := by
  have h : readsOk (written6.map WTok.sym) = true := by decide +kernel
  unfold readsOk at h
  cases hr : readText (written6.map WTok.sym) with
  | error e => rw [hr] at h; cases h
  | ok e => exact ⟨e, rfl⟩

example (fuel : ℕ) : evalChars (leafNum (swapped (f13 .symmetric) pt6) fuel) "2⟨12⟩^3 -⟨1|(2+3)|4]*tr(4|5-1)/Δ_12|34|56".toList =
    evalChars (leafNum pt6 fuel) "2(-[12])^3 -[1|(2+3)|4⟩*tr(5-1|4)/Δ_12|34|56".toList := by
  have e' : "2⟨12⟩^3 -⟨1|(2+3)|4]*tr(4|5-1)/Δ_12|34|56".toList = exprText written6 := by decide +kernel
  have e : "2(-[12])^3 -[1|(2+3)|4⟩*tr(5-1|4)/Δ_12|34|56".toList = exprText (flipExpr written6) := by decide +kernel
  obtain ⟨t, ht⟩ := written6_reads
  rw [e, e']
  exact C127_written (f13 .symmetric) pt6 (fun k => (pt6_massless k).toHasSpinors) fuel written6_expression (fun i hi => (written6_even i hi).1) ht

example (eq : Particle F13 → Particle F13 → Bool) (hr : ∀ x, eq x x = true) (hd : ∀ i j, i ≠ j → eq (pt6 i) (pt6 j) = false) (fuel : ℕ) :
    ∃ ps' : Point F13 6, imageRule eq (anglesForSquares (f13 .symmetric)) (List.ofFn pt6) ("231546".toList, true) = .ok (List.ofFn ps') ∧
      evalChars (leafNum ps' fuel) "2⟨23⟩^3 -⟨2|(3+1)|5]*tr(5|4-2)/Δ_23|15|46".toList =
      evalChars (leafNum pt6 fuel) "2(-[12])^3 -[1|(2+3)|4⟩*tr(5-1|4)/Δ_12|34|56".toList := by
  have e1 : "231546".toList = permString perm6 := by decide +kernel
  have e2 : "2⟨23⟩^3 -⟨2|(3+1)|5]*tr(5|4-2)/Δ_23|15|46".toList = exprText (written6.map (WTok.relabel (relabelChar perm6))) := by decide +kernel
  have e3 : "2(-[12])^3 -[1|(2+3)|4⟩*tr(5-1|4)/Δ_12|34|56".toList = exprText (flipExpr written6) := by decide +kernel
  obtain ⟨t, ht⟩ := written6_reads
  obtain ⟨ps', h1, h2⟩ := C127_image (f13 .symmetric) pt6 (fun k => (pt6_massless k).toHasSpinors) (by decide) (by decide) eq hr hd perm6
  rw [e1, e2, e3]
  exact ⟨ps', h1, h2 fuel written6 t written6_expression written6_even ht⟩

/-- Neither text is one of the names, as `C127_call` wants it. -/
example : classify (exprText written6) = .expression ∧ classify (exprText (flipExpr written6)) = .expression := by decide +kernel

end Lips

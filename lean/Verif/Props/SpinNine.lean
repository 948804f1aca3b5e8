import Verif.Examples.EvalArr
import Verif.Props.SpinText

/-!
Property C106, from label nine on: after `[i^|` the piece `|j+k|` is open at both sides and has to be read with its indices exchanged. `_parse`
does so only if the label of the second component has one digit: the patterns look back for `'[\d|')]]))[0:1, :]@`
(particles_eval.py:64, 74).
-/

namespace Lips

/-- Ten particles. -/
def pt10 : Point F13 10 := fun i => pt6 ⟨i % 6, by omega⟩

/-- The number that a text has been evaluated to. -/
def isFld (x : Option (Except Err (PVal F13))) (v : F13) : Bool := match x with
  | some (.ok (.sc (.fld y))) => decide (y = v)
  | _ => false

theorem isFld_eq {x : Option (Except Err (PVal F13))} {v : F13} (h : isFld x v = true) : x = some (.ok (.sc (.fld v))) := by
  unfold isFld at h
  split at h
  · rw [of_decide_eq_true h]
  · simp at h

/-- C106: what Python reads for `[8^|1+2|5_⟩` and for `[9^|1+2|5_⟩`: the first has the piece `|1+2|` with its indices exchanged, the second has
not. -/
theorem C106_nine_partial :
    nodeOf (parseText "[8^|1+2|5_⟩".toList) = some (.bin .matmul (.bin .matmul (highSquareRow "[8|".toList "[9|".toList)
      (flipNode "|1+2|".toList)) (lowAngleCol "|5⟩".toList "|6⟩".toList)) ∧
    nodeOf (parseText "[9^|1+2|5_⟩".toList) = some (.bin .matmul (.bin .matmul (highSquareRow "[9|".toList "[10|".toList)
      (.oPs "|1+2|".toList)) (lowAngleCol "|5⟩".toList "|6⟩".toList)) :=
  ⟨isNode_eq (by decide +kernel), isNode_eq (by decide +kernel)⟩

/-- C106: with `[i^| = -[i+1|` and `|5_⟩ = |6⟩` (`C106_spin_index`) the text `[8^|1+2|5_⟩` has the value `-[9|1+2|6⟩` as it should, and
`[9^|1+2|5_⟩` has not the value `-[10|1+2|6⟩`. -/
theorem C106_nine_wrong : ∃ x y z : F13,
    computeNB pt10 '[' 8 [[(true, 0), (true, 1)]] 5 '⟩' = .ok x ∧
    computeArr pt10 5 "[8^|1+2|5_⟩".toList = some (.ok (.sc (.fld (-x)))) ∧
    computeNB pt10 '[' 9 [[(true, 0), (true, 1)]] 5 '⟩' = .ok y ∧
    computeArr pt10 5 "[9^|1+2|5_⟩".toList = some (.ok (.sc (.fld z))) ∧ z ≠ -y :=
  ⟨10, 0, 2, by decide +kernel, isFld_eq (by decide +kernel), by decide +kernel, isFld_eq (by decide +kernel), by decide +kernel⟩

/-- C106: pieces with one open index and a slot of two digits are broken up. `⟨1|2|@|4]` and `⟨1|@|2|3⟩` are read as two factors; with `10` or
`12` for the slot what is left has a bar that nothing follows or precedes, which Python refuses. -/
theorem C106_two_digits_wrong :
    parseText "⟨1|2|@|4]".toList = "oPs('⟨1|2|')@oPs('|4]')".toList ∧ parseText "⟨1|10|@|4]".toList = "oPs('⟨1|')*10|@oPs('|4]')".toList ∧
    parseText "⟨1|@|2|3⟩".toList = "oPs('⟨1|')@oPs('|2|3⟩')".toList ∧ parseText "⟨1|@|12|3⟩".toList = "oPs('⟨1|')@|12*oPs('|3⟩')".toList ∧
    (nodeOf (parseText "⟨1|10|@|4]".toList)).isSome = false ∧ (nodeOf (parseText "⟨1|@|12|3⟩".toList)).isSome = false := by
  decide +kernel

end Lips

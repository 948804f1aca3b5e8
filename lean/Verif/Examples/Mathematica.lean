import Verif.Props.Mathematica
import Mathlib.Tactic.NormNum

/-!
Concrete cases for C108.
-/

namespace Lips

/-- `-2.5e-3` and `1.0e+2`. -/
theorem small_reads : Signed pyMark "-2.5e-3".toList (-(25 / 10 ^ 1 / 10 ^ 3)) :=
  .neg (.down (t := ['2', '.', '5']) (d := ['3']) (.dec (w := ['2']) (f := ['5']) ⟨by decide, by decide⟩ (by decide)) ⟨by decide, by decide⟩)

theorem large_reads : Signed pyMark "1.0e+2".toList (10 / 10 ^ 1 * 10 ^ 2) :=
  .pos (.plus (t := ['1', '.', '0']) (d := ['2']) (.dec (w := ['1']) (f := ['0']) ⟨by decide, by decide⟩ (by decide)) ⟨by decide, by decide⟩)

theorem pair_reads : CReads ("1.0e+2".toList, "-2.5e-3".toList) (100, -(1 / 400)) :=
  ⟨by have h := large_reads; norm_num at h; exact h, by have h := small_reads; norm_num at h; exact h⟩

/-- C108_momenta: two particles. -/
example : Statements (DeclaresMom pyStr 300) 1
    (momText 300 (List.replicate 2 (("1.0e+2".toList, "-2.5e-3".toList), ("1.0e+2".toList, "-2.5e-3".toList), ("1.0e+2".toList, "-2.5e-3".toList),
      ("1.0e+2".toList, "-2.5e-3".toList))) ++ ['\n'])
    (List.replicate 2 ((100, -(1 / 400)), (100, -(1 / 400)), (100, -(1 / 400)), (100, -(1 / 400)))) :=
  C108_momenta 300 (.cons ⟨pair_reads, pair_reads, pair_reads, pair_reads⟩ (.cons ⟨pair_reads, pair_reads, pair_reads, pair_reads⟩ .nil)) (by simp)

example : momText 300 [(("1.5".toList, "-2.5e-3".toList), ("1.0".toList, "0.0".toList), ("1.0".toList, "0.0".toList), ("1.0e+20".toList, "0.0".toList))] =
    "DeclareSpinorMomentum[1, {SetPrecision[1.5+-2.5*^-3I, 300], SetPrecision[1.0+0.0I, 300], SetPrecision[1.0+0.0I, 300], SetPrecision[1.0*^+20+0.0I, 300] }]".toList := by
  decide +kernel

/-- C108_spinors. -/
theorem complex_reads : PyComplex "(-25-3e-05j)".toList (-25, -(3 / 10 ^ 5)) :=
  .minus (x := ['-', '2', '5']) (y := ['3', 'e', '-', '0', '5']) (.neg (.plain (.int (w := ['2', '5']) ⟨by decide, by decide⟩)))
    (.down (t := ['3']) (d := ['0', '5']) (.int (w := ['3']) ⟨by decide, by decide⟩) ⟨by decide, by decide⟩)

theorem imag_reads : PyComplex "2j".toList (0, 2) := .imag (y := ['2']) (.pos (.plain (.int (w := ['2']) ⟨by decide, by decide⟩)))

example : Statements (DeclaresSpinors pyStr) 1 (spinorText [("(-25-3e-05j)".toList, "2j".toList, "2j".toList, "(-25-3e-05j)".toList)] ++ ['\n'])
    [((-25, -(3 / 10 ^ 5)), (0, 2), (0, 2), (-25, -(3 / 10 ^ 5)))] :=
  C108_spinors (.cons ⟨complex_reads, imag_reads, imag_reads, complex_reads⟩ .nil) (by simp)

example : spinorText [("(-25-3e-05j)".toList, "2j".toList, "2j".toList, "(-25-3e-05j)".toList)] =
    "DeclareSpinorMomentum[Sp[1], {{(-25-3*^-05I)}, {2I}}, {{2I, (-25-3*^-05I)}}]".toList := by decide +kernel

/-- C108_file_quotes, C108_file_partial. -/
example : ¬ ∃ zs, Statements (AssignsSpinor lambdaName pyStr) 1
    (rFileText [(("1.0e+2".toList, "-2.5e-3".toList), ("1.0e+2".toList, "-2.5e-3".toList))]) zs := (C108_file_quotes _ (by simp)).1

example : Statements (AssignsSpinor lambdaName pyStr) 1
    (unquote (rFileText [(("1.0e+2".toList, "-2.5e-3".toList), ("1.0e+2".toList, "-2.5e-3".toList))])) [((100, -(1 / 400)), (100, -(1 / 400)))] :=
  (C108_file_partial (.cons ⟨pair_reads, pair_reads⟩ .nil)).1

example : rFileText [(("1.5".toList, "-2.5e-3".toList), ("1.0".toList, "0.0".toList))] =
    "Subscript[\\[Lambda], 1,1] = 1.5'+-2.5*^-3'I;\nSubscript[\\[Lambda], 1,2] = 1.0'+0.0'I;\n".toList := by decide +kernel

end Lips

import Verif.Props.ExprChange
import Verif.Examples.FieldChange
import Verif.Props.Dispatch
import Verif.Props.Slices

/-!
Concrete cases for C120.
-/

namespace Lips

open Matrix MvPolynomial

/-- A quotient of two invariants is evaluated as one, if the second one is not zero. -/
theorem ratioText {K : Type*} [Field K] {n : ℕ} (ps : Point K n) (fuel : ℕ) {a b : K} (ha : computeText ps fuel "⟨1|2⟩".toList = some (.ok (.num a)))
    (hb : computeText ps fuel "[1|2]".toList = some (.ok (.num b))) :
    (b ≠ 0 → callNumber ps fuel "⟨1|2⟩/[1|2]".toList = some (.ok (a / b))) ∧
      (b = 0 → callNumber ps fuel "⟨1|2⟩/[1|2]".toList = some (.error .zeroDivision)) := by
  have h1 : leafNum ps fuel "⟨1|2⟩".toList = .ok a := by unfold leafNum; rw [ha]
  have h2 : leafNum ps fuel "[1|2]".toList = .ok b := by unfold leafNum; rw [hb]
  have h3 : rsubsDict "⟨1|2⟩/[1|2]".toList boldDigits = .ok "⟨1|2⟩/[1|2]".toList := by decide +kernel
  have h4 : classify "⟨1|2⟩/[1|2]".toList = .expression := by decide +kernel
  have h5 : lexChars ((parseText "⟨1|2⟩/[1|2]".toList).length + 1) (parseText "⟨1|2⟩/[1|2]".toList) =
      some (.ok [.atom (.leaf "⟨1|2⟩".toList), .slash, .atom (.leaf "[1|2]".toList)]) := by decide +kernel
  have h6 : astParse [Tok.atom (EAtom.leaf "⟨1|2⟩".toList), .slash, .atom (.leaf "[1|2]".toList)] =
      .ok (.div (.atom (.leaf "⟨1|2⟩".toList)) (.atom (.leaf "[1|2]".toList))) := by decide +kernel
  have h7 : evalChars (leafNum ps fuel) "⟨1|2⟩/[1|2]".toList = some (vDiv (.fld a) (.fld b)) := by
    unfold evalChars
    rw [h5]
    simp only [h6, evalNode, h1, h2, lift₂]
  have h8 : callText ps fuel "⟨1|2⟩/[1|2]".toList = some (match vDiv (.fld a) (.fld b) with
      | .ok v => .ok (.inr v)
      | .error e => .error e) := by
    unfold callText
    rw [h3]
    simp only [if_pos h4, h7, Option.map_some]
    rcases vDiv (EVal.fld a) (EVal.fld b) with e | v <;> rfl
  unfold callNumber
  rw [h8]
  refine ⟨fun h0 => ?_, fun h0 => ?_⟩
  · rw [show vDiv (.fld a) (.fld b) = .ok (.fld (a / b)) from if_neg h0]
    rfl
  · rw [show vDiv (.fld a) (.fld b) = .error .zeroDivision from if_pos h0]

/-- The quotient `⟨1|2⟩/[1|2]` of five particles over `F13` is the value of a rational function in twenty symbols. -/
example (c' : Ctx (Rat' F13 (Fin 5 × Fin 4))) (ps₀ : Point (Rat' F13 (Fin 5 × Fin 4)) 5) (r₀ l₀) (h0 : Spin c' ps₀ r₀ l₀) :
    ∃ qs x y, makeAnalytical c' ps₀ none (fun k j => algebraMap (MvPolynomial (Fin 5 × Fin 4) F13) (Rat' F13 (Fin 5 × Fin 4)) (X (k, j))) = .ok qs ∧
      callNumber qs 0 "⟨1|2⟩/[1|2]".toList = some (.ok x) ∧ callNumber pt5 0 "⟨1|2⟩/[1|2]".toList = some (.ok y) ∧ y ≠ 0 ∧
      ValueAt (fun s : Fin 5 × Fin 4 => ![(spin5 s.1).1 0, (spin5 s.1).1 1, (spin5 s.1).2 0, (spin5 s.1).2 1] s.2) x y := by
  obtain ⟨qs, h1, h2⟩ := C120_symbols pt5_massless h0
  obtain ⟨a, ha, ha0⟩ : ∃ a : F13, computeText pt5 0 "⟨1|2⟩".toList = some (.ok (.num a)) ∧ a ≠ 0 := ⟨_, rfl, by decide⟩
  obtain ⟨b, hb, hb0⟩ : ∃ b : F13, computeText pt5 0 "[1|2]".toList = some (.ok (.num b)) ∧ b ≠ 0 := ⟨_, rfl, by decide⟩
  have hy := (ratioText pt5 0 ha hb).1 hb0
  obtain ⟨x, hx, hv⟩ := (h2 0 _).1 _ hy
  exact ⟨qs, x, a / b, h1, hx, hy, div_ne_zero ha0 hb0, hv⟩

/-- Where the two results differ: over the 7-adic numbers `[1|2]` is 7, so that the quotient exists, and is not an integer; the reduced point divides
by zero. -/
noncomputable def sevenSpinors : Fin 2 → V2 ℚ_[7] × V2 ℚ_[7] := ![(![1, 0], ![1, 0]), (![0, 1], ![0, 7])]

example (c : Ctx ℚ_[7]) (c' : Ctx (ZMod 7)) : ∃ qs x, reducePoint residue c' (spinPoint c sevenSpinors) = .ok qs ∧
    callNumber (spinPoint c sevenSpinors) 0 "⟨1|2⟩/[1|2]".toList = some (.ok x) ∧
    callNumber qs 0 "⟨1|2⟩/[1|2]".toList = some (.error .zeroDivision) := by
  have int : ∀ z : ℤ, ‖(z : ℚ_[7])‖ ≤ 1 := Padic.norm_int_le_one
  have hr : ∀ k i, ‖(sevenSpinors k).1 i‖ ≤ 1 := fun k i => by fin_cases k <;> fin_cases i <;> simp [sevenSpinors]
  have hl : ∀ k i, ‖(sevenSpinors k).2 i‖ ≤ 1 := fun k i => by
    fin_cases k <;> fin_cases i
    · simp [sevenSpinors]
    · simp [sevenSpinors]
    · simp [sevenSpinors]
    · simpa [sevenSpinors] using int 7
  have hs := spinPoint_isMassless c sevenSpinors
  obtain ⟨qs, h1, -, h3⟩ := C118_padic (by norm_num) c' hs hr hl
  have ha : computeText (spinPoint c sevenSpinors) 0 "⟨1|2⟩".toList = _ := C82_angle (spinPoint c sevenSpinors) 0 '⟨' '⟩' (by simp) (by simp) 0 1
  have hb : computeText (spinPoint c sevenSpinors) 0 "[1|2]".toList = _ := C82_square (spinPoint c sevenSpinors) 0 0 1
  rw [Spin.angle hs] at ha
  rw [Spin.square hs] at hb
  have e : SpecSquare (sevenSpinors 0).2 (sevenSpinors 1).2 = 7 ∨ SpecSquare (sevenSpinors 0).2 (sevenSpinors 1).2 = -7 := by
    simp [SpecSquare, sevenSpinors]
  have n7 : ‖(7 : ℚ_[7])‖ < 1 := by
    exact_mod_cast Padic.norm_p_lt_one (p := 7)
  have hb0 : SpecSquare (sevenSpinors 0).2 (sevenSpinors 1).2 ≠ 0 := by rcases e with e | e <;> rw [e] <;> norm_num
  have hb1 : ‖SpecSquare (sevenSpinors 0).2 (sevenSpinors 1).2‖ < 1 := by
    rcases e with e | e
    · rw [e]; exact n7
    · rw [e, norm_neg]; exact n7
  obtain ⟨a', ha', -⟩ := h3 0 _ _ ha
  obtain ⟨b', hb', -, hz⟩ := h3 0 _ _ hb
  exact ⟨qs, _, h1, (ratioText _ 0 ha hb).1 hb0, (ratioText qs 0 ha' hb').2 (hz.2 hb1)⟩

end Lips

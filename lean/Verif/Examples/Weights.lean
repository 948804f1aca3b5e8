import Verif.Props.Weights
import Verif.Examples.ExprChange

/-!
Concrete cases for C121 and C122.
-/

namespace Lips

open Matrix

/-- `⟨1|2⟩/[1|2]` as it is written. -/
def ratioToks : List WTok := [.leaf (.two false true ['1'] ['2']), .ch '/', .leaf (.two true true ['1'] ['2'])]

theorem ratioToks_expression : Expression ratioToks := by
  have ok : ∀ b : Bool, (Leaf.two b true ['1'] ['2']).Ok := by intro b; simp only [Leaf.Ok, Digits]; decide +revert
  refine ⟨?_, ?_⟩
  · intro t ht
    simp only [ratioToks, List.mem_cons, List.not_mem_nil, or_false] at ht
    rcases ht with rfl | rfl | rfl <;> first | exact ok false | exact ok true | (simp only [WTok.Fit]; decide)
  · simp only [ratioToks, WTok.blank, List.filter]
    simp [WTok.Apart, Leaf.open]

theorem ratioToks_text : exprText ratioToks = "⟨1|2⟩/[1|2]".toList := by decide +kernel

/-- C121: the quotient is the same number, not zero, after a boost of five particles. -/
example : ∃ x : F13, x ≠ 0 ∧ callNumber pt5 0 "⟨1|2⟩/[1|2]".toList = some (.ok x) ∧
    callNumber (fun k => (ofSpinors (f13 .symmetric) ((!![2, 3; 1, 2] : M2 F13).mulVec (spin5 k).1) (vecMul (spin5 k).2 !![1, 4; 0, 1])).st) 0
      "⟨1|2⟩/[1|2]".toList = some (.ok x) := by
  obtain ⟨a, ha, ha0⟩ : ∃ a : F13, computeText pt5 0 "⟨1|2⟩".toList = some (.ok (.num a)) ∧ a ≠ 0 := ⟨_, rfl, by decide⟩
  obtain ⟨b, hb, hb0⟩ : ∃ b : F13, computeText pt5 0 "[1|2]".toList = some (.ok (.num b)) ∧ b ≠ 0 := ⟨_, rfl, by decide⟩
  have hy := (ratioText pt5 0 ha hb).1 hb0
  have H := C20_images_exist (f13 .symmetric) !![2, 3; 1, 2] !![1, 4; 0, 1] (by decide) (by decide) pt5 _ _ pt5_massless
  have key := C121_expression _ _ _ _ _ H (fun k => .inl ⟨_, _, (pt5_massless k).r_d, (pt5_massless k).l_d⟩) 0 ratioToks ratioToks_expression
    (by rw [ratioToks_text]; decide +kernel)
    (by
      intro l hl
      simp only [ratioToks, List.mem_cons, List.not_mem_nil, or_false, WTok.leaf.injEq, reduceCtorEq, false_or] at hl
      rcases hl with rfl | rfl <;> trivial)
  rw [ratioToks_text] at key
  exact ⟨_, div_ne_zero ha0 hb0, hy, key.trans hy⟩

/-- The point with the spinors of the first particle rescaled. -/
theorem pt5_little : LittleGroup (f13 .symmetric) 0 5 pt5
    (Function.update pt5 0 (ofSpinors (f13 .symmetric) ((5 : F13) • (spin5 0).1) ((5 : F13)⁻¹ • (spin5 0).2)).st) where
  t0 := by decide
  others := fun k hk => Function.update_of_ne hk _ _
  cons := (pt5_massless 0).cons
  cons' := by rw [Function.update_self]; exact (ofSpinors_isMassless _ _ _).cons
  massless := (pt5_massless 0).massless
  spinors := by
    refine ⟨_, _, (pt5_massless 0).r_d, (pt5_massless 0).l_d, ?_, ?_⟩
    · rw [Function.update_self]; exact (ofSpinors_isMassless _ _ _).r_d
    · rw [Function.update_self]; exact (ofSpinors_isMassless _ _ _).l_d
  massless' := by rw [Function.update_self]; exact (ofSpinors_isMassless _ _ _).massless

/-- The items of the quotient. -/
def ratioItems : List Item :=
  [{ tok := .atom (.leaf "⟨1|2⟩".toList) }, { tok := .slash }, { tok := .atom (.leaf "[1|2]".toList) }]

theorem ratioItems_short : ¬ LongExponent (ratioItems.map Item.tok) := by
  rintro ⟨pre, a, b, post, h, ha⟩
  have hm : (Tok.dstar : Tok EAtom) ∈ pre ++ .dstar :: .atom (.num a) :: .slash :: .atom (.num b) :: post := by simp
  rw [← h] at hm
  simp [ratioItems] at hm

/-- C122: the quotient has little-group weight two for the first particle: it is multiplied by 25. -/
example : callNumber (Function.update pt5 0 (ofSpinors (f13 .symmetric) ((5 : F13) • (spin5 0).1) ((5 : F13)⁻¹ • (spin5 0).2)).st) 0
    "⟨1|2⟩/[1|2]".toList = (callNumber pt5 0 "⟨1|2⟩/[1|2]".toList).map (Except.map ((5 : F13) ^ (2 : ℤ) * ·)) := by
  obtain ⟨e', h1, h2⟩ := C122_little_group_expression (f13 .symmetric) 0 5 pt5 _ pt5_little 0 ratioToks ratioToks_expression
    (by rw [ratioToks_text]; decide +kernel) 0 ratioItems (.div (.atom (.leaf "⟨1|2⟩".toList)) (.atom (.leaf "[1|2]".toList))) (by decide +kernel)
    ((C81_grammar _ _).mp (by decide +kernel)) (by simp [ratioItems]) (by simp [ratioItems, HiddenOk]) ratioItems_short
  have h3 := (C81_grammar _ _).mpr h1
  have h4 : astParse (taken false (ratioItems.map Item.tok)) = .ok (.div (.atom (.leaf "⟨1|2⟩".toList)) (.atom (.leaf "[1|2]".toList))) := by
    decide +kernel
  rw [h4] at h3
  cases h3
  rw [ratioToks_text] at h2
  exact h2 2 (by decide +kernel)

/-- C122: `s_123` is multiplied by 81 when all spinors are multiplied by 3. -/
example : callNumber (fun k => (ofSpinors (f13 .symmetric) ((3 : F13) • (spin5 k).1) ((3 : F13) • (spin5 k).2)).st) 0 "s_123".toList =
    (callNumber pt5 0 "s_123".toList).map (Except.map ((3 ^ 2 : F13) ^ (2 : ℤ) * ·)) :=
  C122_dimension (f13 .symmetric) 3 pt5 _ ⟨by decide, fun k => .inl ⟨_, _, pt5_massless k, ofSpinors_isMassless _ _ _⟩⟩ 0 _ 2 (by decide +kernel)

example : ∃ x : F13, callNumber pt5 0 "s_123".toList = some (.ok x) ∧ x ≠ 0 :=
  ⟨computeS pt5 [0, 1, 2], callNumber_text pt5 0 (by rfl), by
    rw [C15_sum_of_pairs (f13 .symmetric) pt5 [0, 1, 2] _ _ (fun k _ => pt5_massless k)]
    decide⟩

end Lips

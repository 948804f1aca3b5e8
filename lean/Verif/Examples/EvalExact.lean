import Verif.Props.ParseExact
import Mathlib.Tactic.NormNum

/-! C81 and C94 on texts with quotients of literals where they are taken first. -/

namespace Lips

/-- `x/2/3 - 5**2/7`: a divisor, and a numerator that is directly an exponent. -/
def quotientItems : List Item :=
  [{ tok := .atom (.leaf ['x']) }, { tok := .slash }, { tok := .atom (.num 2) }, { tok := .slash }, { tok := .atom (.num 3), blanks := 1 },
    { tok := .minus, blanks := 1 }, { tok := .atom (.num 5) }, { tok := .dstar }, { tok := .atom (.num 2) }, { tok := .slash },
    { tok := .atom (.num 7) }]

/-- `x**12/3`. -/
def exponentItems : List Item :=
  [{ tok := .atom (.leaf ['x']) }, { tok := .dstar }, { tok := .atom (.num 12) }, { tok := .slash }, { tok := .atom (.num 3) }]

theorem quotientItems_short : ¬ LongExponent (quotientItems.map Item.tok) := by
  rintro ⟨pre, a, b, post, h, ha⟩
  have hl : pre.length = 7 := by
    have hs : ∀ n < 11, n ≠ 7 → ((quotientItems.map Item.tok).drop n).head? ≠ some .dstar := by decide +kernel
    by_contra hne
    refine hs pre.length ?_ hne ?_
    · have := congrArg List.length h; simp [quotientItems] at this; omega
    · rw [h]; simp
  have h8 : ((quotientItems.map Item.tok).drop 8).head? = some (.atom (.num a)) := by rw [h, show 8 = pre.length + 1 by omega]; simp
  simp [quotientItems] at h8
  omega

/-- How it is read: `x/(2/3) - 5**2/7`. -/
example : taken false (quotientItems.map Item.tok) =
    [.atom (.leaf ['x']), .slash, .atom (.rat 2 3), .minus, .atom (.num 5), .dstar, .atom (.num 2), .slash, .atom (.num 7)] := by decide

/-- The hypotheses of `C81_exact` are met, and its conclusion is about the tree `x/(2/3) - 5**2/7`. -/
example (leaf : List Char → Except Err ℚ) :
    ∃ e', Reads .expr (taken false (quotientItems.map Item.tok)) e' ∧
      e' = .sub (.div (.atom (.leaf ['x'])) (.atom (.rat 2 3))) (.div (.pow (.atom (.num 5)) (.atom (.num 2))) (.atom (.num 7))) ∧
      (∀ v, e'.value (atomValue fun i => (leaf i).toOption) atomInt = some v →
        ∃ w, evalText leaf (written 0 quotientItems) = .ok w ∧ (e'.ty = none ↔ w = .other) ∧ (e'.ty ≠ none → w.toField = .ok v)) := by
  obtain ⟨e', h1, h2, -⟩ := C81_exact leaf 0 quotientItems
    (.sub (.div (.div (.atom (.leaf ['x'])) (.atom (.num 2))) (.atom (.num 3))) (.div (.pow (.atom (.num 5)) (.atom (.num 2))) (.atom (.num 7))))
    ((C81_grammar _ _).mp (by decide +kernel)) (by simp [quotientItems]) (by simp [quotientItems, HiddenOk]) quotientItems_short
  have h3 := (C81_grammar _ _).mpr h1
  have h4 : astParse (taken false (quotientItems.map Item.tok)) =
      .ok (.sub (.div (.atom (.leaf ['x'])) (.atom (.rat 2 3))) (.div (.pow (.atom (.num 5)) (.atom (.num 2))) (.atom (.num 7)))) := by decide +kernel
  rw [h4] at h3
  cases h3
  exact ⟨_, h1, rfl, h2⟩

/-- `x**12/3` is not read. -/
example : readText (written 0 exponentItems) = .error .syntaxError :=
  C81_long_exponent 0 exponentItems (.div (.pow (.atom (.leaf ['x'])) (.atom (.num 12))) (.atom (.num 3)))
    ((C81_grammar _ _).mp (by decide +kernel)) (by simp [exponentItems, HiddenOk])
    ⟨[.atom (.leaf ['x'])], 12, 3, [], rfl, by norm_num⟩

/-- `⟨12⟩/2/3` in characters. -/
example (leaf : List Char → Except Err ℚ) (x : ℚ) (hx : leaf (Leaf.name (.two false false ['1'] ['2'])) = .ok x) :
    ∃ w, evalChars leaf "⟨12⟩/2/3".toList = some (.ok w) ∧ (w ≠ .other → w.toField = .ok (3 * x / 2)) := by
  have ok : (Leaf.two false false ['1'] ['2']).Ok := by simp only [Leaf.Ok, Digits]; decide
  have he : Expression [.leaf (.two false false ['1'] ['2']), .ch '/', .ch '2', .ch '/', .ch '3'] := by
    refine ⟨?_, ?_⟩
    · intro t ht
      simp only [List.mem_cons, List.not_mem_nil, or_false] at ht
      rcases ht with rfl | rfl | rfl | rfl | rfl <;> first | exact ok | (simp only [WTok.Fit]; decide)
    · simp only [WTok.blank, List.filter]
      simp [WTok.Apart, Leaf.open]
  obtain ⟨e', h1, h2, -⟩ := C94_exact leaf _ he 0 [{ tok := .atom (.leaf (Leaf.name (.two false false ['1'] ['2']))) }, { tok := .slash },
    { tok := .atom (.num 2) }, { tok := .slash }, { tok := .atom (.num 3) }]
    (.div (.div (.atom (.leaf (Leaf.name (.two false false ['1'] ['2'])))) (.atom (.num 2))) (.atom (.num 3))) (by decide +kernel)
    ((C81_grammar _ _).mp (by decide +kernel)) (by simp) (by simp [HiddenOk]) (by
      rintro ⟨pre, a, b, post, h, ha⟩
      have hm : (Tok.dstar : Tok EAtom) ∈ pre ++ .dstar :: .atom (.num a) :: .slash :: .atom (.num b) :: post := by simp
      rw [← h] at hm
      simp at hm)
  have h3 := (C81_grammar _ _).mpr h1
  have h4 : astParse (taken false [Tok.atom (EAtom.leaf (Leaf.name (.two false false ['1'] ['2']))), .slash, .atom (.num 2), .slash, .atom (.num 3)]) =
      .ok (.div (.atom (.leaf (Leaf.name (.two false false ['1'] ['2'])))) (.atom (.rat 2 3))) := by decide +kernel
  simp only [List.map_cons, List.map_nil] at h3
  rw [h4] at h3
  cases h3
  have := h2 (3 * x / 2) (by
    simp [Ast.value, atomValue, quotient, hx, Except.toOption]; ring)
  rw [show exprText [.leaf (.two false false ['1'] ['2']), .ch '/', .ch '2', .ch '/', .ch '3'] = "⟨12⟩/2/3".toList by decide +kernel] at this
  exact this

end Lips

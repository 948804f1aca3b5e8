import Verif.Props.Parse
import Mathlib.Tactic.NormNum

/-! C94 on a text with blanks, a product left out, a caret, a fraction and invariants of several kinds. -/

namespace Lips

/-- `⟨12⟩`. -/
def leafA : Leaf := .two false false ['1'] ['2']
/-- `⟨1|2+3|(4+5)|6⟩`. -/
def leafB : Leaf := .str '⟨' '1' [⟨false, '2', [('+', '3')]⟩, ⟨true, '4', [('+', '5')]⟩] '6' '⟩'
/-- `S123`. -/
def leafC : Leaf := .mandel "S".toList ['1', '2', '3']

theorem leafA_ok : leafA.Ok := by simp only [leafA, Leaf.Ok, Digits]; decide
theorem leafB_ok : leafB.Ok := by
  simp only [leafB, Leaf.Ok, WSlot.Ok]
  refine ⟨by decide, by decide, by decide, by decide, by decide, ?_⟩
  intro s hs
  simp only [List.mem_cons, List.not_mem_nil, or_false] at hs
  rcases hs with rfl | rfl <;> simp
theorem leafC_ok : leafC.Ok := by simp only [leafC, Leaf.Ok, Digits]; decide

/-- ` 2⟨12⟩^2 - 1/3(⟨1|2+3|(4+5)|6⟩+S123)`. -/
def sampleText : List WTok :=
  [.ch ' ', .ch '2', .leaf leafA, .ch '^', .ch '2', .ch ' ', .ch '-', .ch ' ', .ch '1', .ch '/', .ch '3', .ch '(', .leaf leafB, .ch '+',
    .leaf leafC, .ch ')']

theorem sampleText_expression : Expression sampleText := by
  refine ⟨?_, ?_⟩
  · intro t ht
    simp only [sampleText, List.mem_cons, List.not_mem_nil, or_false] at ht
    rcases ht with rfl | rfl | rfl | rfl | rfl | rfl | rfl | rfl | rfl | rfl | rfl | rfl | rfl | rfl | rfl | rfl <;>
      first | exact leafA_ok | exact leafB_ok | exact leafC_ok | (simp only [WTok.Fit]; decide)
  · simp only [sampleText, WTok.blank, List.filter, leafA, leafB, leafC]
    simp [WTok.Apart, Leaf.open]

example : exprText sampleText = " 2⟨12⟩^2 - 1/3(⟨1|2+3|(4+5)|6⟩+S123)".toList := by decide +kernel

example : parseText " 2⟨12⟩^2 - 1/3(⟨1|2+3|(4+5)|6⟩+S123)".toList =
    "2*oPs('⟨1|2⟩')**2-Fraction(1,3)*(oPs('⟨1|2+3|(4+5)|6⟩')+oPs('s_123'))".toList := by decide +kernel

/-- Its parts. -/
def parseItems : List Item :=
  [{ tok := .atom (.num 2) }, { tok := .star, hidden := true }, { tok := .atom (.leaf leafA.name) }, { tok := .dstar, caret := true },
    { tok := .atom (.num 2), blanks := 1 }, { tok := .minus, blanks := 1 }, { tok := .atom (.num 1) }, { tok := .slash },
    { tok := .atom (.num 3) }, { tok := .star, hidden := true }, { tok := .lpar }, { tok := .atom (.leaf leafB.name) }, { tok := .plus },
    { tok := .atom (.leaf leafC.name) }, { tok := .rpar }]

theorem parseItems_clear : Clear (parseItems.map Item.tok) := by
  intro pre a b post h
  right
  have hl : pre.length = 6 := by
    have hs : ∀ n < 15, n ≠ 6 → ((parseItems.map Item.tok).drop (n + 1)).head? ≠ some .slash := by decide +kernel
    by_contra hne
    refine hs pre.length ?_ hne ?_
    · have := congrArg List.length h; simp [parseItems] at this; omega
    · rw [h]; simp
  have hp : pre = (parseItems.map Item.tok).take 6 := by rw [h, ← hl]; simp
  have hq : post = (parseItems.map Item.tok).drop 9 := by rw [h, show 9 = pre.length + 3 by omega]; simp
  rw [hp, hq]
  decide +kernel

theorem parseItems_reads : Reads (α := EAtom) .expr (parseItems.map Item.tok)
    (.sub (.mul (.atom (.num 2)) (.pow (.atom (.leaf leafA.name)) (.atom (.num 2))))
      (.mul (.div (.atom (.num 1)) (.atom (.num 3))) (.add (.atom (.leaf leafB.name)) (.atom (.leaf leafC.name))))) :=
  (C81_grammar _ _).mp (by decide +kernel)

/-- With 5 for `⟨1|2⟩`, 2 for the string and 1 for `s_123` the value is 49. -/
example (leaf : List Char → Except Err ℚ) (h1 : leaf "⟨1|2⟩".toList = .ok 5) (h2 : leaf "⟨1|2+3|(4+5)|6⟩".toList = .ok 2)
    (h3 : leaf "s_123".toList = .ok 1) :
    ∃ w, evalChars leaf " 2⟨12⟩^2 - 1/3(⟨1|2+3|(4+5)|6⟩+S123)".toList = some (.ok w) ∧ (w ≠ .other → w.toField = .ok 49) := by
  have a : leafA.name = "⟨1|2⟩".toList := by decide +kernel
  have b : leafB.name = "⟨1|2+3|(4+5)|6⟩".toList := by decide +kernel
  have c : leafC.name = "s_123".toList := by decide +kernel
  rw [← a] at h1
  rw [← b] at h2
  rw [← c] at h3
  have := C94_value_partial leaf sampleText sampleText_expression 1 parseItems _ 49 (by decide +kernel) parseItems_reads
    (by simp [parseItems]) (by simp [parseItems, HiddenOk, Joins]) parseItems_clear (by
      simp [Ast.value, Ast.int, atomValue, atomInt, quotient, power, h1, h2, h3, Except.toOption]; norm_num)
  rw [show exprText sampleText = " 2⟨12⟩^2 - 1/3(⟨1|2+3|(4+5)|6⟩+S123)".toList by decide +kernel] at this
  exact this

/-- `compute` takes it for an expression. -/
example : classify (exprText sampleText) = .expression := by decide +kernel

end Lips

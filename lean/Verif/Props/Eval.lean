import Verif.Props.EvalValue

/-!
C81: the value of an arithmetic text of invariants.
-/

namespace Lips

variable {K : Type*} [Field K]

/-- How the author of a text writes a token: a product may be left out, a power may be written `^`, blanks may follow. -/
structure Item where
  tok : Tok EAtom
  hidden : Bool := false
  caret : Bool := false
  blanks : ℕ := 0

/-- The symbols of an item. -/
def Item.syms (i : Item) : List Sym :=
  (if i.hidden then [] else if i.caret ∧ i.tok = .dstar then [.ch '^'] else tokSyms i.tok) ++ List.replicate i.blanks (.ch ' ')

/-- A text. -/
def written (lead : ℕ) (its : List Item) : List Sym := List.replicate lead (.ch ' ') ++ its.flatMap Item.syms

theorem tokSyms_plain (t : Tok EAtom) : ∀ x ∈ tokSyms t, x ≠ .ch ' ' ∧ x ≠ .ch '^' := by
  have hd : ∀ c : Char, c.isDigit = true → Sym.ch c ≠ .ch ' ' ∧ Sym.ch c ≠ .ch '^' := by
    intro c hc
    refine ⟨?_, ?_⟩ <;> (intro h; cases h; exact absurd hc (by decide))
  rcases t with (k | ⟨a, b⟩ | i) | _ | _ | _ | _ | _ | _ | _
  · intro x hx
    obtain ⟨c, hc, rfl⟩ := List.mem_map.mp hx
    exact hd c (pyStr_digits k c hc)
  · intro x hx
    obtain ⟨c, hc, rfl⟩ := List.mem_map.mp hx
    rcases List.mem_append.mp hc with hc | hc
    · exact hd c (pyStr_digits a c hc)
    · rcases List.mem_cons.mp hc with rfl | hc
      · decide
      · exact hd c (pyStr_digits b c hc)
  all_goals simp [tokSyms]

theorem plain_signs (s : List Sym) (h : ∀ x ∈ s, x ≠ .ch ' ' ∧ x ≠ .ch '^') : powerSigns (noBlanks s) = s := by
  induction s with
  | nil => rfl
  | cons x s ih =>
    have h1 := h x List.mem_cons_self
    have h2 := ih fun y hy => h y (List.mem_cons_of_mem _ hy)
    simp only [noBlanks, powerSigns] at h2 ⊢
    rw [List.filter_cons_of_pos (by simpa using h1.1), List.flatMap_cons, h2, if_neg h1.2]
    rfl

theorem signs_append (s t : List Sym) : powerSigns (noBlanks (s ++ t)) = powerSigns (noBlanks s) ++ powerSigns (noBlanks t) := by
  simp [noBlanks, powerSigns]

theorem signs_blanks (n : ℕ) : powerSigns (noBlanks (List.replicate n (.ch ' '))) = [] := by
  simp [noBlanks, powerSigns]

theorem signs_written (lead : ℕ) (its : List Item) :
    powerSigns (noBlanks (written lead its)) = hiddenText (its.map fun i => (i.tok, i.hidden)) := by
  rw [written, signs_append, signs_blanks, List.nil_append]
  induction its with
  | nil => rfl
  | cons i its ih =>
    rw [List.flatMap_cons, signs_append, ih, Item.syms, signs_append, signs_blanks, List.append_nil]
    rw [hiddenText, hiddenText, List.map_cons, List.flatMap_cons]
    congr 1
    cases hh : i.hidden with
    | true => rfl
    | false =>
      simp only [Bool.false_eq_true, if_false]
      split_ifs with hc
      · rw [hc.2]; decide
      · exact plain_signs _ (tokSyms_plain i.tok)

/-- What `ast.parse` makes of a clear text. -/
theorem readText_written (leaf : List Char → Option K) (lead : ℕ) (its : List Item) (e : Ast EAtom)
    (hr : Reads .expr (its.map Item.tok) e) (hn : ∀ i ∈ its, ∀ a b, i.tok ≠ .atom (.rat a b))
    (hh : HiddenOk (its.map fun i => (i.tok, i.hidden))) (hc : Clear (its.map Item.tok)) :
    ∃ e', readText (written lead its) = .ok e' ∧ e'.value (atomValue leaf) atomInt = e.value (atomValue leaf) atomInt := by
  obtain ⟨gs, e', hg, -⟩ := grouping leaf hr (by
    intro a b hm
    obtain ⟨i, hi, h⟩ := List.mem_map.mp hm
    exact hn i hi a b h) [] [] (by simpa using hc)
  refine ⟨e', ?_, hg.value⟩
  have h1 : implicitProducts (powerSigns (noBlanks (written lead its))) = gs.flatMap tokSyms := by
    rw [signs_written, implicit_text _ hh (by simpa [Function.comp_def] using hr.shape.chain), ← flat_syms gs, hg.flat]
    simp [Function.comp_def]
  have hs := hg.reads.shape
  have h2 : prepare (written lead its) = gs.flatMap tokEmit := by
    simp only [prepare]
    rw [h1]
    exact fractions_text gs hs.chain false false hg.ok (fun _ _ _ => rfl) _ le_rfl none none ⟨by simp, by simp⟩
  rw [readText, h2, lexer_text gs hs.chain]
  exact (C81_grammar gs e').mpr hg.reads

/-- C81: a text of ordinary arithmetic over integer literals and invariants, in whatever way products, powers and blanks
are written, in which quotients of two literals are neither divisors, exponents nor raised to powers, and whose value is
defined. Evaluating it succeeds; unless the result is a float, it is that value.
Not so for the other quotients of literals (`C81_fraction_power`, `C81_fraction_divisor`, `C81_fraction_exponent`); how these texts
are read is `C81_exact`. Nor when the result is a float: exactly when the tree Python reads has a quotient or a negative power of integers
(`C81_integer_quotient`). -/
theorem C81_value_partial (leaf : List Char → Except Err K) (lead : ℕ) (its : List Item) (e : Ast EAtom) (v : K)
    (hr : Reads .expr (its.map Item.tok) e) (hn : ∀ i ∈ its, ∀ a b, i.tok ≠ .atom (.rat a b))
    (hh : HiddenOk (its.map fun i => (i.tok, i.hidden))) (hc : Clear (its.map Item.tok))
    (hv : e.value (atomValue fun i => (leaf i).toOption) atomInt = some v) :
    ∃ e' w, readText (written lead its) = .ok e' ∧ evalText leaf (written lead its) = .ok w ∧
      (e'.ty = none ↔ w = .other) ∧ (e'.ty ≠ none → w.toField = .ok v) := by
  obtain ⟨e', h1, h2⟩ := readText_written (fun i => (leaf i).toOption) lead its e hr hn hh hc
  obtain ⟨w, h3, h4, h5⟩ := evalNode_value leaf e' v (h2.trans hv)
  refine ⟨e', w, h1, by rw [evalText, h1]; exact h3, ?_, h5⟩
  rw [← h4]
  cases w <;> simp [EVal.tag]

/-- C81: conversely, in characteristic zero, what such a text evaluates to, unless a float, is its value by ordinary arithmetic,
which is then defined: no result is returned for a text that divides by zero, raises zero to a negative power or contains an
invariant that cannot be computed.
Not so over fields of other characteristics, where a fraction whose denominator vanishes in the field is reduced or returned as it is
(`C81_characteristic`). -/
theorem C81_defined_partial [CharZero K] (leaf : List Char → Except Err K) (lead : ℕ) (its : List Item) (e : Ast EAtom) (w : EVal K)
    (hr : Reads .expr (its.map Item.tok) e) (hn : ∀ i ∈ its, ∀ a b, i.tok ≠ .atom (.rat a b))
    (hh : HiddenOk (its.map fun i => (i.tok, i.hidden))) (hc : Clear (its.map Item.tok))
    (hw : evalText leaf (written lead its) = .ok w) (ho : w ≠ .other) :
    ∃ v, e.value (atomValue fun i => (leaf i).toOption) atomInt = some v ∧ w.toField = .ok v := by
  obtain ⟨e', h1, h2⟩ := readText_written (fun i => (leaf i).toOption) lead its e hr hn hh hc
  rw [evalText, h1] at hw
  obtain ⟨v, h3, h4⟩ := value_of_evalNode leaf e' w hw ho
  exact ⟨v, h2.symm.trans h3, h4⟩

/-- C81: dividing by an expression whose value is zero raises ZeroDivisionError, in characteristic zero and unless a float is
involved. -/
theorem C81_division_by_zero [CharZero K] (leaf : List Char → Except Err K) (a b : Ast EAtom) (x : K)
    (ha : a.value (atomValue fun i => (leaf i).toOption) atomInt = some x)
    (hb : b.value (atomValue fun i => (leaf i).toOption) atomInt = some 0) (ta : a.ty ≠ none) (tb : b.ty ≠ none) :
    evalNode leaf (.div a b) = .error .zeroDivision := by
  obtain ⟨w1, h1, k1, -⟩ := evalNode_value leaf a x ha
  obtain ⟨w2, h2, -, k2⟩ := evalNode_value leaf b 0 hb
  rw [evalNode, h1, h2, lift₂]
  apply vDiv_zero _ (k2 tb)
  rintro rfl
  exact ta k1.symm

/-- C81: a quotient of two integer literals is the exact fraction. -/
theorem C81_rational (leaf : List Char → Except Err K) (a b : ℕ) (hb : b ≠ 0) (lead p q r : ℕ) :
    evalText leaf (written lead [{ tok := .atom (.num a), blanks := p }, { tok := .slash, blanks := q },
      { tok := .atom (.num b), blanks := r }]) = .ok (.frac ((a : ℚ) / b)) := by
  have h1 : implicitProducts (powerSigns (noBlanks (written lead [{ tok := .atom (.num a), blanks := p }, { tok := .slash, blanks := q },
      { tok := .atom (.num b), blanks := r }]))) = [Tok.atom (EAtom.rat a b)].flatMap tokSyms := by
    rw [signs_written, implicit_text]
    · simp [tokSyms, chs]
    · simp [HiddenOk]
    · simp [List.isChain_cons, NextTo, Tok.Starts, Tok.Ends, Tok.Infix]
  have h2 : prepare (written lead [{ tok := .atom (.num a), blanks := p }, { tok := .slash, blanks := q },
      { tok := .atom (.num b), blanks := r }]) = [Tok.atom (EAtom.rat a b)].flatMap tokEmit := by
    simp only [prepare]
    rw [h1]
    exact fractions_text _ (List.isChain_singleton _) false false ⟨by simp, by simp, trivial⟩ (fun _ _ _ => rfl) _ le_rfl none none
      ⟨by simp, by simp⟩
  have h3 : readText (written lead [{ tok := .atom (.num a), blanks := p }, { tok := .slash, blanks := q },
      { tok := .atom (.num b), blanks := r }]) = .ok (.atom (.rat a b)) := by
    rw [readText, h2, lexer_text _ (List.isChain_singleton _)]
    exact (C81_grammar _ _).mpr (.ofTerm (.ofFactor (.ofPower (.ofAtom (.atom _)))))
  rw [evalText, h3]
  simp [evalNode, hb]

/-! ### Where it differs from ordinary arithmetic -/

/-- A text as one writes it; `x` is the first invariant. -/
def symsOf (s : String) : List Sym := s.toList.map fun c => if c = 'x' then .leaf ['x'] else .ch c

/-- `3/2**2` is read as the square of `3/2`: 9/4, not 3/4. -/
theorem C81_fraction_power (leaf : List Char → Except Err ℚ) :
    Reads (α := EAtom) .expr [.atom (.num 3), .slash, .atom (.num 2), .dstar, .atom (.num 2)]
      (.div (.atom (.num 3)) (.pow (.atom (.num 2)) (.atom (.num 2)))) ∧
    Ast.value (α := EAtom) (K := ℚ) (atomValue fun i => (leaf i).toOption) atomInt
      (.div (.atom (.num 3)) (.pow (.atom (.num 2)) (.atom (.num 2)))) = some (3 / 4) ∧
    evalText leaf (symsOf "3/2**2") = .ok (.frac (9 / 4)) := by
  refine ⟨?_, ?_, ?_⟩
  · exact (C81_grammar _ _).mp (by decide +kernel)
  · simp [Ast.value, Ast.int, atomValue, atomInt, quotient, power]; norm_num
  · have h : readText (symsOf "3/2**2") = .ok (.pow (.atom (.rat 3 2)) (.atom (.num 2))) := by decide +kernel
    rw [evalText, h]
    simp [evalNode, lift₂, vPow]; norm_num

/-- `x/2/3` is read as `x` over `2/3`, for every value of the invariant. -/
theorem C81_fraction_divisor (leaf : List Char → Except Err ℚ) (x : ℚ) (hx : leaf ['x'] = .ok x) :
    Reads (α := EAtom) .expr [.atom (.leaf ['x']), .slash, .atom (.num 2), .slash, .atom (.num 3)]
      (.div (.div (.atom (.leaf ['x'])) (.atom (.num 2))) (.atom (.num 3))) ∧
    Ast.value (α := EAtom) (K := ℚ) (atomValue fun i => (leaf i).toOption) atomInt
      (.div (.div (.atom (.leaf ['x'])) (.atom (.num 2))) (.atom (.num 3))) = some (x / 6) ∧
    evalText leaf (symsOf "x/2/3") = .ok (.fld (3 * x / 2)) := by
  refine ⟨?_, ?_, ?_⟩
  · exact (C81_grammar _ _).mp (by decide +kernel)
  · simp [Ast.value, atomValue, quotient, hx, Except.toOption]; ring
  · have h : readText (symsOf "x/2/3") = .ok (.div (.atom (.leaf ['x'])) (.atom (.rat 2 3))) := by decide +kernel
    have h2 : ratField (K := ℚ) (2 / 3) = .ok (2 / 3) := by rw [ratField_ok]; simp
    rw [evalText, h]
    simp [evalNode, lift₂, vDiv, binop, hx, EVal.toField, h2]
    ring

/-- `x**12/3` is rewritten as `x**1Fraction(2,3)`, which is not an expression. -/
theorem C81_fraction_exponent (leaf : List Char → Except Err K) :
    Reads (α := EAtom) .expr [.atom (.leaf ['x']), .dstar, .atom (.num 12), .slash, .atom (.num 3)]
      (.div (.pow (.atom (.leaf ['x'])) (.atom (.num 12))) (.atom (.num 3))) ∧
    evalText leaf (symsOf "x**12/3") = .error .syntaxError := by
  refine ⟨?_, ?_⟩
  · exact (C81_grammar _ _).mp (by decide +kernel)
  · have h : readText (symsOf "x**12/3") = .error .syntaxError := by decide +kernel
    rw [evalText, h]

/-- `(1+2)/4` is a float, not an exact fraction. -/
theorem C81_integer_quotient (leaf : List Char → Except Err K) : evalText leaf (symsOf "(1+2)/4") = .ok .other := by
  have h : readText (symsOf "(1+2)/4") = .ok (.div (.add (.atom (.num 1)) (.atom (.num 2))) (.atom (.num 4))) := by decide +kernel
  rw [evalText, h]
  simp [evalNode, lift₂, vDiv, vAdd, binop]

/-! ### Non-vacuity -/

/-- The divisor `2-2` in `x/(2-2)`. -/
example (leaf : List Char → Except Err ℚ) (hx : leaf ['x'] = .ok 5) :
    evalNode leaf (.div (.atom (.leaf ['x'])) (.sub (.atom (.num 2)) (.atom (.num 2)))) = .error .zeroDivision := by
  apply C81_division_by_zero leaf _ _ 5
  · simp [Ast.value, atomValue, hx, Except.toOption]
  · simp [Ast.value, atomValue]
  · simp [Ast.ty]
  · simp [Ast.ty, joinTy]

/-- ` 2x^2 - 1/3(x+1)`: hidden products, a caret, blanks and a fraction. -/
def sampleItems : List Item :=
  [{ tok := .atom (.num 2) }, { tok := .star, hidden := true }, { tok := .atom (.leaf ['x']) }, { tok := .dstar, caret := true },
    { tok := .atom (.num 2), blanks := 1 }, { tok := .minus, blanks := 1 }, { tok := .atom (.num 1) }, { tok := .slash },
    { tok := .atom (.num 3) }, { tok := .star, hidden := true }, { tok := .lpar }, { tok := .atom (.leaf ['x']) }, { tok := .plus },
    { tok := .atom (.num 1) }, { tok := .rpar }]

example : written 1 sampleItems = symsOf " 2x^2 - 1/3(x+1)" := by decide +kernel

example (leaf : List Char → Except Err ℚ) (hx : leaf ['x'] = .ok 5) :
    ∃ w, evalText leaf (written 1 sampleItems) = .ok w ∧ w.toField = .ok 48 := by
  have hr : Reads (α := EAtom) .expr (sampleItems.map Item.tok)
      (.sub (.mul (.atom (.num 2)) (.pow (.atom (.leaf ['x'])) (.atom (.num 2))))
        (.mul (.div (.atom (.num 1)) (.atom (.num 3))) (.add (.atom (.leaf ['x'])) (.atom (.num 1))))) :=
    (C81_grammar _ _).mp (by decide +kernel)
  obtain ⟨e', w, h1, h2, -, h3⟩ := C81_value_partial leaf 1 sampleItems _ 48 hr (by simp [sampleItems])
    (by simp [sampleItems, HiddenOk, Joins]) (by
      intro pre a b post h
      right
      have hl : pre.length = 6 := by
        have hs : ∀ n < 15, n ≠ 6 → ((sampleItems.map Item.tok).drop (n + 1)).head? ≠ some .slash := by decide
        by_contra hne
        refine hs pre.length ?_ hne ?_
        · have := congrArg List.length h; simp [sampleItems] at this; omega
        · rw [h]; simp
      have hp : pre = (sampleItems.map Item.tok).take 6 := by rw [h, ← hl]; simp
      have hq : post = (sampleItems.map Item.tok).drop 9 := by rw [h, show 9 = pre.length + 3 by omega]; simp
      rw [hp, hq]
      decide) (by
      simp [Ast.value, Ast.int, atomValue, atomInt, quotient, power, hx, Except.toOption]; norm_num)
  have h4 : readText (written 1 sampleItems) = .ok (.sub (.mul (.atom (.num 2)) (.pow (.atom (.leaf ['x'])) (.atom (.num 2))))
        (.mul (.atom (.rat 1 3)) (.add (.atom (.leaf ['x'])) (.atom (.num 1))))) := by decide +kernel
  rw [h4] at h1
  cases h1
  exact ⟨w, h2, h3 (by decide)⟩

end Lips

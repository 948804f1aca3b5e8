import Verif.Lemmas.ParseLex
import Verif.Model.Call
import Verif.Props.Eval
import Verif.Props.ParseNames

/-! C94: the invariants of an expression are found in its characters, and it evaluates to its value by ordinary arithmetic. -/

namespace Lips

variable {K : Type*} [Field K] {n : ℕ}

/-- C94: every invariant of an expression becomes `oPs('..')` with its name, whatever stands next to it, products left out are
put in, and nothing else changes except for blanks, powers and fractions. -/
theorem C94_parse {ts : List WTok} (h : Expression ts) : parseText (exprText ts) = drawn (prepare (ts.map WTok.sym)) := parseText_expr h

/-- C94: evaluating the characters is evaluating the symbols. -/
theorem C94_eval (leaf : List Char → Except Err K) {ts : List WTok} (h : Expression ts) :
    evalChars leaf (exprText ts) = some (evalText leaf (ts.map WTok.sym)) := by
  have hl := lexChars_drawn _ _ (prepare_mem h.1) (Nat.lt_succ_self _)
  unfold evalChars
  rw [C94_parse h, hl, evalText, readText]
  rcases lexer [] (prepare (ts.map WTok.sym)) with e | us
  · rfl
  · simp only
    rfl

/-- C94: a text of ordinary arithmetic, written with blanks, products left out, `^` for powers and invariants in any of the ways they
may be written, evaluates to its value, the invariants taken by their names.
Not so, as for C81, where `_parse` takes quotients of literals first (`Clear`); `C94_exact` and `C94_call_exact` are about all texts. -/
theorem C94_value_partial (leaf : List Char → Except Err K) (ts : List WTok) (h : Expression ts) (lead : ℕ) (its : List Item) (e : Ast EAtom) (v : K)
    (hts : ts.map WTok.sym = written lead its) (hr : Reads .expr (its.map Item.tok) e) (hn : ∀ i ∈ its, ∀ a b, i.tok ≠ .atom (.rat a b))
    (hh : HiddenOk (its.map fun i => (i.tok, i.hidden))) (hc : Clear (its.map Item.tok))
    (hv : e.value (atomValue fun i => (leaf i).toOption) atomInt = some v) :
    ∃ w, evalChars leaf (exprText ts) = some (.ok w) ∧ (w ≠ .other → w.toField = .ok v) := by
  obtain ⟨e', w, -, h2, h3, h4⟩ := C81_value_partial leaf lead its e v hr hn hh hc hv
  refine ⟨w, by rw [C94_eval leaf h, hts, h2], fun hw => h4 fun he => hw (h3.mp he)⟩

/-- C94: conversely, in characteristic zero, what such a text evaluates to, unless a float, is its value.
Not so, as for C81, in other characteristics (`C81_characteristic`) and where `_parse` takes quotients of literals first. -/
theorem C94_defined_partial [CharZero K] (leaf : List Char → Except Err K) (ts : List WTok) (h : Expression ts) (lead : ℕ) (its : List Item)
    (e : Ast EAtom) (w : EVal K) (hts : ts.map WTok.sym = written lead its) (hr : Reads .expr (its.map Item.tok) e)
    (hn : ∀ i ∈ its, ∀ a b, i.tok ≠ .atom (.rat a b)) (hh : HiddenOk (its.map fun i => (i.tok, i.hidden))) (hc : Clear (its.map Item.tok))
    (hw : evalChars leaf (exprText ts) = some (.ok w)) (ho : w ≠ .other) :
    ∃ v, e.value (atomValue fun i => (leaf i).toOption) atomInt = some v ∧ w.toField = .ok v := by
  rw [C94_eval leaf h, hts, Option.some.injEq] at hw
  exact C81_defined_partial leaf lead its e w hr hn hh hc hw ho

/-- C94: an invariant on its own, in any way it may be written, evaluates to what its name stands for. -/
theorem C94_single (leaf : List Char → Except Err K) {l : Leaf} (h : l.Ok) :
    evalChars leaf l.text = some (match leaf l.name with
      | .ok v => .ok (.fld v)
      | .error e => .error e) := by
  have hx : Expression [.leaf l] := ⟨by simpa [WTok.Fit] using h, by simp [WTok.blank]⟩
  have := C94_eval leaf hx
  rw [exprText, List.flatMap_cons, List.flatMap_nil, List.append_nil] at this
  refine this.trans ?_
  rfl

/-! ### `compute` -/

theorem name_plain {l : Leaf} (h : l.Ok) : ∀ c ∈ l.name, c ∉ boldChars :=
  fun c hc => (by decide : ∀ x ∈ allChars, x ∉ boldChars) c (name_all h c hc)

/-- C94: the value of an invariant inside an expression is the one `compute` gives for it on its own. -/
theorem C94_leaf (ps : Point K n) (fuel : ℕ) {l : Leaf} (h : l.Ok) : computeText ps fuel l.name = evalForm ps fuel l.form := by
  rw [computeText_plain ps fuel _ (name_plain h)]
  congr 1
  refine (C92_reads ?_).mpr (C94_names h)
  cases l <;> simp [Leaf.form]
  split <;> simp

theorem expr_plain {ts : List WTok} (h : Expression ts) : ∀ c ∈ exprText ts, c ∉ boldChars := by
  intro c hc
  obtain ⟨t, ht, hc⟩ := List.mem_flatMap.mp hc
  have hf := h.1 t ht
  cases t with
  | ch x =>
    simp only [WTok.text, List.mem_singleton] at hc
    subst hc
    exact (by decide : ∀ x ∈ "0123456789+-*/()^ ".toList, x ∉ boldChars) c hf
  | leaf l =>
    rcases text_name_only hf c (List.mem_append_left _ hc) with h' | h'
    · exact (by decide : ∀ x ∈ allChars, x ∉ boldChars) c (List.mem_append_left _ (List.mem_append_left _ (digit_mem h')))
    · exact (by decide : ∀ x ∈ allChars, x ∉ boldChars) c (alphabet_all hf c h')

/-- C94: `compute` of a text of an invariant is what `computeText` says. -/
theorem callNumber_text (ps : Point K n) (fuel : ℕ) {t : List Char} {r : Except Err K} (h : computeText ps fuel t = some (asNum r)) :
    callNumber ps fuel t = some r := by
  unfold computeText at h
  unfold callNumber callText
  rcases hr : rsubsDict t boldDigits with e | u <;> rw [hr] at h
  · cases r <;> simp_all [asNum]
  · simp only at h ⊢
    have hx : classify u ≠ .expression := by
      intro hx
      rw [hx] at h
      cases h
    simp only [if_neg hx, h, Option.map_some]
    cases r <;> rfl

/-- The number `compute` returns for a name, if it does. -/
def numberAt (ps : Point K n) (fuel : ℕ) (name : List Char) : Option K :=
  match computeText ps fuel name with
  | some (.ok (.num x)) => some x
  | _ => none

theorem leafNum_number (ps : Point K n) (fuel : ℕ) (name : List Char) : (leafNum ps fuel name).toOption = numberAt ps fuel name := by
  unfold leafNum numberAt
  rcases computeText ps fuel name with _ | _ | v
  · rfl
  · rfl
  · cases v <;> rfl

/-- C94: `compute` of a text of ordinary arithmetic that is no invariant is its value, the invariants being computed in turn.
Not so, as for C81, where `_parse` takes quotients of literals first (`Clear`); `C94_exact` and `C94_call_exact` are about all texts. -/
theorem C94_call_partial (ps : Point K n) (fuel : ℕ) (ts : List WTok) (h : Expression ts) (hx : classify (exprText ts) = .expression)
    (lead : ℕ) (its : List Item) (e : Ast EAtom) (v : K) (hts : ts.map WTok.sym = written lead its) (hr : Reads .expr (its.map Item.tok) e)
    (hn : ∀ i ∈ its, ∀ a b, i.tok ≠ .atom (.rat a b)) (hh : HiddenOk (its.map fun i => (i.tok, i.hidden))) (hc : Clear (its.map Item.tok))
    (hv : e.value (atomValue (numberAt ps fuel)) atomInt = some v) :
    ∃ w, callText ps fuel (exprText ts) = some (.ok (.inr w)) ∧ (w ≠ .other → callNumber ps fuel (exprText ts) = some (.ok v)) := by
  obtain ⟨w, h1, h2⟩ := C94_value_partial (leafNum ps fuel) ts h lead its e v hts hr hn hh hc
    (by rw [funext (leafNum_number ps fuel)]; exact hv)
  have h3 : callText ps fuel (exprText ts) = some (.ok (.inr w)) := by
    rw [callText, rsubs_plain _ (expr_plain h)]
    simp only [if_pos hx, h1, Option.map_some]
  refine ⟨w, h3, fun hw => ?_⟩
  rw [callNumber, h3]
  cases w with
  | other => exact absurd rfl hw
  | _ => simp only [h2 hw]

/-! ### Where it fails -/

/-- A mass in an expression is put in `oPs('..')` twice, which is not Python: `m_1` on its own is computed, `m_1+1` is not. -/
theorem C94_mass_twice : parseText "m_1+1".toList = "oPs('oPs('m_1')')+1".toList ∧
    lexChars 100 (parseText "m_1+1".toList) = none := by decide +kernel

/-- So is a Gram determinant of adjacent legs. -/
theorem C94_gram_twice : parseText "Δ_135+1".toList = "oPs('oPs('Δ_135')')+1".toList ∧
    lexChars 100 (parseText "Δ_135+1".toList) = none := by decide +kernel

/-- In a string with labels of two digits only the middle is found. -/
theorem C94_two_digits : parseText "⟨11|12|13|14⟩+1".toList = "oPs('⟨11*oPs('|12|13|')*14⟩')+1".toList ∧
    lexChars 100 (parseText "⟨11|12|13|14⟩+1".toList) = none := by decide +kernel

/-- A trace with several slots in parentheses is not found. -/
theorem C94_trace_slots : lexChars 100 (parseText "tr((1+2)|(3+4))".toList) = none := by decide +kernel

end Lips

import Verif.Props.Parse
import Verif.Props.EvalExact

/-! C94, all texts: quotients of literals anywhere. -/

namespace Lips

variable {K : Type*} [Field K]

/-- C94, wherever quotients of literals stand: unless an exponent of several digits is divided by a literal, a text evaluates, unless to a
float, to its value with the quotients of literals taken first; in characteristic zero this value is defined whenever the text evaluates. -/
theorem C94_exact (leaf : List Char → Except Err K) (ts : List WTok) (h : Expression ts) (lead : ℕ) (its : List Item) (e : Ast EAtom)
    (hts : ts.map WTok.sym = written lead its) (hr : Reads .expr (its.map Item.tok) e) (hn : ∀ i ∈ its, ∀ a b, i.tok ≠ .atom (.rat a b))
    (hh : HiddenOk (its.map fun i => (i.tok, i.hidden))) (hl : ¬ LongExponent (its.map Item.tok)) :
    ∃ e', Reads .expr (taken false (its.map Item.tok)) e' ∧
      (∀ v, e'.value (atomValue fun i => (leaf i).toOption) atomInt = some v →
        ∃ w, evalChars leaf (exprText ts) = some (.ok w) ∧ (w ≠ .other → w.toField = .ok v)) ∧
      (CharZero K → ∀ w, evalChars leaf (exprText ts) = some (.ok w) → w ≠ .other →
        ∃ v, e'.value (atomValue fun i => (leaf i).toOption) atomInt = some v ∧ w.toField = .ok v) := by
  obtain ⟨e', h1, h2, h3⟩ := C81_exact leaf lead its e hr hn hh hl
  rw [C94_eval leaf h, hts]
  refine ⟨e', h1, fun v hv => ?_, fun hc w hw ho => h3 hc w (by simpa using hw) ho⟩
  obtain ⟨w, h4, h5, h6⟩ := h2 v hv
  exact ⟨w, by rw [h4], fun hw => h6 fun he => hw (h5.mp he)⟩

/-- C94: where an exponent of several digits is divided by a literal, evaluating raises SyntaxError. -/
theorem C94_long_exponent (leaf : List Char → Except Err K) (ts : List WTok) (h : Expression ts) (lead : ℕ) (its : List Item) (e : Ast EAtom)
    (hts : ts.map WTok.sym = written lead its) (hr : Reads .expr (its.map Item.tok) e)
    (hh : HiddenOk (its.map fun i => (i.tok, i.hidden))) (hl : LongExponent (its.map Item.tok)) :
    evalChars leaf (exprText ts) = some (.error .syntaxError) := by
  rw [C94_eval leaf h, hts, evalText, C81_long_exponent lead its e hr hh hl]

variable {n : ℕ}

/-- C94: `compute` of such a text at a point, wherever quotients of literals stand. -/
theorem C94_call_exact (ps : Point K n) (fuel : ℕ) (ts : List WTok) (h : Expression ts) (hx : classify (exprText ts) = .expression)
    (lead : ℕ) (its : List Item) (e : Ast EAtom) (hts : ts.map WTok.sym = written lead its) (hr : Reads .expr (its.map Item.tok) e)
    (hn : ∀ i ∈ its, ∀ a b, i.tok ≠ .atom (.rat a b)) (hh : HiddenOk (its.map fun i => (i.tok, i.hidden))) :
    (LongExponent (its.map Item.tok) → callText ps fuel (exprText ts) = some (.error .syntaxError)) ∧
    (¬ LongExponent (its.map Item.tok) → ∃ e', Reads .expr (taken false (its.map Item.tok)) e' ∧
      ∀ v, e'.value (atomValue (numberAt ps fuel)) atomInt = some v →
        ∃ w, callText ps fuel (exprText ts) = some (.ok (.inr w)) ∧ (w ≠ .other → callNumber ps fuel (exprText ts) = some (.ok v))) := by
  have hcall : callText ps fuel (exprText ts) = (evalChars (leafNum ps fuel) (exprText ts)).map fun
      | .ok w => .ok (.inr w)
      | .error e => .error e := by
    rw [callText, rsubs_plain _ (expr_plain h)]
    simp only [if_pos hx]
    rcases evalChars (leafNum ps fuel) (exprText ts) with _ | _ | _ <;> rfl
  refine ⟨fun hl => ?_, fun hl => ?_⟩
  · rw [hcall, C94_long_exponent (leafNum ps fuel) ts h lead its e hts hr hh hl]; rfl
  · obtain ⟨e', h1, h2, -⟩ := C94_exact (leafNum ps fuel) ts h lead its e hts hr hn hh hl
    refine ⟨e', h1, fun v hv => ?_⟩
    obtain ⟨w, h3, h4⟩ := h2 v (by rw [funext (leafNum_number ps fuel)]; exact hv)
    have h5 : callText ps fuel (exprText ts) = some (.ok (.inr w)) := by rw [hcall, h3]; rfl
    refine ⟨w, h5, fun hw => ?_⟩
    rw [callNumber, h5]
    cases w with
    | other => exact absurd rfl hw
    | _ => simp only [h4 hw]

end Lips

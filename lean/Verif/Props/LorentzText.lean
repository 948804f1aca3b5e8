import Verif.Props.Invariance
import Verif.Props.ParseExact
import Verif.Examples.Compute

/-!
C121: what `compute` makes of a text, an invariant or an expression, is Lorentz invariant.
-/

namespace Lips

open Matrix

variable {K : Type*} [Field K] {n : ℕ}

/-- Invariants whose spinor indices are all contracted with indices of the same kind: every trace has an even number of slots, and a string
opened by the character `<`, whose ends are not checked, ends as one opened by `[` has to. -/
def Form.Closed : Form → Prop
  | .tr es => es.length % 2 = 0
  | .string o _ ms _ c => o ∉ ['⟨', '['] → (c = '⟩' ↔ ms.length % 2 = 1)
  | _ => True

/-- Every particle has spinors, or has none before and after. -/
def SpinorsOrNone (ps ps' : Point K n) : Prop :=
  ∀ k, (∃ r l, (ps k).r_d = some r ∧ (ps k).l_d = some l) ∨ ((ps k).r_d = none ∧ (ps' k).r_d = none)

theorem SpinConsistent.none {p : Particle K} (h : SpinConsistent p) (e : p.r_d = none) : p.r_u = none ∧ p.l_d = none ∧ p.l_u = none :=
  ⟨h.r_none.mp e, h.both.mp e, h.l_none.mp (h.both.mp e)⟩

theorem readSlots_length {es : List (List Char)} {ks : List (Slot n)} (h : readSlots n es = .ok ks) : ks.length = es.length := by
  unfold readSlots at h
  induction es generalizing ks with
  | nil => rw [List.mapM_nil] at h; cases h; rfl
  | cons e es ih =>
    rw [List.mapM_cons] at h
    rcases h1 : readSlot n e with x | x <;> rw [h1] at h
    · cases h
    rcases h2 : List.mapM (readSlot n) es with y | y <;> rw [h2] at h
    · cases h
    cases h
    rw [List.length_cons, List.length_cons, ih h2]

theorem classify_string_head {t : List Char} {o o' : Char} {u a d : List Char} {ms : List (List Char)} {e : Char} (ht : t = o :: u)
    (h : classify t = .string o' a ms d e) : o' = o := by
  cases (C92_reads (by simp)).mp h with
  | string _ _ _ _ _ => exact (List.cons.inj ht).1

namespace LorentzImage

variable {c : Ctx K} {g h : M2 K} {ps ps' : Point K n}

theorem cases (H : LorentzImage c g h ps ps') (hs : SpinorsOrNone ps ps') (k : Fin n) :
    (∃ r l, HasSpinors c (ps k) r l) ∨ (((ps k).r_d = none ∧ (ps k).r_u = none ∧ (ps k).l_d = none ∧ (ps k).l_u = none) ∧
      (ps' k).r_d = none ∧ (ps' k).r_u = none ∧ (ps' k).l_d = none ∧ (ps' k).l_u = none) := by
  rcases hs k with ⟨r, l, h1, h2⟩ | ⟨h1, h2⟩
  · exact .inl ⟨r, l, H.cons k, h1, h2⟩
  · exact .inr ⟨⟨h1, (H.cons k).spin.none h1⟩, h2, (H.cons' k).spin.none h2⟩

theorem angle_eq (H : LorentzImage c g h ps ps') (hs : SpinorsOrNone ps ps') (a b : Fin n) : angle (ps' a) (ps' b) = angle (ps a) (ps b) := by
  rcases H.cases hs a with ⟨ra, la, ha⟩ | ⟨ha, ha'⟩
  · rcases H.cases hs b with ⟨rb, lb, hb⟩ | ⟨hb, hb'⟩
    · exact (C20_spinor_strings c g h ps ps' H ha hb [] '⟨' '⟩' (.inl rfl) (.inl rfl)).1
    · unfold angle; rw [hb.1, hb'.1]; rcases (ps a).r_u <;> rcases (ps' a).r_u <;> rfl
  · unfold angle; rw [ha.2.1, ha'.2.1]

theorem square_eq (H : LorentzImage c g h ps ps') (hs : SpinorsOrNone ps ps') (a b : Fin n) : square (ps' a) (ps' b) = square (ps a) (ps b) := by
  rcases H.cases hs a with ⟨ra, la, ha⟩ | ⟨ha, ha'⟩
  · rcases H.cases hs b with ⟨rb, lb, hb⟩ | ⟨hb, hb'⟩
    · exact (C20_spinor_strings c g h ps ps' H ha hb [] '⟨' '⟩' (.inl rfl) (.inl rfl)).2.1
    · unfold square; rw [hb.2.2.2, hb'.2.2.2]; rcases (ps a).l_d <;> rcases (ps' a).l_d <;> rfl
  · unfold square; rw [ha.2.2.1, ha'.2.2.1]

/-- The end of a string: a spinor, or TypeError before and after. -/
theorem need_left (H : LorentzImage c g h ps ps') (hs : SpinorsOrNone ps ps') (a : Fin n) (o : Char) :
    (∃ r l, HasSpinors c (ps a) r l) ∨ ((if o = '⟨' then need (ps a).r_u else need (ps a).l_d) = .error .typeError ∧
      (if o = '⟨' then need (ps' a).r_u else need (ps' a).l_d) = .error .typeError) := by
  rcases H.cases hs a with ha | ⟨ha, ha'⟩
  · exact .inl ha
  · rw [ha.2.1, ha.2.2.1, ha'.2.1, ha'.2.2.1]
    exact .inr ⟨by split <;> rfl, by split <;> rfl⟩

theorem need_right (H : LorentzImage c g h ps ps') (hs : SpinorsOrNone ps ps') (a : Fin n) (o : Char) :
    (∃ r l, HasSpinors c (ps a) r l) ∨ ((if o = '⟩' then need (ps a).r_d else need (ps a).l_u) = .error .typeError ∧
      (if o = '⟩' then need (ps' a).r_d else need (ps' a).l_u) = .error .typeError) := by
  rcases H.cases hs a with ha | ⟨ha, ha'⟩
  · exact .inl ha
  · rw [ha.1, ha.2.2.2, ha'.1, ha'.2.2.2]
    exact .inr ⟨by split <;> rfl, by split <;> rfl⟩

/-- Strings between brackets of the two kinds. -/
theorem nb_brackets (H : LorentzImage c g h ps ps') (hs : SpinorsOrNone ps ps') (o e : Char) (ho : o = '⟨' ∨ o = '[') (he : e = '⟩' ∨ e = ']')
    (a d : Fin n) (ms : List (Slot n)) : computeNB ps' o a ms d e = computeNB ps o a ms d e := by
  rcases H.need_left hs a o with ⟨ra, la, ha⟩ | ⟨ha, ha'⟩
  · rcases H.need_right hs d e with ⟨rd, ld, hd⟩ | ⟨hd, hd'⟩
    · exact (C20_spinor_strings c g h ps ps' H ha hd ms o e ho he).2.2
    · have ha' := H.hasSpinors ha
      unfold computeNB
      rw [hd, hd', ha.r_u, ha.l_d, ha'.r_u, ha'.l_d]
      rcases ho with rfl | rfl <;> rfl
  · unfold computeNB
    rw [ha, ha']

/-- Strings with any brackets. -/
theorem nb (H : LorentzImage c g h ps ps') (hs : SpinorsOrNone ps ps') (o e : Char) (a d : Fin n) (ms : List (Slot n))
    (hc : o ∉ ['⟨', '['] → (e = '⟩' ↔ ms.length % 2 = 1)) : computeNB ps' o a ms d e = computeNB ps o a ms d e := by
  by_cases hse : nbSyntaxError ms.length o e = true
  · unfold computeNB; rw [if_pos hse, if_pos hse]
  have key : ∀ q : Point K n, ∀ o' e', (o' = '⟨' ↔ o = '⟨') → (e' = '⟩' ↔ e = '⟩') → nbSyntaxError ms.length o' e' = false →
      computeNB q o a ms d e = computeNB q o' a ms d e' := by
    intro q o' e' h1 h2 h3
    unfold computeNB
    rw [if_neg hse, h3]
    simp only [h1, h2, Bool.false_eq_true, if_false]
  have hm := Nat.mod_two_eq_zero_or_one ms.length
  have main : ∀ o' e', (o' = '⟨' ∨ o' = '[') → (e' = '⟩' ∨ e' = ']') → (o' = '⟨' ↔ o = '⟨') → (e' = '⟩' ↔ e = '⟩') →
      nbSyntaxError ms.length o' e' = false → computeNB ps' o a ms d e = computeNB ps o a ms d e := by
    intro o' e' h1 h2 h3 h4 h5
    rw [key ps o' e' h3 h4 h5, key ps' o' e' h3 h4 h5]
    exact H.nb_brackets hs _ _ h1 h2 a d ms
  by_cases h1 : o = '⟨'
  · subst h1
    rcases hm with hm | hm
    · have he : e = '⟩' := by by_contra he; simp [nbSyntaxError, hm, he] at hse
      exact main '⟨' '⟩' (.inl rfl) (.inl rfl) (by simp) (by simp [he]) (by simp [nbSyntaxError, hm])
    · have he : e = ']' := by by_contra he; simp [nbSyntaxError, hm, he] at hse
      exact main '⟨' ']' (.inl rfl) (.inr rfl) (by simp) (by simp [he]) (by simp [nbSyntaxError, hm])
  · have he : e = '⟩' ↔ ms.length % 2 = 1 := by
      by_cases h2 : o = '['
      · subst h2
        rcases hm with hm | hm
        · have he : e = ']' := by by_contra he; simp [nbSyntaxError, hm, he] at hse
          simp [he, hm]
        · have he : e = '⟩' := by by_contra he; simp [nbSyntaxError, hm, he] at hse
          simp [he, hm]
      · exact hc (by simp [h1, h2])
    rcases hm with hm | hm
    · exact main '[' ']' (.inr rfl) (.inr rfl) (by simp [h1]) (by simp [he, hm]) (by simp [nbSyntaxError, hm])
    · exact main '[' '⟩' (.inr rfl) (.inl rfl) (by simp [h1]) (by simp [he, hm]) (by simp [nbSyntaxError, hm])

theorem evalString_eq (H : LorentzImage c g h ps ps') (hs : SpinorsOrNone ps ps') (o e : Char) (a d : List Char) (ms : List (List Char))
    (hc : o ∉ ['⟨', '['] → (e = '⟩' ↔ ms.length % 2 = 1)) : evalString ps' o a ms d e = evalString ps o a ms d e := by
  unfold evalString
  split
  · rfl
  have hlen : ∀ ks, readSlots n ms = .ok ks → ks.length = ms.length := fun ks hk => readSlots_length hk
  split
  next a' ks d' _ hk _ => exact H.nb hs o e a' d' ks (by rw [hlen ks hk]; exact hc)
  · rfl
  · rfl
  · rfl

theorem evalTr5_eq (H : LorentzImage c g h ps ps') (hs : SpinorsOrNone ps ps') (m : List Char) : evalTr5 ps' m = evalTr5 ps m := by
  unfold evalTr5
  split
  · rfl
  split
  · rfl
  next q a b x d _ =>
  have key : ∀ o e : Char, o ∈ ['⟨', '['] → evalStringText ps' (tr5Text o a b x d e) = evalStringText ps (tr5Text o a b x d e) := by
    intro o e ho
    unfold evalStringText
    split
    next o' a' ms d' e' hcl =>
      have : o' = o := classify_string_head (by rw [tr5Text]; rfl) hcl
      rw [H.evalString_eq hs o' e' a' d' ms (fun h' => absurd (this ▸ ho) h')]
    · rfl
  rw [key '[' '⟩' (by simp), key '⟨' ']' (by simp)]

end LorentzImage

/-- The number among what a branch returns. -/
def Val.number? : Val K → Option K
  | .num x => some x
  | _ => none

/-- Outcomes with the same number or the same exception. -/
def SameNumber (x y : Option (Except Err (Val K))) : Prop :=
  match x, y with
  | some (.ok v), some (.ok w) => v.number? = w.number?
  | some (.error e), some (.error e') => e = e'
  | none, none => True
  | _, _ => False

omit [Field K] in
theorem SameNumber.of_eq {x y : Option (Except Err (Val K))} (h : x = y) : SameNumber x y := by
  subst h
  rcases x with _ | x | x <;> trivial

namespace LorentzImage

variable {c : Ctx K} {g h : M2 K} {ps ps' : Point K n}

theorem evalForm_same (H : LorentzImage c g h ps ps') (hs : SpinorsOrNone ps ps') (fuel : ℕ) (f : Form) (hf : f.Closed) :
    SameNumber (evalForm ps' fuel f) (evalForm ps fuel f) := by
  obtain ⟨hS, hT, hD, hDS, hO, hP, h5⟩ := C20_momentum_invariants c g h ps ps' H
  have hDelta : ∀ cs, evalDelta ps' cs = evalDelta ps cs := by
    intro cs
    unfold evalDelta
    split
    · rw [hD]
    · rfl
    · rfl
  have spin : ∀ (a : List Char) (s s' : Fin n → Option (V2 K)), SameNumber
      (some (match readLabel n a with | .ok a => .ok (.spinor (s a)) | .error e => .error e))
      (some (match readLabel n a with | .ok a => .ok (.spinor (s' a)) | .error e => .error e)) := by
    intro a s s'
    rcases readLabel n a with e | a <;> rfl
  cases f with
  | tr5 m => exact .of_eq (by rw [evalForm, evalForm, H.evalTr5_eq hs])
  | tr es =>
    refine .of_eq ?_
    rw [evalForm, evalForm]
    rcases hr : readSlots n es with e | ks
    · rfl
    · simp only [hT ks (by rw [readSlots_length hr]; exact hf)]
  | omega ds => exact .of_eq (by simp only [evalForm, hO])
  | pi ds => exact .of_eq (by simp only [evalForm, hP])
  | delta cs =>
    refine .of_eq ?_
    rcases cs with _ | ⟨ds, _ | ⟨d, cs⟩⟩
    · simp only [evalForm, hDelta]
    · simp only [evalForm, hDS]
    · simp only [evalForm, hDelta]
  | d5 => exact .of_eq (by simp only [evalForm, h5])
  | massOf t => exact .of_eq (by simp only [evalForm, hS])
  | mandelstam ds => exact .of_eq (by simp only [evalForm, hS])
  | angle a b => exact .of_eq (by simp only [evalForm, H.angle_eq hs])
  | square a b => exact .of_eq (by simp only [evalForm, H.square_eq hs])
  | Au a => exact spin a _ _
  | Ad a => exact spin a _ _
  | Su a => exact spin a _ _
  | Sd a => exact spin a _ _
  | string o a ms d e => exact .of_eq (by simp only [evalForm, H.evalString_eq hs o e a d ms hf])
  | openBegin ms d e =>
    simp only [evalForm]
    rcases readSlots n ms with x | ms
    · rfl
    rcases readLabel n d with x | d
    · rfl
    simp only [computeOpenBegin]
    rcases H.need_right hs d e with ⟨r, l, hd⟩ | ⟨hd, hd'⟩
    · have hd' := H.hasSpinors hd
      rw [hd.r_d, hd.l_u, hd'.r_d, hd'.l_u]
      by_cases h' : e = '⟩'
      · simp only [if_pos h']; rfl
      · simp only [if_neg h']; rfl
    · rw [hd, hd']; rfl
  | openEnd o a ms =>
    simp only [evalForm]
    rcases readLabel n a with x | a
    · rfl
    rcases readSlots n ms with x | ms
    · rfl
    simp only [computeOpenEnd]
    rcases H.need_left hs a o with ⟨r, l, hd⟩ | ⟨hd, hd'⟩
    · have hd' := H.hasSpinors hd
      rw [hd.r_u, hd.l_d, hd'.r_u, hd'.l_d]
      by_cases h' : o = '⟨'
      · simp only [if_pos h']; rfl
      · simp only [if_neg h']; rfl
    · rw [hd, hd']; rfl
  | doubleOpen ms =>
    simp only [evalForm]
    rcases readSlots n ms with x | ms <;> rfl
  | internalMass t => exact .of_eq rfl
  | expression => exact .of_eq rfl

end LorentzImage

/-- The invariant a text is, if it is one, has its spinor indices contracted. -/
def ClosedText (t : List Char) : Prop := ∀ u, rsubsDict t boldDigits = .ok u → (classify u).Closed

/-- The names of invariants the evaluator asks for in the text of an expression. -/
def Asked (t name : List Char) : Prop :=
  ∃ ts, lexChars ((parseText t).length + 1) (parseText t) = some (.ok ts) ∧ .atom (.leaf name) ∈ ts

/-- Evaluation depends on the invariants that are asked for only. -/
theorem evalNode_congr {f g : List Char → Except Err K} {lv : Level} {ts : List (Tok EAtom)} {e : Ast EAtom} (h : Reads lv ts e)
    (hfg : ∀ name, .atom (.leaf name) ∈ ts → f name = g name) : evalNode f e = evalNode g e := by
  induction h with
  | atom x =>
    cases x with
    | num k => rfl
    | rat a b => rfl
    | leaf i => simp only [evalNode, hfg i (by simp)]
  | paren _ ih => exact ih fun name hn => hfg name (by simp [hn])
  | ofAtom _ ih => exact ih hfg
  | ofPower _ ih => exact ih hfg
  | ofFactor _ ih => exact ih hfg
  | ofTerm _ ih => exact ih hfg
  | neg _ ih => simp only [evalNode, ih fun name hn => hfg name (by simp [hn])]
  | pos _ ih => simp only [evalNode, ih fun name hn => hfg name (by simp [hn])]
  | pow _ _ ih1 ih2 | mul _ _ ih1 ih2 | div _ _ ih1 ih2 | add _ _ ih1 ih2 | sub _ _ ih1 ih2 =>
    simp only [evalNode, ih1 fun name hn => hfg name (by simp [hn]), ih2 fun name hn => hfg name (by simp [hn])]

theorem evalChars_congr {f g : List Char → Except Err K} (t : List Char) (hfg : ∀ name, Asked t name → f name = g name) :
    evalChars f t = evalChars g t := by
  unfold evalChars
  rcases hl : lexChars ((parseText t).length + 1) (parseText t) with _ | e | ts
  · rfl
  · rfl
  · rcases ha : astParse ts with e | e
    · simp only [ha]
    · simp only [ha, evalNode_congr ((C81_grammar ts e).mp ha) fun name hn => hfg name ⟨ts, hl, hn⟩]

theorem leafNum_same {ps ps' : Point K n} {fuel : ℕ} {name : List Char}
    (h : ∀ u, rsubsDict name boldDigits = .ok u → SameNumber (evalForm ps' fuel (classify u)) (evalForm ps fuel (classify u))) :
    leafNum ps' fuel name = leafNum ps fuel name := by
  unfold leafNum computeText
  rcases hr : rsubsDict name boldDigits with e | u
  · rfl
  have := h u hr
  simp only
  revert this
  generalize evalForm ps' fuel (classify u) = x
  generalize evalForm ps fuel (classify u) = y
  intro this
  rcases x with _ | x | x <;> rcases y with _ | y | y <;> try exact this.elim
  · rfl
  · exact congrArg Except.error this
  · cases x <;> cases y <;> first | rfl | (cases this; done) | (cases this; rfl)

/-- `compute` depends on the number or exception of the invariant a text is and of the invariants it asks for. -/
theorem callNumber_same {ps ps' : Point K n} {fuel : ℕ} {t : List Char}
    (h : ∀ u, rsubsDict t boldDigits = .ok u → SameNumber (evalForm ps' fuel (classify u)) (evalForm ps fuel (classify u)))
    (ha : ∀ name, Asked t name → leafNum ps' fuel name = leafNum ps fuel name) : callNumber ps' fuel t = callNumber ps fuel t := by
  unfold callNumber callText
  rcases hr : rsubsDict t boldDigits with e | u
  · rfl
  by_cases hx : classify u = .expression
  · simp only [if_pos hx, evalChars_congr t ha]
  · have := h u hr
    simp only [if_neg hx]
    revert this
    generalize evalForm ps' fuel (classify u) = x
    generalize evalForm ps fuel (classify u) = y
    intro this
    rcases x with _ | x | x <;> rcases y with _ | y | y <;> try exact this.elim
    · rfl
    · exact congrArg (fun e => some (Except.error e)) this
    · cases x <;> cases y <;> first | rfl | (cases this; done) | (cases this; rfl)

/-- C121: whatever text `compute` is given, a Lorentz transformation of the point changes neither the number it returns nor the exception it
raises, if the traces of the text have an even number of slots and its strings end with the brackets they should. Particles may be massive. -/
theorem C121_text (c : Ctx K) (g h : M2 K) (ps ps' : Point K n) (H : LorentzImage c g h ps ps') (hs : SpinorsOrNone ps ps') (fuel : ℕ) (t : List Char)
    (hc : ClosedText t) (ha : ∀ name, Asked t name → ClosedText name) : callNumber ps' fuel t = callNumber ps fuel t :=
  callNumber_same (fun u hu => H.evalForm_same hs fuel _ (hc u hu)) fun name hn =>
    leafNum_same fun u hu => H.evalForm_same hs fuel _ (ha name hn u hu)

/-! ### Expressions as they are written -/

theorem fractions_leaf (f : ℕ) (p q : Option Sym) (s : List Sym) (name : List Char) (h : .leaf name ∈ fractions f p q s) : .leaf name ∈ s := by
  induction f generalizing p q s with
  | zero => exact h
  | succ f ih =>
    rcases s with _ | ⟨x, s⟩
    · simp [fractions] at h
    · rw [fractions] at h
      split at h
      · rcases List.mem_cons.mp h with h | h
        · cases h
        · exact (List.dropWhile_suffix _).subset (List.mem_of_mem_tail ((List.dropWhile_suffix _).subset (ih _ _ _ h)))
      · rcases List.mem_cons.mp h with h | h
        · exact List.mem_cons.mpr (.inl h)
        · exact List.mem_cons_of_mem _ (ih _ _ _ h)

theorem implicit_leaf (s : List Sym) (name : List Char) (h : .leaf name ∈ implicitProducts s) : .leaf name ∈ s := by
  induction s with
  | nil => exact h
  | cons x s ih =>
    rcases s with _ | ⟨y, s⟩
    · exact h
    · rw [implicitProducts] at h
      split at h
      · rcases List.mem_cons.mp h with h | h
        · exact List.mem_cons.mpr (.inl h)
        · rcases List.mem_cons.mp h with h | h
          · cases h
          · exact List.mem_cons_of_mem _ (ih h)
      · rcases List.mem_cons.mp h with h | h
        · exact List.mem_cons.mpr (.inl h)
        · exact List.mem_cons_of_mem _ (ih h)

theorem flushNum_leaf {ds : List Char} {r : Except Err (List (Tok EAtom))} {us : List (Tok EAtom)} (h : flushNum ds r = .ok us) (name : List Char)
    (hn : .atom (.leaf name) ∈ us) : ∃ vs, r = .ok vs ∧ .atom (.leaf name) ∈ vs := by
  rcases r with e | vs
  · cases h
  refine ⟨vs, rfl, ?_⟩
  simp only [flushNum] at h
  split_ifs at h
  · cases h; exact hn
  split at h
  · cases h
    rcases List.mem_cons.mp hn with h | h
    · cases h
    · exact h
  · cases h

theorem lexer_leaf (ds : List Char) (s : List Sym) (us : List (Tok EAtom)) (h : lexer ds s = .ok us) (name : List Char) (hn : .atom (.leaf name) ∈ us) :
    .leaf name ∈ s := by
  induction ds, s using lexer.induct generalizing us with
  | case1 ds =>
    rw [lexer] at h
    obtain ⟨vs, h1, h2⟩ := flushNum_leaf h name hn
    cases h1; cases h2
  | case2 ds i s ih =>
    rw [lexer] at h
    obtain ⟨vs, h1, h2⟩ := flushNum_leaf h name hn
    split at h1 <;> cases h1
    rcases List.mem_cons.mp h2 with h2 | h2
    · injection h2 with h2; injection h2 with h2; rw [h2]; exact List.mem_cons_self
    · exact List.mem_cons_of_mem _ (ih _ ‹_› h2)
  | case3 ds a b s ih =>
    rw [lexer] at h
    obtain ⟨vs, h1, h2⟩ := flushNum_leaf h name hn
    split at h1 <;> cases h1
    rcases List.mem_cons.mp h2 with h2 | h2
    · injection h2 with h2; cases h2
    · exact List.mem_cons_of_mem _ (ih _ ‹_› h2)
  | case4 ds s ih =>
    rw [lexer] at h
    obtain ⟨vs, h1, h2⟩ := flushNum_leaf h name hn
    split at h1 <;> cases h1
    rcases List.mem_cons.mp h2 with h2 | h2
    · cases h2
    · exact List.mem_cons_of_mem _ (List.mem_cons_of_mem _ (ih _ ‹_› h2))
  | case5 ds c s hne hd ih =>
    rw [lexer.eq_5 _ _ _ hne, if_pos hd] at h
    exact List.mem_cons_of_mem _ (ih _ h hn)
  | case6 ds c s hne hd hm =>
    rw [lexer.eq_5 _ _ _ hne, if_neg hd, hm] at h
    cases h
  | case7 ds c s hne hd t hm ih =>
    rw [lexer.eq_5 _ _ _ hne, if_neg hd, hm] at h
    obtain ⟨vs, h1, h2⟩ := flushNum_leaf h name hn
    split at h1 <;> cases h1
    rcases List.mem_cons.mp h2 with h2 | h2
    · subst h2
      split_ifs at hm <;> cases hm
    · exact List.mem_cons_of_mem _ (ih _ ‹_› h2)

/-- What is asked for in an expression are the names of the invariants written in it. -/
theorem asked_written {ts : List WTok} (h : Expression ts) {name : List Char} (ha : Asked (exprText ts) name) : ∃ l, .leaf l ∈ ts ∧ l.name = name := by
  obtain ⟨us, h1, h2⟩ := ha
  rw [C94_parse h, lexChars_drawn _ _ (prepare_mem h.1) (Nat.lt_succ_self _)] at h1
  have h3 := lexer_leaf _ _ _ (Option.some.inj h1) name h2
  unfold prepare at h3
  have h4 := implicit_leaf _ _ (fractions_leaf _ _ _ _ _ h3)
  rw [← tidy_sym] at h4
  obtain ⟨x, hx, hxn⟩ := List.mem_map.mp h4
  obtain ⟨y, hy, hx⟩ := List.mem_flatMap.mp hx
  have hy' := List.mem_of_mem_filter hy
  cases y with
  | ch c =>
    simp only [powOne] at hx
    split at hx
    · rw [List.mem_cons, List.mem_singleton, or_self] at hx
      subst hx; cases hxn
    · rw [List.mem_singleton] at hx
      subst hx; cases hxn
  | leaf l =>
    simp only [powOne, List.mem_singleton] at hx
    subst hx
    exact ⟨l, hy', by simpa [WTok.sym] using hxn⟩

theorem closed_name {l : Leaf} (h : l.Ok) (he : l.EvenTrace) : ClosedText l.name := by
  intro u hu
  have hp : ∀ c ∈ l.name, c ∉ boldChars := name_plain h
  rw [rsubs_plain _ hp] at hu
  cases hu
  have hr := (C92_reads (f := l.form) (by cases l <;> simp [Leaf.form]; split <;> simp)).mpr (C94_names h)
  rw [hr]
  cases l with
  | two sq bar a b => cases sq <;> trivial
  | trace s ss =>
    show ((s :: ss).map WSlot.body).length % 2 = 0
    have : ss.length % 2 = 1 := he
    simp only [List.length_map, List.length_cons]
    omega
  | str o a ss b c => exact fun ho => absurd h.1 ho
  | _ => trivial

/-- C121: the value of every expression that is written with digits, operators, parentheses and invariants is Lorentz invariant, and so is the
exception its evaluation raises; the traces in it have an even number of slots. -/
theorem C121_expression (c : Ctx K) (g h : M2 K) (ps ps' : Point K n) (H : LorentzImage c g h ps ps') (hs : SpinorsOrNone ps ps') (fuel : ℕ)
    (ts : List WTok) (hx : Expression ts) (hx' : classify (exprText ts) = .expression) (ht : ∀ l, .leaf l ∈ ts → l.EvenTrace) :
    callNumber ps' fuel (exprText ts) = callNumber ps fuel (exprText ts) := by
  refine C121_text c g h ps ps' H hs fuel _ ?_ ?_
  · intro u hu
    rw [rsubs_plain _ (expr_plain hx)] at hu
    cases hu
    rw [hx']
    trivial
  · intro name hn
    obtain ⟨l, hl, rfl⟩ := asked_written hx hn
    exact closed_name (hx.1 _ hl) (ht l hl)

/-! ### Texts that are not invariant -/

theorem call_trace {c : Ctx K} {ps : Point K 2} {r l : Fin 2 → V2 K} (h : ∀ k, IsMassless c (ps k) (r k) (l k)) (fuel : ℕ) :
    callNumber ps fuel "tr(1)".toList = some (.ok (r 0 0 * l 0 0 + r 0 1 * l 0 1)) := by
  refine callNumber_text ps fuel ?_
  rw [computeText, rsubs_plain _ (by decide)]
  have hc : classify "tr(1)".toList = .tr ["1".toList] := by decide +kernel
  simp only [hc, evalForm]
  have hr : readSlots 2 ["1".toList] = .ok [[(true, 0)]] := by decide +kernel
  rw [hr]
  simp only [computeTr, chain, slotMat, List.map_cons, List.map_nil, List.sum_cons, List.sum_nil, if_true, add_zero, mul_one, (h 0).r2b]
  simp [asNum, trace, Fin.sum_univ_two, outer_apply]

theorem call_ascii {c : Ctx K} {ps : Point K 2} {r l : Fin 2 → V2 K} (h : ∀ k, IsMassless c (ps k) (r k) (l k)) (fuel : ℕ) :
    callNumber ps fuel "<1|2|1]".toList = some (.ok (bil (l 0) (outer ![l 1 1, -l 1 0] ![r 1 1, -r 1 0]) ![l 0 1, -l 0 0])) := by
  refine callNumber_text ps fuel ?_
  rw [computeText, rsubs_plain _ (by decide)]
  have hc : classify "<1|2|1]".toList = .string '<' "1".toList ["2".toList] "1".toList ']' := by decide +kernel
  simp only [hc, evalForm]
  have hr : readSlots 2 ["2".toList] = .ok [[(true, 1)]] := by decide +kernel
  have hl : readLabel 2 "1".toList = .ok 0 := by decide +kernel
  rw [evalString, hr, hl]
  have hch : chain ps false [[(true, 1)]] = outer ![l 1 1, -l 1 0] ![r 1 1, -r 1 0] := by simp [chain, slotMat, (h 1).r2]
  simp only [List.length_singleton, nbSyntaxError, computeNB, (h 0).toHasSpinors.l_u, (h 0).l_d, need]
  simp [asNum, bil, hch]

/-- C121 (finding): a trace with an odd number of slots is computed without complaint and is not Lorentz invariant; nor is a string opened by the
character `<`, the ends of which are not checked. -/
theorem C121_not_invariant [NeZero (2 : K)] (c : Ctx K) : ∃ (g : M2 K) (ps ps' : Point K 2), LorentzImage c g 1 ps ps' ∧ SpinorsOrNone ps ps' ∧
    (callNumber ps 0 "tr(1)".toList = some (.ok 1) ∧ callNumber ps' 0 "tr(1)".toList = some (.ok 0)) ∧
    (callNumber ps 0 "<1|2|1]".toList = some (.ok 1) ∧ callNumber ps' 0 "<1|2|1]".toList = some (.ok 0)) := by
  let r : Fin 2 → V2 K := ![![1, 0], ![1, 0]]
  let l : Fin 2 → V2 K := ![![1, 0], ![0, 1]]
  let g : M2 K := !![0, 1; -1, 0]
  have hps : ∀ k, IsMassless c ((ofSpinors c (r k) (l k)).st) (r k) (l k) := fun k => ofSpinors_isMassless c _ _
  have H := C20_images_exist c g 1 (by simp [g, det_fin_two]) (by simp) _ r l hps
  have hps' : ∀ k, IsMassless c ((ofSpinors c (g.mulVec (r k)) (vecMul (l k) 1)).st) (g.mulVec (r k)) (vecMul (l k) 1) := fun k =>
    ofSpinors_isMassless c _ _
  refine ⟨_, _, _, H, fun k => .inl ⟨r k, l k, (hps k).r_d, (hps k).l_d⟩, ⟨?_, ?_⟩, ?_, ?_⟩
  · rw [call_trace hps]; simp [r, l]
  · rw [call_trace hps']; simp [r, l, g, mulVec, dotProduct]
  · rw [call_ascii hps]; simp [r, l, bil_eq, outer_apply]
  · rw [call_ascii hps']; simp [r, l, g, bil_eq, outer_apply, mulVec, dotProduct]

end Lips

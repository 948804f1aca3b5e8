import Verif.Props.SetReads
import Verif.Props.DispatchTraces
import Verif.Props.SetBracket
import Verif.Props.SetMiddle
import Verif.Props.SetMandelstam
import Verif.Props.SetPoly
import Verif.Props.SetTr5
import Verif.Props.Set5B
import Verif.Props.Parse

/-!
Property C93, second part: `_set` on the text of an invariant.
-/

namespace Lips

open Matrix Computability

variable {K : Type*} [Field K] {n : ℕ} {Γ : Type*} [LinearOrder Γ]

/-- `_set(text, X)` returns with the point `ps'`, on which `compute(text)` is `X`, momentum is conserved and every
particle is massless and consistent. -/
def SetsTo (abs : K → Γ) (tol : Γ) (c : Ctx K) (ps : Point K n) (fuel : ℕ) (t : List Char) (X : K) (mode : ℕ)
    (ps' : Point K n) : Prop :=
  setText abs tol c ps fuel t X true mode = some (.ok ps') ∧ callNumber ps' fuel t = some (.ok X) ∧ GoodPoint c ps'

/-! ### The checks -/

/-- **C93**: a text that `check_consistency` refuses raises an IndexError. -/
theorem C93_refused (abs : K → Γ) (tol : Γ) (c : Ctx K) (ps : Point K n) (fuel : ℕ) (t : List Char) (hp : plainChars t)
    (ht : t = [] ∨ t ∈ [['s'], ['S'], ['Δ'], ['Ω'], ['Π'], ['δ']] ∨ "tr5".toList <+: t ∧ t.length < 5) (X : K) (fix : Bool)
    (mode : ℕ) : setText abs tol c ps fuel t X fix mode = some (.error .indexError) := by
  obtain ⟨e, he⟩ := (C93_check_raises t).mpr ht
  have hi : e = .indexError := by
    unfold checkConsistency at he
    split at he
    · cases he; rfl
    · split at he
      · split at he
        · cases he; rfl
        · split at he
          · cases he
          · split at he
            · cases he
            · split at he <;> cases he
              rfl
      · cases he
  subst hi
  have h1 : setInner c ps fuel t X fix mode = some (.error .indexError) := by
    unfold setInner
    rw [if_pos hp, he]
  simp only [setText, h1]

/-- **C93**: whenever `_set` returns, `compute` of the text is within tolerance of the requested value; with
momentum fixing so are the total momentum from zero and all masses from zero. -/
theorem C93_returns (abs : K → Γ) (tol : Γ) (c : Ctx K) (ps : Point K n) (fuel : ℕ) (t : List Char) (X : K) (fix : Bool)
    (mode : ℕ) (ps' : Point K n) (h : setText abs tol c ps fuel t X fix mode = some (.ok ps')) :
    ∃ v, callNumber ps' fuel t = some (.ok v) ∧ abs (v - X) ≤ tol ∧
      (fix = true → (∀ i j, abs (∑ k, (ps' k).r2 i j) ≤ tol) ∧ ∀ k, abs (ps' k).m2 ≤ tol) := by
  unfold setText at h
  split at h
  · cases h
  · cases h
  · rename_i ps1 _
    split at h
    · cases h
    · rename_i v hv
      simp only [Option.some.injEq] at h
      unfold setChecks at h
      split at h
      · rename_i mom shell h1 h2
        split_ifs at h with g1 g2 g3
        injection h with h
        subst h
        refine ⟨v, hv, g3, fun hf => ?_⟩
        subst hf
        simp only [if_true] at h1 h2
        rw [Bool.not_eq_false] at g1 g2
        subst g1 g2
        refine ⟨(C49_momentum_conservation_check abs tol ps1).1.mp h1, fun k => ?_⟩
        have hne : (List.ofFn fun i => (ps1 i).m2) ≠ [] := by
          have : n ≠ 0 := fun e => by subst e; exact k.elim0
          simp [this]
        exact (withinTol_iff abs tol _ hne).1.mp h2 _ (List.mem_ofFn.mpr ⟨k, rfl⟩)
      · cases h
      · cases h
    · cases h

theorem good_checks [NeZero (2 : K)] {abs : K → Γ} {tol : Γ} (h0 : abs 0 ≤ tol) {c : Ctx K} {ps : Point K n}
    (hn : n ≠ 0) (hg : GoodPoint c ps) (v X : K) (fix : Bool) :
    setChecks abs tol ps v X fix = if abs (v - X) ≤ tol then .ok ps else .error .exception := by
  obtain ⟨hc, r, l, h⟩ := hg
  have h1 := C49_check_after_fix abs tol h0 ps hc
  have h2 := (C49_onshell_relation_check c abs tol hn ps fun k => (h k).cons).1.mpr fun k => by
    have := (h k).massless
    rw [Massless, ← Matrix.det_fin_two] at this
    rw [this]; exact h0
  cases fix <;> simp [setChecks, h1, h2]

theorem setsTo_of [NeZero (2 : K)] {abs : K → Γ} {tol : Γ} (h0 : abs 0 ≤ tol) {c : Ctx K} {ps ps' : Point K n}
    {fuel : ℕ} {t : List Char} {X : K} {mode : ℕ} (hn : n ≠ 0)
    (hi : setInner c ps fuel t X true mode = some (.ok ps')) (hv : computeText ps' fuel t = some (.ok (.num X)))
    (hg : GoodPoint c ps') : SetsTo abs tol c ps fuel t X mode ps' := by
  have hv := callNumber_text (r := .ok X) ps' fuel hv
  refine ⟨?_, hv, hg⟩
  unfold setText
  simp only [hi, hv, good_checks h0 hn hg, sub_self, h0, if_true]

/-- `_set` after a setter that produced another value: it raises. -/
theorem set_raises_of [NeZero (2 : K)] {abs : K → Γ} {tol : Γ} (h0 : abs 0 ≤ tol) {c : Ctx K} {ps ps' : Point K n}
    {fuel : ℕ} {t : List Char} {X v : K} {mode : ℕ} (hn : n ≠ 0)
    (hi : setInner c ps fuel t X true mode = some (.ok ps')) (hv : computeText ps' fuel t = some (.ok (.num v)))
    (hg : GoodPoint c ps') (hx : tol < abs (v - X)) :
    setText abs tol c ps fuel t X true mode = some (.error .exception) := by
  have hv := callNumber_text (r := .ok v) ps' fuel hv
  unfold setText
  simp only [hi, hv, good_checks h0 hn hg, if_neg (not_le.mpr hx)]

/-! ### Characters -/

theorem plainChars_iff (t : List Char) :
    plainChars t = true ↔ ∀ c ∈ t, c.toNat < 128 ∨ c ∈ ['⟨', '⟩', 'Δ', 'Ω', 'Π', 'δ'] := by
  simp only [plainChars, List.all_eq_true, Bool.or_eq_true, decide_eq_true_eq]

theorem digit_ascii {c : Char} (h : c.isDigit = true) : c.toNat < 128 := by
  have := (isDigit_iff c).mp h
  have h2 : c ≤ '9' := this.2
  rw [Char.le_def] at h2
  have : c.val.toNat ≤ ('9' : Char).val.toNat := h2
  have e : ('9' : Char).val.toNat = 57 := rfl
  rw [e] at this
  show c.val.toNat < 128
  omega

theorem mem_join {c : Char} : ∀ {l : List (List Char)}, c ∈ ['|'].intercalate l → c = '|' ∨ ∃ t ∈ l, c ∈ t
  | [], h => by simp at h
  | [t], h => .inr ⟨t, by simp, by simpa using h⟩
  | t :: u :: l, h => by
    rw [List.intercalate_cons_cons] at h
    simp only [List.mem_append, List.mem_cons, List.not_mem_nil, or_false] at h
    rcases h with (h | h) | h
    · exact .inr ⟨t, by simp, h⟩
    · exact .inl h
    · rcases mem_join h with h | ⟨v, hv, h⟩
      · exact .inl h
      · exact .inr ⟨v, List.mem_cons_of_mem _ hv, h⟩

theorem plain_append {s t : List Char} (hs : plainChars s = true) (ht : plainChars t = true) :
    plainChars (s ++ t) = true := by
  rw [plainChars, List.all_append]
  exact (Bool.and_eq_true _ _).mpr ⟨hs, ht⟩

theorem plain_cons {c : Char} {t : List Char} (hc : plainChars [c] = true) (ht : plainChars t = true) :
    plainChars (c :: t) = true := plain_append hc ht

theorem plain_digits {t : List Char} (h : ∀ c ∈ t, c.isDigit = true) : plainChars t = true :=
  (plainChars_iff t).mpr fun c hc => .inl (digit_ascii (h c hc))

theorem plain_join {l : List (List Char)} (h : ∀ t ∈ l, plainChars t = true) : plainChars (['|'].intercalate l) = true := by
  rw [plainChars_iff]
  intro c hc
  rcases mem_join hc with rfl | ⟨t, ht, hc⟩
  · exact .inl (by decide)
  · exact (plainChars_iff t).mp (h t ht) c hc

theorem plain_slot (s : Bool × List (Bool × ℕ)) : plainChars (slotText s) = true := by
  have hb : plainChars (slotBody s.2) = true := by
    rw [plainChars_iff]
    intro c hc
    rcases mem_slotBody hc with h | rfl | rfl
    · exact .inl (digit_ascii h)
    · exact .inl (by decide)
    · exact .inl (by decide)
  unfold slotText
  split
  · exact plain_cons (by decide) (plain_append hb (by decide))
  · exact hb

/-! ### From the text to the setter -/

theorem setInner_of {c : Ctx K} {ps : Point K n} {fuel : ℕ} {t : List Char} {X : K} {fix : Bool} {mode : ℕ} {f : SetForm}
    (hp : plainChars t = true) (hf : f ≠ .nothing) (hr : SetReads t f) :
    setInner c ps fuel t X fix mode = setForm c ps fuel t X fix mode f := by
  unfold setInner
  rw [if_pos hp, C93_check_passes hr, (C93_reads hf).mpr hr]

theorem digits_pyStr (k : ℕ) : pyStr k ∈ plus digitL := (isDigits_lang _).mp (isDigits_pyStr k)

theorem plain_two {first last : Char} (hf : plainChars [first] = true) (hl : plainChars [last] = true) (a b : ℕ) :
    plainChars (twoText first a b last) = true :=
  plain_cons hf (plain_append (plain_append (plain_digits (pyStr_digits _)) (plain_cons (by decide)
    (plain_digits (pyStr_digits _)))) hl)

/-- **C93**: `_set` with the text `⟨A|B⟩` (or `<A|B>`). -/
theorem C93_angle [NeZero (2 : K)] (abs : K → Γ) (tol : Γ) (h0 : abs 0 ≤ tol) (c : Ctx K) (ps : Point K n)
    (r l : Fin n → V2 K) (h : ∀ k, IsMassless c (ps k) (r k) (l k)) (first last : Char) (hf : first ∈ ['⟨', '<'])
    (hl : last ∈ ['⟩', '>']) (A B p q : Fin n) (hAB : A ≠ B) (hpq : FirstTwoFree [A, B] p q) (X : K) (hA : r A 1 ≠ 0)
    (hd : SpecAngle (r p) (r q) ≠ 0) (fuel mode : ℕ) :
    ∃ ps', SetsTo abs tol c ps fuel (twoText first (A + 1) (B + 1) last) X mode ps' ∧
      ∀ k, k ≠ B → k ≠ p → k ≠ q → ps' k = ps k := by
  obtain ⟨ps', e, hv, hc, hm, -, -, -, -, ho⟩ := C61_set_angle c ps r l h A B p q hAB hpq X hA hd
  have hread : SetReads (twoText first (A + 1) (B + 1) last) (.angle (pyStr (A + 1)) (pyStr (B + 1))) := by
    refine .form (g := .angle (pyStr (A + 1)) (pyStr (B + 1))) ?_ rfl
    have := ReadsAs.angle hf hl (digits_pyStr (A + 1)) (digits_pyStr (B + 1))
    simpa [twoText] using this
  have hpl : plainChars (twoText first (A + 1) (B + 1) last) = true := by
    simp only [List.mem_cons, List.not_mem_nil, or_false] at hf hl
    apply plain_two
    · rcases hf with rfl | rfl <;> decide
    · rcases hl with rfl | rfl <;> decide
  refine ⟨ps', setsTo_of h0 (fun e => by subst e; exact A.elim0) ?_ ?_ ⟨hc, hm⟩, ho⟩
  · rw [setInner_of hpl (by simp) hread]
    simp only [setForm, readLabel_ok, e]
  · rw [C82_angle ps' fuel first last hf hl A B, hv]
    rfl

/-- **C93**: `_set` with the text `[A|B]`. -/
theorem C93_square [NeZero (2 : K)] (abs : K → Γ) (tol : Γ) (h0 : abs 0 ≤ tol) (c : Ctx K) (ps : Point K n)
    (r l : Fin n → V2 K) (h : ∀ k, IsMassless c (ps k) (r k) (l k)) (A B p q : Fin n) (hAB : A ≠ B)
    (hpq : FirstTwoFree [A, B] p q) (X : K) (hA : l A 0 ≠ 0) (hd : SpecSquare (l p) (l q) ≠ 0) (fuel mode : ℕ) :
    ∃ ps', SetsTo abs tol c ps fuel (twoText '[' (A + 1) (B + 1) ']') X mode ps' ∧
      ∀ k, k ≠ B → k ≠ p → k ≠ q → ps' k = ps k := by
  obtain ⟨ps', e, hv, hc, hm, -, -, -, -, ho⟩ := C61_set_square c ps r l h A B p q hAB hpq X hA hd
  have hread : SetReads (twoText '[' (A + 1) (B + 1) ']') (.square (pyStr (A + 1)) (pyStr (B + 1))) := by
    refine .form (g := .square (pyStr (A + 1)) (pyStr (B + 1))) ?_ rfl
    have := ReadsAs.square (digits_pyStr (A + 1)) (digits_pyStr (B + 1))
    simpa [twoText] using this
  refine ⟨ps', setsTo_of h0 (fun e => by subst e; exact A.elim0) ?_ ?_ ⟨hc, hm⟩, ho⟩
  · rw [setInner_of (plain_two (by decide) (by decide) _ _) (by simp) hread]
    simp only [setForm, readLabel_ok, e]
  · rw [C82_square ps' fuel A B, hv]
    rfl

/-! ### Spinor strings -/

/-- The text of a string; each slot is written with or without parentheses around it. -/
def strText (first : Char) (s : Fin n) (ss : List (Bool × List (Fin n))) (e : Fin n) (last : Char) : List Char :=
  stringText first (s + 1) (ss.map fun m => slotOf (m.1, plusOf m.2)) (e + 1) last

/-- What a text of a string stands for. -/
abbrev strOf (first : Char) (s : Fin n) (ss : List (Bool × List (Fin n))) (e : Fin n) (last : Char) : Str n :=
  ⟨first, s, ss.map Prod.snd, e, last⟩

theorem getLNB_strText (first last : Char) (s e : Fin n) (ss : List (Bool × List (Fin n)))
    (hf : first ∈ ['<', '⟨', '[']) (hl : last ∈ ['⟩', ']', '>']) (hne : ss ≠ []) (hm : ∀ m ∈ ss, m.2 ≠ []) :
    getLNB (strText first s ss e last) =
      .ok ((s : ℕ) + 1, ss.map fun m => m.2.map fun k : Fin n => (k : ℕ) + 1, (e : ℕ) + 1) := by
  rw [getLNB, strText, matchNB_text _ _ _ _ _ hf hl (by simpa using hne)]
  · simp only [pyInt_ok]
    have : ((ss.map fun m => slotOf (m.1, plusOf m.2)).map slotText).mapM
        (fun entry => ((stripParens entry).splitOn '+').mapM pyInt) =
        .ok (ss.map fun m => m.2.map fun k : Fin n => (k : ℕ) + 1) := by
      rw [List.map_map, List.mapM_map]
      refine mapM_ok _ _ _ fun m hm' => ?_
      have e1 : (slotOf (m.1, plusOf m.2)).2 = (m.2.map fun k : Fin n => (k : ℕ) + 1).map fun k => (true, k) := by
        simp [slotOf, plusOf]
      simp only [Function.comp, stripParens_slot, e1, slotBody_plus]
      rw [List.splitOn_intercalate, List.mapM_map, mapM_ok _ id _ fun k _ => ?_, List.map_id]
      · exact pyInt_ok k
      · intro l hl h
        obtain ⟨k, _, rfl⟩ := List.mem_map.1 hl
        exact (digit_ne (pyStr_digits k _ h)).2.2.2.1 rfl
      · simpa using hm m hm'
    rw [this]
  · intro x hx
    obtain ⟨m, hm', rfl⟩ := List.mem_map.1 hx
    simpa [slotOf, plusOf] using hm m hm'

theorem setNBText_eq (c : Ctx K) (ps : Point K n) (first last : Char) (s e : Fin n) (ss : List (Bool × List (Fin n)))
    (hf : first ∈ ['⟨', '[']) (hl : last ∈ ['⟩', ']']) (hne : ss ≠ []) (hm : ∀ m ∈ ss, m.2 ≠ [])
    (hmod : nbModelled (strOf first s ss e last).labels) (X : K) (fix : Bool) (mode : ℕ) :
    setNBText c ps (strText first s ss e last) first last X fix mode =
      some (setNB c (n + 3) ps (strOf first s ss e last) X fix mode) := by
  have hms : (ss.map fun m => m.2.map fun k : Fin n => (k : ℕ) + 1).mapM (fun m => m.mapM (label n)) =
      .ok (ss.map Prod.snd) := by
    rw [List.mapM_map]
    refine mapM_ok _ _ _ fun m _ => ?_
    simp only [Function.comp]
    rw [List.mapM_map, mapM_ok _ id _ fun k _ => ?_, List.map_id]
    simp only [Function.comp, label_succ, id]
  simp only [List.mem_cons, List.not_mem_nil, or_false] at hf hl
  rw [setNBText, getLNB_strText _ _ _ _ _ (by rcases hf with rfl | rfl <;> simp) (by rcases hl with rfl | rfl <;> simp) hne hm]
  have hb : ¬(first = '<' ∨ last = '>') := by rcases hf with rfl | rfl <;> rcases hl with rfl | rfl <;> decide
  simp only [hb, if_false, label_succ, hms]
  rw [if_pos hmod]

theorem strText_reads (first last : Char) (s e : Fin n) (ss : List (Bool × List (Fin n)))
    (hf : first ∈ ['⟨', '[']) (hl : last ∈ ['⟩', ']']) (hne : ss ≠ []) (hm : ∀ m ∈ ss, m.2 ≠ []) :
    ∃ a m d, SetReads (strText first s ss e last) (.string first a m d last) := by
  refine ⟨_, _, _, .form ((C92_reads (by simp)).mp (classify_string first (s + 1) (ss.map fun m => slotOf (m.1, plusOf m.2))
    (e + 1) last ?_ ?_ (by simpa using hne) ?_)) rfl⟩
  · simp only [List.mem_cons, List.not_mem_nil, or_false] at hf
    rcases hf with rfl | rfl <;> simp
  · simp only [List.mem_cons, List.not_mem_nil, or_false] at hl
    rcases hl with rfl | rfl <;> simp
  · intro x hx
    obtain ⟨m, hm', rfl⟩ := List.mem_map.1 hx
    simpa [slotOf, plusOf] using hm m hm'

theorem strText_plain (first last : Char) (s e : Fin n) (ss : List (Bool × List (Fin n)))
    (hf : first ∈ ['⟨', '[']) (hl : last ∈ ['⟩', ']']) : plainChars (strText first s ss e last) = true := by
  simp only [List.mem_cons, List.not_mem_nil, or_false] at hf hl
  refine plain_cons (by rcases hf with rfl | rfl <;> decide) (plain_append (plain_join ?_)
    (by rcases hl with rfl | rfl <;> decide))
  intro t ht
  simp only [List.mem_cons, List.mem_append, List.mem_map, List.not_mem_nil, or_false] at ht
  rcases ht with rfl | ⟨_, _, rfl⟩ | rfl
  · exact plain_digits (pyStr_digits _)
  · exact plain_slot _
  · exact plain_digits (pyStr_digits _)

theorem strText_value (ps : Point K n) (fuel : ℕ) (first last : Char) (s e : Fin n) (ss : List (Bool × List (Fin n)))
    (hf : first ∈ ['⟨', '[']) (hl : last ∈ ['⟩', ']']) (hne : ss ≠ []) (hm : ∀ m ∈ ss, m.2 ≠ []) :
    computeText ps fuel (strText first s ss e last) = some (asNum ((strOf first s ss e last).value ps)) := by
  simp only [List.mem_cons, List.not_mem_nil, or_false] at hf hl
  have := C82_string ps fuel first last (by rcases hf with rfl | rfl <;> simp) (by rcases hl with rfl | rfl <;> simp) s e
    (ss.map fun m => (m.1, plusOf m.2)) (by simpa using hne) ?_
  · rw [strText]
    simp only [List.map_map] at this
    refine this.trans ?_
    simp only [Str.value, List.map_map]
    rfl
  · intro x hx
    obtain ⟨m, hm', rfl⟩ := List.mem_map.1 hx
    obtain ⟨k, ks, e⟩ := List.exists_cons_of_ne_nil (hm m hm')
    exact ⟨k, plusOf ks, by simp [e, plusOf]⟩

/-- What `_set` does with the text of a string of one-digit labels is what `_set_NB` does with the string. -/
theorem string_setsTo [NeZero (2 : K)] {abs : K → Γ} {tol : Γ} (h0 : abs 0 ≤ tol) {c : Ctx K} {ps ps' : Point K n}
    {first last : Char} {s e : Fin n} {ss : List (Bool × List (Fin n))} (w : (strOf first s ss e last).Wf)
    (hne : ss ≠ []) (hm : ∀ m ∈ ss, m.2 ≠ []) (hmod : nbModelled (strOf first s ss e last).labels) {X : K} {mode : ℕ}
    (he : setNB c (n + 3) ps (strOf first s ss e last) X true mode = .ok ps')
    (hv : (strOf first s ss e last).value ps' = .ok X) (hg : GoodPoint c ps') (fuel : ℕ) :
    SetsTo abs tol c ps fuel (strText first s ss e last) X mode ps' := by
  have hf : first ∈ ['⟨', '['] ∧ last ∈ ['⟩', ']'] := by
    rcases w with ⟨w1, w2⟩ | ⟨w1, w2⟩ <;> simp only at w1 w2 <;> rw [w1, w2] <;> split <;> simp
  obtain ⟨a, m, d, hr⟩ := strText_reads first last s e ss hf.1 hf.2 hne hm
  refine setsTo_of h0 (fun e' => by subst e'; exact s.elim0) ?_ ?_ hg
  · rw [setInner_of (strText_plain first last s e ss hf.1 hf.2) (by simp) hr]
    simp only [setForm]
    rw [setNBText_eq c ps first last s e ss hf.1 hf.2 hne hm hmod, he]
  · rw [strText_value ps' fuel first last s e ss hf.1 hf.2 hne hm, hv]
    rfl

theorem nbModelled_of {labels : List (Fin n)} {p q : Fin n} (h1 : OneDigit labels) (h2 : FirstTwoFree labels p q) :
    nbModelled labels := by
  refine ⟨h1, .inr ?_⟩
  obtain ⟨rest, hr⟩ := freeLabels_firstTwo h2
  simp [hr]

/-- **C93**: `_set` with the text of a string of one-digit labels whose head occurs in no slot (and not as tail,
unless the two ends are spinors of different kinds); see `C62_head_linear` for the guards. -/
theorem C93_string_head [NeZero (2 : K)] (abs : K → Γ) (tol : Γ) (h0 : abs 0 ≤ tol) (c : Ctx K) (ps : Point K n)
    (r l : Fin n → V2 K) (h : ∀ k, IsMassless c (ps k) (r k) (l k)) (first last : Char) (s e : Fin n)
    (ss : List (Bool × List (Fin n))) (w : (strOf first s ss e last).Wf) (hne : ss ≠ []) (hm : ∀ m ∈ ss, m.2 ≠ [])
    (h1 : OneDigit (strOf first s ss e last).labels) (hs : s ∉ (ss.map Prod.snd).flatten) (hse : ss.length % 2 = 1 ∨ s ≠ e)
    (p q : Fin n) (hpq : FirstTwoFree (strOf first s ss e last).labels p q) (X : K) {v : V2 K}
    (hv : computeOpenBegin ps ((ss.map Prod.snd).map plusOf) e last = .ok v) (hv0 : v 0 ≠ 0)
    (hd : SpecSquare (l p) (l q) ≠ 0) (fuel : ℕ) :
    ∃ ps', SetsTo abs tol c ps fuel (strText first s ss e last) X 1 ps' ∧ ∀ k, k ≠ s → k ≠ p → k ≠ q → ps' k = ps k := by
  obtain ⟨ps', e1, e2, e3, e4⟩ := C62_head_linear c ps r l h (strOf first s ss e last) w hs (by simpa using hse) p q hpq X hv hv0
    hd (n + 2)
  exact ⟨ps', string_setsTo h0 w hne hm (nbModelled_of h1 hpq) e1 e2 e3 fuel, e4⟩

/-- **C93**: `_set` with the text of a string whose two ends are the same label, where the requested value needs a
square root that exists. -/
theorem C93_string_quadratic [NeZero (2 : K)] (abs : K → Γ) (tol : Γ) (h0 : abs 0 ≤ tol) (c : Ctx K) (ps : Point K n)
    (r l : Fin n → V2 K) (h : ∀ k, IsMassless c (ps k) (r k) (l k)) (first last : Char) (s : Fin n)
    (ss : List (Bool × List (Fin n))) (w : (strOf first s ss s last).Wf) (hne : ss ≠ []) (hm : ∀ m ∈ ss, m.2 ≠ [])
    (h1 : OneDigit (strOf first s ss s last).labels) (hs : s ∉ (ss.map Prod.snd).flatten) (hev : ss.length % 2 = 0)
    (p q : Fin n) (hpq : FirstTwoFree (strOf first s ss s last).labels p q) (X y : K) {M : M2 K}
    (hM : chain ps (first = '⟨') ((ss.map Prod.snd).map plusOf) = M)
    (hy : (first = '⟨' → c.sqrt ((r s 1 * M 0 0 - r s 1 * M 1 1) * (r s 1 * M 0 0 - r s 1 * M 1 1) +
        4 * M 1 0 * (r s 1 * r s 1 * M 0 1 - X)) = some y ∧ M 1 0 ≠ 0) ∧
      (first = '[' → c.sqrt ((l s 1 * M 0 0 - l s 1 * M 1 1) * (l s 1 * M 0 0 - l s 1 * M 1 1) +
        4 * M 0 1 * (l s 1 * l s 1 * M 1 0 - X)) = some y ∧ M 0 1 ≠ 0))
    (hd : SpecSquare (l p) (l q) ≠ 0) (fuel : ℕ) :
    ∃ ps', SetsTo abs tol c ps fuel (strText first s ss s last) X 1 ps' ∧ ∀ k, k ≠ s → k ≠ p → k ≠ q → ps' k = ps k := by
  obtain ⟨ps', e1, e2, e3, e4⟩ := C62_head_quadratic c ps r l h (strOf first s ss s last) w hs rfl (by simpa using hev) p q hpq X y
    hM hy hd (n + 2)
  exact ⟨ps', string_setsTo h0 w hne hm (nbModelled_of h1 hpq) e1 e2 e3 fuel, e4⟩

/-- **C93**: `_set` with the text of a string whose first slot contains a label `b` that occurs nowhere else, where
the mode or the ends exclude setting the head; see `C63_first_slot` for the guards. -/
theorem C93_string_middle [NeZero (2 : K)] (abs : K → Γ) (tol : Γ) (h0 : abs 0 ≤ tol) (c : Ctx K) (ps : Point K n)
    (r l : Fin n → V2 K) (h : ∀ k, IsMassless c (ps k) (r k) (l k)) (first last : Char) (s e : Fin n)
    (ss : List (Bool × List (Fin n))) (w : (strOf first s ss e last).Wf) (hne : ss ≠ []) (hm : ∀ m ∈ ss, m.2 ≠ [])
    (h1 : OneDigit (strOf first s ss e last).labels) (xs ys : List (Fin n)) (b : Fin n)
    (hb : FirstUnique (strOf first s ss e last) 0 xs b ys) (hx : b ∉ xs) (hyy : b ∉ ys) (mode : ℕ)
    (hmode : NotAtEnds (strOf first s ss e last) mode) (p q : Fin n)
    (hpq : FirstTwoFree (strOf first s ss e last).labels p q) (X y : K)
    (hy : endOfPart ps first b ((ss.map Prod.snd).drop 1) e last = .ok y) (hy0 : y ≠ 0)
    (ha : first = '⟨' → r s 1 ≠ 0) (ha' : first = '[' → l s 0 ≠ 0) (hd : SpecSquare (l p) (l q) ≠ 0) (fuel : ℕ) :
    ∃ ps', SetsTo abs tol c ps fuel (strText first s ss e last) X mode ps' ∧
      ∀ k, k ≠ b → k ≠ p → k ≠ q → ps' k = ps k := by
  obtain ⟨ps', e1, e2, e3, e4⟩ := C63_first_slot c ps r l h (strOf first s ss e last) w xs ys b hb hx hyy mode hmode p q hpq X y
    hy hy0 ha ha' hd (n + 2)
  exact ⟨ps', string_setsTo h0 w hne hm (nbModelled_of h1 hpq) e1 e2 e3 fuel, e4⟩

/-- **C93 fails** for strings with an even number of slots of which only the tail occurs once: `_set_NB` sets the
string to `-X`, and `_set` raises unless `-2X` is within tolerance. -/
theorem C93_string_tail_raises [NeZero (2 : K)] (abs : K → Γ) (tol : Γ) (h0 : abs 0 ≤ tol) (c : Ctx K) (ps : Point K n)
    (r l : Fin n → V2 K) (h : ∀ k, IsMassless c (ps k) (r k) (l k)) (first last : Char) (s e : Fin n)
    (ss : List (Bool × List (Fin n))) (w : (strOf first s ss e last).Wf) (hne : ss ≠ []) (hm : ∀ m ∈ ss, m.2 ≠ [])
    (h1 : OneDigit (strOf first s ss e last).labels) (hs : s ∈ (ss.map Prod.snd).flatten)
    (he : e ∉ (ss.map Prod.snd).flatten) (hev : ss.length % 2 = 0)
    (p q : Fin n) (hpq : FirstTwoFree (strOf first s ss e last).labels p q) (X : K) {v : V2 K}
    (hv : computeOpenBegin ps ((strOf first s ss e last).reverse.ms.map plusOf) s (strOf first s ss e last).reverse.last =
      .ok v) (hv0 : v 0 ≠ 0) (hd : SpecSquare (l p) (l q) ≠ 0) (hX : tol < abs (-X - X)) (fuel : ℕ) :
    setText abs tol c ps fuel (strText first s ss e last) X true 1 = some (.error .exception) := by
  obtain ⟨ps', e1, e2, e3, -⟩ := C62_tail_partial c ps r l h (strOf first s ss e last) w hs he p q hpq X hv hv0 hd (n + 1)
  rw [if_pos (by simpa using hev)] at e2
  have hf : first ∈ ['⟨', '['] ∧ last ∈ ['⟩', ']'] := by
    rcases w with ⟨w1, w2⟩ | ⟨w1, w2⟩ <;> simp only at w1 w2 <;> rw [w1, w2] <;> split <;> simp
  obtain ⟨a, m, d, hr⟩ := strText_reads first last s e ss hf.1 hf.2 hne hm
  refine set_raises_of (ps' := ps') h0 (fun e' => by subst e'; exact s.elim0) ?_ ?_ e3 hX
  · rw [setInner_of (strText_plain first last s e ss hf.1 hf.2) (by simp) hr]
    simp only [setForm]
    rw [setNBText_eq c ps first last s e ss hf.1 hf.2 hne hm (nbModelled_of h1 hpq), e1]
  · rw [strText_value ps' fuel first last s e ss hf.1 hf.2 hne hm, e2]
    rfl

/-! ### Mandelstams -/

theorem mandelstam_reads {pre : List Char} (hp : pre ∈ ["s_".toList, "S_".toList, "s".toList, "S".toList])
    {ls : List (Fin n)} (hne : ls ≠ []) (h : OneDigit ls) :
    SetReads (pre ++ digitText ls) (.mandelstam (digitText ls)) ∧ plainChars (pre ++ digitText ls) = true := by
  have hd := (isDigits_lang _).mp (isDigits_digitText h hne)
  simp only [List.mem_cons, List.not_mem_nil, or_false] at hp
  constructor
  · refine .form (g := .mandelstam (digitText ls)) ?_ rfl
    rcases hp with rfl | rfl | rfl | rfl
    · exact ReadsAs.mandelstam (c := 's') (us := ['_']) (by simp) (by simp) hd
    · exact ReadsAs.mandelstam (c := 'S') (us := ['_']) (by simp) (by simp) hd
    · exact ReadsAs.mandelstam (c := 's') (us := []) (by simp) (by simp) hd
    · exact ReadsAs.mandelstam (c := 'S') (us := []) (by simp) (by simp) hd
  · refine plain_append ?_ (plain_digits (digitText_isDigit h))
    rcases hp with rfl | rfl | rfl | rfl <;> decide

/-- **C93**: `_set` with the text `s_i...` of three or more one-digit labels, in its four spellings and both modes;
see `C64_set_mandelstam` for the guards. -/
theorem C93_mandelstam [NeZero (2 : K)] (abs : K → Γ) (tol : Γ) (h0 : abs 0 ≤ tol) (c : Ctx K) (ps : Point K n)
    (r l : Fin n → V2 K) (h : ∀ k, IsMassless c (ps k) (r k) (l k)) (pre : List Char)
    (hp : pre ∈ ["s_".toList, "S_".toList, "s".toList, "S".toList]) (i : Fin n) (rest : List (Fin n))
    (h1 : OneDigit (i :: rest)) (hi : i ∉ rest) (hlen : 2 ≤ rest.length) (mode : ℕ) (hmode : mode = 1 ∨ mode = 2)
    (p q : Fin n) (hpq : FirstTwoFree (i :: rest) p q) (X : K) {v : V2 K}
    (hv : computeOpenBegin ps [plusOf rest] i (if mode = 1 then ']' else '⟩') = .ok v) (hv0 : v 0 ≠ 0)
    (hd : SpecSquare (l p) (l q) ≠ 0) (fuel : ℕ) :
    ∃ ps', SetsTo abs tol c ps fuel (pre ++ digitText (i :: rest)) X mode ps' ∧
      ∀ k, k ≠ i → k ≠ p → k ≠ q → ps' k = ps k := by
  obtain ⟨ps', e1, e2, e3, e4⟩ := C64_set_mandelstam c ps r l h i rest hi hlen mode hmode p q hpq X hv hv0 hd
  obtain ⟨hr, hpl⟩ := mandelstam_reads hp (List.cons_ne_nil i rest) h1
  refine ⟨ps', setsTo_of h0 (fun e' => by subst e'; exact i.elim0) ?_ ?_ e3, e4⟩
  · rw [setInner_of hpl (by simp) hr]
    have hl2 : (digitText (i :: rest)).length ≠ 2 := by simp [digitText]; omega
    have hl1 : ¬((i :: rest).length ≤ 1 ∨ ¬nbModelled (i :: rest)) := by
      rw [not_or, not_not]
      exact ⟨by rw [List.length_cons]; omega, nbModelled_of h1 hpq⟩
    simp only [setForm, setSText, if_neg hl2, readDigits_ok h1, if_neg hl1, e1]
  · rw [C82_mandelstam ps' fuel pre hp (i :: rest) (by simp) h1, e2]

/-- **C93**: `_set` of `s_ij` leaves the point as it is; it returns only if the invariant is within tolerance of the
requested value already. -/
theorem C93_two_labels (abs : K → Γ) (tol : Γ) (c : Ctx K) (ps : Point K n) (pre : List Char)
    (hp : pre ∈ ["s_".toList, "S_".toList, "s".toList, "S".toList]) (i j : Fin n) (h1 : OneDigit [i, j]) (X : K)
    (fix : Bool) (mode fuel : ℕ) :
    setInner c ps fuel (pre ++ digitText [i, j]) X fix mode = some (.ok ps) ∧
      (tol < abs (computeS ps [i, j] - X) →
        ∃ e, setText abs tol c ps fuel (pre ++ digitText [i, j]) X fix mode = some (.error e)) := by
  obtain ⟨hr, hpl⟩ := mandelstam_reads hp (List.cons_ne_nil i [j]) h1
  have hi : setInner c ps fuel (pre ++ digitText [i, j]) X fix mode = some (.ok ps) := by
    rw [setInner_of hpl (by simp) hr]
    have : (digitText [i, j]).length = 2 := by simp [digitText]
    simp only [setForm, setSText, if_pos this]
  refine ⟨hi, fun hX => ?_⟩
  have hv := callNumber_text (r := .ok _) ps fuel (C82_mandelstam ps fuel pre hp [i, j] (by simp) h1)
  rcases hs : setText abs tol c ps fuel (pre ++ digitText [i, j]) X fix mode with _ | e | ps'
  · unfold setText at hs
    simp [hi, hv] at hs
  · exact ⟨e, rfl⟩
  · exfalso
    have hps : ps' = ps := by
      unfold setText at hs
      simp only [hi, hv, Option.some.injEq] at hs
      unfold setChecks at hs
      split at hs
      · split_ifs at hs
        injection hs with hs
        exact hs.symm
      · cases hs
      · cases hs
    subst hps
    obtain ⟨v, e1, e2, -⟩ := C93_returns abs tol c _ fuel _ X fix mode _ hs
    rw [hv] at e1
    injection e1 with e1
    injection e1 with e1
    rw [← e1] at e2
    exact absurd hX (not_lt.mpr e2)

/-! ### Δ, Ω and Π -/

/-- **C93**: `_set` with the text `Δ_A|B|C` of three corners of one-digit labels: it returns with the value set, or
raises because the field has no square root of the discriminant; see `C65_set_delta` for the guards. -/
theorem C93_delta [NeZero (2 : K)] (abs : K → Γ) (tol : Γ) (h0 : abs 0 ≤ tol) (c : Ctx K) (ps : Point K n)
    (r l : Fin n → V2 K) (h : ∀ k, IsMassless c (ps k) (r k) (l k)) (A B C₀ : List (Fin n)) (p q k : Fin n) (mode : ℕ)
    (hmode : mode ≠ 0) (h1 : OneDigit A ∧ OneDigit B ∧ OneDigit (C₀ ++ [q, p])) (hB : B ≠ [])
    (hk : A[(mode - 1) / 2]? = some k) (hnd : (A ++ B ++ (C₀ ++ [q, p])).Nodup) (X : K) {Q1 Q2 Q3 : Particle K}
    (hQ1 : clusterLeg c ps (A.eraseIdx ((mode - 1) / 2)) = some Q1) (hQ2 : clusterLeg c ps B = some Q2)
    (hQ3 : clusterLeg c ps (C₀ ++ [q, p]) = some Q3)
    (hal : (if mode % 2 = 1 then Q2.r2b.mulVec ![l k 1, -l k 0] else vecMul ![r k 1, -r k 0] Q2.r2b) 0 ≠ 0)
    (hd : SpecSquare (l p) (l q) ≠ 0) (fuel : ℕ) :
    let t := "Δ_".toList ++ ['|'].intercalate [digitText A, digitText B, digitText (C₀ ++ [q, p])]
    (∃ D, c.sqrt D = none ∧ setText abs tol c ps fuel t X true mode = some (.error .valueError)) ∨
    ∃ ps', SetsTo abs tol c ps fuel t X mode ps' ∧ ∀ j, j ≠ k → j ≠ p → j ≠ q → ps' j = ps j := by
  intro t
  have hA : A ≠ [] := by rintro rfl; simp at hk
  have dig : ∀ u ∈ [digitText A, digitText B, digitText (C₀ ++ [q, p])], isDigits u = true := by
    intro u hu
    simp only [List.mem_cons, List.not_mem_nil, or_false] at hu
    rcases hu with rfl | rfl | rfl
    · exact isDigits_digitText h1.1 hA
    · exact isDigits_digitText h1.2.1 hB
    · exact isDigits_digitText h1.2.2 (by simp)
  have hr : SetReads t (.delta [digitText A, digitText B, digitText (C₀ ++ [q, p])]) :=
    .form (ReadsAs.delta (by simp) fun u hu => (isDigits_lang _).mp (dig u hu)) rfl
  have hpl : plainChars t = true := by
    refine plain_append (by decide) (plain_join fun u hu => plain_digits ?_)
    have := dig u hu
    exact (isDigits_iff.1 this).2
  have hset : ∀ o, setD c ps A B (C₀ ++ [q, p]) X true mode = o → setInner c ps fuel t X true mode = some o := by
    rintro o rfl
    rw [setInner_of hpl (by simp) hr]
    simp only [setForm, setDText, if_neg hmode, readDigits_ok h1.1, readDigits_ok h1.2.1, readDigits_ok h1.2.2]
  rcases C65_set_delta c ps r l h A B C₀ p q k mode hk hnd X hQ1 hQ2 hQ3 hal hd with ⟨D, hD, e⟩ | ⟨ps', e1, e2, -, e3, e4⟩
  · refine .inl ⟨D, hD, ?_⟩
    unfold setText
    rw [hset _ e]
  · refine .inr ⟨ps', setsTo_of h0 (fun e' => by subst e'; exact p.elim0) (hset _ e1) ?_ e3, e4⟩
    have := C82_delta ps' fuel A B [C₀ ++ [q, p]] (by simp [hA, hB]) (by simp [h1.1, h1.2.1, h1.2.2])
    refine this.trans ?_
    rw [← e2]
    congr 4
    funext i
    fin_cases i <;> rfl

theorem short_reads {i j k : Fin n} (h : OneDigit [i, j, k]) :
    SetReads ("Δ_".toList ++ digitText [i, j, k]) (.delta [digitText [i, j, k]]) ∧
    SetReads ("Ω_".toList ++ digitText [i, j, k]) (.omega (digitText [i, j, k])) ∧
    SetReads ("Π_".toList ++ digitText [i, j, k]) (.pi (digitText [i, j, k])) := by
  have hd := (isDigits_lang _).mp (isDigits_digitText h (by simp))
  refine ⟨.form (g := .delta [digitText [i, j, k]]) ?_ rfl, .form (.omega hd) rfl, .form (.pi hd) rfl⟩
  have := ReadsAs.delta (cs := [digitText [i, j, k]]) (by simp) (by simpa using hd)
  simpa using this

theorem short_plain {i j k : Fin n} (h : OneDigit [i, j, k]) :
    plainChars ("Δ_".toList ++ digitText [i, j, k]) = true ∧ plainChars ("Ω_".toList ++ digitText [i, j, k]) = true ∧
      plainChars ("Π_".toList ++ digitText [i, j, k]) = true := by
  have := plain_digits (digitText_isDigit h)
  exact ⟨plain_append (by decide) this, plain_append (by decide) this, plain_append (by decide) this⟩

/-- **C93**: `_set` with the text `Δ_ijk`, the corners being those that the labels generate; otherwise as for
explicit corners. -/
theorem C93_delta_short [NeZero (2 : K)] (abs : K → Γ) (tol : Γ) (h0 : abs 0 ≤ tol) (c : Ctx K) (ps : Point K n)
    (r l : Fin n → V2 K) (h : ∀ k, IsMassless c (ps k) (r k) (l k)) (x y z : Fin n) (h1 : OneDigit [x, y, z]) (fuel : ℕ)
    (A B C₀ : List (Fin n)) (p q k : Fin n) (mode : ℕ)
    (harcs : shortCorners n fuel (digitText [x, y, z]) = some (.ok (A, B, C₀ ++ [q, p])))
    (hmode : mode ≠ 0) (hk : A[(mode - 1) / 2]? = some k) (hnd : (A ++ B ++ (C₀ ++ [q, p])).Nodup) (X : K)
    {Q1 Q2 Q3 : Particle K}
    (hQ1 : clusterLeg c ps (A.eraseIdx ((mode - 1) / 2)) = some Q1) (hQ2 : clusterLeg c ps B = some Q2)
    (hQ3 : clusterLeg c ps (C₀ ++ [q, p]) = some Q3)
    (hal : (if mode % 2 = 1 then Q2.r2b.mulVec ![l k 1, -l k 0] else vecMul ![r k 1, -r k 0] Q2.r2b) 0 ≠ 0)
    (hd : SpecSquare (l p) (l q) ≠ 0) :
    (∃ D, c.sqrt D = none ∧
      setText abs tol c ps fuel ("Δ_".toList ++ digitText [x, y, z]) X true mode = some (.error .valueError)) ∨
    ∃ ps', SetsTo abs tol c ps fuel ("Δ_".toList ++ digitText [x, y, z]) X mode ps' ∧
      ∀ j, j ≠ k → j ≠ p → j ≠ q → ps' j = ps j := by
  have hset : ∀ o, setD c ps A B (C₀ ++ [q, p]) X true mode = o →
      setInner c ps fuel ("Δ_".toList ++ digitText [x, y, z]) X true mode = some o := by
    rintro o rfl
    rw [setInner_of (short_plain h1).1 (by simp) (short_reads h1).1]
    simp only [setForm, setDText, if_neg hmode, harcs]
  rcases C65_set_delta c ps r l h A B C₀ p q k mode hk hnd X hQ1 hQ2 hQ3 hal hd with ⟨D, hD, e⟩ | ⟨ps', e1, -, e2, e3, e4⟩
  · refine .inl ⟨D, hD, ?_⟩
    unfold setText
    rw [hset _ e]
  · refine .inr ⟨ps', setsTo_of h0 (fun e' => by subst e'; exact p.elim0) (hset _ e1) ?_ e3, e4⟩
    rw [(C82_shorthands ps' fuel x y z h1 harcs).2.2, e2]

/-- **C93**: `_set` with the text `Ω_ijk` where the labels generate three corners of two labels each that are all
the labels; see `C66_set_omega` for the guards. -/
theorem C93_omega [NeZero (2 : K)] (abs : K → Γ) (tol : Γ) (h0 : abs 0 ≤ tol) (c : Ctx K) (ps : Point K n)
    (r l : Fin n → V2 K) (h : ∀ k, IsMassless c (ps k) (r k) (l k)) (x y z : Fin n) (h1 : OneDigit [x, y, z]) (fuel : ℕ)
    (A B C D E F : Fin n) (harcs : shortCorners n fuel (digitText [x, y, z]) = some (.ok ([C, D], [E, F], [A, B])))
    (hperm : ([C, D] ++ [E, F] ++ [A, B]).Perm (List.finRange n)) (X : K)
    (hQA : omegaQA (l A 0) (l A 1) (r B 1) (l B 0) (l B 1) (r C 1) (l C 0) (l C 1) (r D 1) (l D 0) (l D 1) ≠ 0)
    (hd : SpecSquare (l E) (l F) ≠ 0) (mode : ℕ) :
    (∃ w, c.sqrt w = none ∧
      setText abs tol c ps fuel ("Ω_".toList ++ digitText [x, y, z]) X true mode = some (.error .valueError)) ∨
    ∃ ps', SetsTo abs tol c ps fuel ("Ω_".toList ++ digitText [x, y, z]) X mode ps' ∧
      ∀ j, j ≠ A → j ≠ E → j ≠ F → ps' j = ps j := by
  have hset : ∀ o, setO c ps [C, D] [E, F] [A, B] X = o →
      setInner c ps fuel ("Ω_".toList ++ digitText [x, y, z]) X true mode = some o := by
    rintro o rfl
    rw [setInner_of (short_plain h1).2.1 (by simp) (short_reads h1).2.1]
    simp only [setForm, harcs, Option.map_some]
  rcases C66_set_omega c ps r l h A B C D E F hperm X hQA hd with ⟨w, hw, e⟩ | ⟨ps', e1, e2, e3, e4⟩
  · refine .inl ⟨w, hw, ?_⟩
    unfold setText
    rw [hset _ e]
  · refine .inr ⟨ps', setsTo_of h0 (fun e' => by subst e'; exact A.elim0) (hset _ e1) ?_ e3, e4⟩
    rw [(C82_shorthands ps' fuel x y z h1 harcs).1, e2]
    rfl

/-- **C93**: `_set` with the text `Π_ijk`, likewise. -/
theorem C93_pi [NeZero (2 : K)] (abs : K → Γ) (tol : Γ) (h0 : abs 0 ≤ tol) (c : Ctx K) (ps : Point K n)
    (r l : Fin n → V2 K) (h : ∀ k, IsMassless c (ps k) (r k) (l k)) (x y z : Fin n) (h1 : OneDigit [x, y, z]) (fuel : ℕ)
    (A B C D E F : Fin n) (harcs : shortCorners n fuel (digitText [x, y, z]) = some (.ok ([C, D], [E, F], [A, B])))
    (hperm : ([C, D] ++ [E, F] ++ [A, B]).Perm (List.finRange n)) (X : K)
    (hden : piDen (l A 0) (l A 1) (r C 1) (l C 0) (l C 1) (r D 1) (l D 0) (l D 1) ≠ 0)
    (hd : SpecSquare (l E) (l F) ≠ 0) (mode : ℕ) :
    ∃ ps', SetsTo abs tol c ps fuel ("Π_".toList ++ digitText [x, y, z]) X mode ps' ∧
      ∀ j, j ≠ A → j ≠ E → j ≠ F → ps' j = ps j := by
  obtain ⟨ps', e1, e2, e3, e4⟩ := C66_set_pi c ps r l h A B C D E F hperm X hden hd
  refine ⟨ps', setsTo_of h0 (fun e' => by subst e'; exact A.elim0) ?_ ?_ e3, e4⟩
  · rw [setInner_of (short_plain h1).2.2 (by simp) (short_reads h1).2.2]
    simp only [setForm, harcs, Option.map_some, e1]
  · rw [(C82_shorthands ps' fuel x y z h1 harcs).2.1, e2]
    rfl

/-! ### tr5 -/

/-- The text `tr5(a|b|c|d)`. -/
def tr5SlotsText (a b d e : Slot n) : List Char :=
  "tr5(".toList ++ ['|'].intercalate ([a, b, d, e].map fun s => slotText (slotOf (plain s))) ++ [')']

theorem tr5_reads (a b d e : Slot n) : ∃ m, SetReads (tr5SlotsText a b d e) (.tr5 m) ∧
    unpack4 m = .ok (texts4 (a, b, d, e)) ∧ plainChars (tr5SlotsText a b d e) = true := by
  set m := ['|'].intercalate ([a, b, d, e].map fun s => slotText (slotOf (plain s))) with hm
  have hb : '|' ∈ m := by simp [hm]
  have hsp : m.splitOn '|' = [a, b, d, e].map fun s => slotText (slotOf (plain s)) := by
    rw [hm]
    apply List.splitOn_intercalate
    · intro l hl
      obtain ⟨s, _, rfl⟩ := List.mem_map.1 hl
      exact bar_not_mem_slotText _
    · simp
  have hall : m.all (fun c => c.isDigit || isOp c) = true := by
    rw [List.all_eq_true]
    intro x hx
    rw [hm] at hx
    rcases mem_join hx with rfl | ⟨t, ht, hx⟩
    · decide
    · obtain ⟨s, _, rfl⟩ := List.mem_map.1 ht
      rw [slotText_plain] at hx
      rcases mem_slotBody hx with h | rfl | rfl
      · simp [h]
      · decide
      · decide
  refine ⟨m, .form (g := .tr5 m) ?_ rfl, ?_, ?_⟩
  · have := ReadsAs.tr5 ((trChars_lang m).mp ⟨fun e => by rw [e] at hb; simp at hb, hall⟩)
    simpa [tr5SlotsText, hm] using this
  · rw [unpack4, if_pos hb, hsp]; rfl
  · refine plain_append (plain_append (by decide) (plain_join fun t ht => ?_)) (by decide)
    obtain ⟨s, _, rfl⟩ := List.mem_map.1 ht
    exact plain_slot _

theorem tr5_setInner (c : Ctx K) (ps : Point K n) (fuel : ℕ) (s₁ s₂ s₃ s₄ : Slot n)
    (hw : SlotWritten s₁ ∧ SlotWritten s₂ ∧ SlotWritten s₃ ∧ SlotWritten s₄) (X : K) (fix : Bool) (mode : ℕ) :
    setInner c ps fuel (tr5SlotsText s₁ s₂ s₃ s₄) X fix mode = some (setTr5All c ps s₁ s₂ s₃ s₄ X fix) := by
  obtain ⟨m, hr, hu, hpl⟩ := tr5_reads s₁ s₂ s₃ s₄
  rw [setInner_of hpl (by simp) hr]
  simp only [setForm, setTr5Text, hu, texts4, readSlot_ok (plain s₁) hw.1, readSlot_ok (plain s₂) hw.2.1,
    readSlot_ok (plain s₃) hw.2.2.1, readSlot_ok (plain s₄) hw.2.2.2]

/-- **C93**: `_set` with the text `tr5(a|b|c|d)` at six points and above; see `C67_six_points` for the guards. -/
theorem C93_tr5 [NeZero (2 : K)] {m : ℕ} (abs : K → Γ) (tol : Γ) (h0 : abs 0 ≤ tol) (c : Ctx K) (ps : Point K (m + 6))
    (r l : Fin (m + 6) → V2 K) (h : ∀ k, IsMassless c (ps k) (r k) (l k)) (s₁ s₂ s₃ s₄ x y z : Slot (m + 6))
    (hw : SlotWritten s₁ ∧ SlotWritten s₂ ∧ SlotWritten s₃ ∧ SlotWritten s₄) (a p q : Fin (m + 6))
    (hrot : tr5Rotate 4 (s₁, s₂, s₃, s₄) = some (single a, x, y, z)) (ha : a ∉ (x ++ y ++ z).map Prod.snd) (X : K)
    (hpq : FirstTwoFree (a :: (x ++ y ++ z).map Prod.snd) p q)
    (hA : SpecTr5 ![momOf 1 0 (l a 0) (l a 1), slotMom ps x, slotMom ps y, slotMom ps z] ≠ 0)
    (hd : SpecSquare (l p) (l q) ≠ 0) (fuel mode : ℕ) :
    ∃ ps', SetsTo abs tol c ps fuel (tr5SlotsText s₁ s₂ s₃ s₄) X mode ps' ∧
      ∀ k, k ≠ a → k ≠ p → k ≠ q → ps' k = ps k := by
  obtain ⟨ps', e1, e2, e3, e4⟩ := C67_six_points c ps r l h s₁ s₂ s₃ s₄ x y z a p q hrot ha X hpq hA hd
  refine ⟨ps', setsTo_of h0 (by omega) ?_ ?_ e3, e4⟩
  · rw [tr5_setInner c ps fuel s₁ s₂ s₃ s₄ hw, e1]
  · rw [tr5SlotsText, C82_tr5 ps' fuel s₁ s₂ s₃ s₄ hw, e2]
    rfl

/-- **C93** at five points, **fails** for odd orderings of the labels: whenever the setter itself succeeds, `_set` of
`tr5(a|b|c|d)` returns with the value set for an even ordering, and raises for an odd one unless `-2X` is
within tolerance. -/
theorem C93_tr5_five_partial [NeZero (2 : K)] (abs : K → Γ) (tol : Γ) (h0 : abs 0 ≤ tol) (c : Ctx K) (ps : Point K 5)
    (r l : Fin 5 → V2 K) (h : ∀ k, IsMassless c (ps k) (r k) (l k)) (σ : Equiv.Perm (Fin 5)) (X : K) (ps' : Point K 5)
    (hret : setTr5All c ps (single (σ 0)) (single (σ 1)) (single (σ 2)) (single (σ 3)) X true = .ok ps') (fuel mode : ℕ) :
    let t := tr5SlotsText (single (σ 0)) (single (σ 1)) (single (σ 2)) (single (σ 3))
    (Equiv.Perm.sign σ = 1 → SetsTo abs tol c ps fuel t X mode ps') ∧
    (Equiv.Perm.sign σ = -1 → tol < abs (-X - X) → setText abs tol c ps fuel t X true mode = some (.error .exception)) := by
  intro t
  have hw : ∀ k : Fin 5, SlotWritten (single k) := fun k => ⟨k, [], rfl⟩
  have hi := tr5_setInner c ps fuel _ _ _ _ ⟨hw (σ 0), hw (σ 1), hw (σ 2), hw (σ 3)⟩ X true mode
  rw [hret] at hi
  obtain ⟨hv, hg, -⟩ := C67_five_points_partial c ps r l h σ X true ps' hret
  have hc := C82_tr5 ps' fuel (single (σ 0)) (single (σ 1)) (single (σ 2)) (single (σ 3)) ⟨hw _, hw _, hw _, hw _⟩
  rw [hv] at hc
  constructor
  · intro hs
    refine setsTo_of h0 (by decide) hi (hc.trans ?_) hg
    rw [hs]
    simp [asNum]
  · intro hs hX
    refine set_raises_of h0 (by decide) hi (hc.trans ?_) hg hX
    rw [hs]
    simp [asNum]

/-! ### tr5 of labels -/

theorem tr5_labels_setInner (c : Ctx K) (ps : Point K n) (fuel : ℕ) (i j k l : Fin n) (h : OneDigit [i, j, k, l]) (X : K)
    (fix : Bool) (mode : ℕ) :
    setInner c ps fuel ("tr5_".toList ++ digitText [i, j, k, l]) X fix mode =
      some (setTr5All c ps (single i) (single j) (single k) (single l) X fix) := by
  have hd := isDigits_digitText h (by simp)
  have hb : '|' ∉ digitText [i, j, k, l] := fun hm => (digit_ne (digitText_isDigit h _ hm)).1 rfl
  have hw : ∀ k : Fin n, SlotWritten (single k) := fun k => ⟨k, [], rfl⟩
  have h1 : ∀ x ∈ [i, j, k, l], [digitOf ((x : ℕ) + 1)] = slotText (slotOf (plain (single x))) := by
    intro x hx
    rw [slotText_plain]
    simp only [single, slotOf, List.map_cons, List.map_nil, slotBody, List.flatMap_nil, List.append_nil]
    rw [pyStr_digit (h x hx)]
    rfl
  have hu : unpack4 (digitText [i, j, k, l]) = .ok (texts4 (single i, single j, single k, single l)) := by
    rw [unpack4, if_neg hb]
    simp only [digitText, List.map_cons, List.map_nil, texts4, ← h1 i (by simp), ← h1 j (by simp), ← h1 k (by simp),
      ← h1 l (by simp)]
  have hr : SetReads ("tr5_".toList ++ digitText [i, j, k, l]) (.tr5 (digitText [i, j, k, l])) :=
    .form (.tr5Labels ((isDigits_lang _).mp hd)) rfl
  rw [setInner_of (plain_append (by decide) (plain_digits (digitText_isDigit h))) (by simp) hr]
  simp only [setForm, setTr5Text, hu, texts4, readSlot_ok (plain (single i)) (hw i), readSlot_ok (plain (single j)) (hw j),
    readSlot_ok (plain (single k)) (hw k), readSlot_ok (plain (single l)) (hw l)]

/-- **C93**: the texts `tr5_ijkl` and `tr5(i|j|k|l)` of one-digit labels are set alike and have the same value. -/
theorem C93_tr5_spellings (abs : K → Γ) (tol : Γ) (c : Ctx K) (ps : Point K n) (fuel : ℕ) (i j k l : Fin n)
    (h : OneDigit [i, j, k, l]) (X : K) (fix : Bool) (mode : ℕ) :
    setText abs tol c ps fuel ("tr5_".toList ++ digitText [i, j, k, l]) X fix mode =
      setText abs tol c ps fuel (tr5SlotsText (single i) (single j) (single k) (single l)) X fix mode := by
  have hw : ∀ k : Fin n, SlotWritten (single k) := fun k => ⟨k, [], rfl⟩
  unfold setText
  rw [tr5_labels_setInner c ps fuel i j k l h, tr5_setInner c ps fuel _ _ _ _ ⟨hw i, hw j, hw k, hw l⟩]
  rcases setTr5All c ps (single i) (single j) (single k) (single l) X fix with e | ps'
  · rfl
  · simp only
    rw [callNumber_text ps' fuel (C82_tr5_labels ps' fuel i j k l h), tr5SlotsText,
      callNumber_text ps' fuel (C82_tr5 ps' fuel _ _ _ _ ⟨hw i, hw j, hw k, hw l⟩)]
    rfl

/-! ### Differences of five-brackets -/

/-- The text `(⟨a|b|c+d|e|a]-⟨b|f|c+d|e|b])`, with or without parentheses around `c+d`. -/
def fiveDiffText (par : Bool) (a b x y e f : ℕ) : List Char :=
  let cd := if par then '(' :: (pyStr x ++ '+' :: pyStr y ++ [')']) else pyStr x ++ '+' :: pyStr y
  ['|'].intercalate ["(⟨".toList ++ pyStr a, pyStr b, cd, pyStr e, pyStr a ++ "]-⟨".toList ++ pyStr b, pyStr f, cd, pyStr e,
    pyStr b ++ "])".toList]

theorem fiveDiff_reads (par : Bool) (a b x y e f : ℕ) :
    SetReads (fiveDiffText par a b x y e f) (.diff (pyStr a) (pyStr b) (pyStr x ++ '+' :: pyStr y) (pyStr e) (pyStr f)) := by
  have hcd : pyStr x ++ '+' :: pyStr y ∈ cdLang := by
    unfold cdLang
    rw [Language.mem_mul]
    refine ⟨_, ?_, [], by rw [mem_star_oneOf]; simp, List.append_nil _⟩
    rw [mem_star_oneOf]
    intro c hc
    simp only [List.mem_append, List.mem_cons] at hc
    rcases hc with hc | rfl | hc
    · exact .inl ((isDigit_iff c).mp (pyStr_digits _ c hc))
    · exact .inr (by simp)
    · exact .inl ((isDigit_iff c).mp (pyStr_digits _ c hc))
  have h := fun l l' r r' (h1 : l ∈ [[], ['(']]) (h2 : l' ∈ [[], ['(']]) (h3 : r ∈ [[], [')']]) (h4 : r' ∈ [[], [')']]) =>
    SetReads.diff (digits_pyStr a) (digits_pyStr b) hcd (digits_pyStr e) (digits_pyStr f) h1 h2 h3 h4
  cases par
  · have := h [] [] [] [] (by simp) (by simp) (by simp) (by simp)
    simpa [fiveDiffText] using this
  · have := h ['('] ['('] [')'] [')'] (by simp) (by simp) (by simp) (by simp)
    simpa [fiveDiffText] using this

/-- **C93** for differences of five-brackets: `_set_inner` of the text, with labels of any number of
digits, sets the difference. -/
theorem C93_five_brackets_inner [NeZero (2 : K)] {c : Ctx K} {ps : Point K n} {r l : Fin n → V2 K}
    (h : ∀ k, IsMassless c (ps k) (r k) (l k)) (hc : Conserves ps) {a b x y e f : Fin n} (hxy : x ≠ y)
    (he : e ∉ [a, b, x, y, f]) (hx : x ∉ [a, b, f]) (hy : y ∉ [a, b, f]) (X : K)
    (g : SpecHalf5 r l a b x y e * l a 0 - SpecHalf5 r l b f x y e * l b 0 ≠ 0) (hd : SpecSquare (l x) (l y) ≠ 0)
    (par : Bool) (fuel mode : ℕ) :
    ∃ ps' u v, setInner c ps fuel (fiveDiffText par (a + 1) (b + 1) (x + 1) (y + 1) (e + 1) (f + 1)) X true mode =
        some (.ok ps') ∧ GoodPoint c ps' ∧
      computeText ps' fuel (strText '⟨' a [(false, [b]), (par, [x, y]), (false, [e])] a ']') = some (.ok (.num u)) ∧
      computeText ps' fuel (strText '⟨' b [(false, [f]), (par, [x, y]), (false, [e])] b ']') = some (.ok (.num v)) ∧
      u - v = X ∧ ∀ k, k ≠ e → k ≠ x → k ≠ y → ps' k = ps k := by
  obtain ⟨ps', u, v, e1, e2, e3, e4, e5, e6⟩ := C91_set h hc hxy he hx hy X g hd
  refine ⟨ps', u, v, ?_, e2, ?_, ?_, e5, e6⟩
  · have hpl : plainChars (fiveDiffText par (a + 1) (b + 1) (x + 1) (y + 1) (e + 1) (f + 1)) = true := by
      refine plain_join fun t ht => ?_
      have hd : ∀ k, plainChars (pyStr k) = true := fun k => plain_digits (pyStr_digits k)
      have hcd : plainChars (if par then '(' :: (pyStr (x + 1) ++ '+' :: pyStr (y + 1) ++ [')']) else
          pyStr (x + 1) ++ '+' :: pyStr (y + 1)) = true := by
        cases par
        · exact plain_append (hd _) (plain_cons (by decide) (hd _))
        · exact plain_cons (by decide) (plain_append (plain_append (hd _) (plain_cons (by decide) (hd _))) (by decide))
      simp only [List.mem_cons, List.not_mem_nil, or_false] at ht
      rcases ht with rfl | rfl | rfl | rfl | rfl | rfl | rfl | rfl | rfl
      · exact plain_append (by decide) (hd _)
      · exact hd _
      · exact hcd
      · exact hd _
      · exact plain_append (plain_append (hd _) (by decide)) (hd _)
      · exact hd _
      · exact hcd
      · exact hd _
      · exact plain_append (hd _) (by decide)
    rw [setInner_of hpl (by simp) (fiveDiff_reads par _ _ _ _ _ _)]
    have hs : ((pyStr ((x : ℕ) + 1) ++ '+' :: pyStr ((y : ℕ) + 1)).splitOn '+').mapM pyInt =
        .ok [(x : ℕ) + 1, (y : ℕ) + 1] := by
      have hp : ∀ k, '+' ∉ pyStr k := fun k hk => (digit_ne (pyStr_digits k _ hk)).2.2.2.1 rfl
      rw [List.splitOn_append_cons_self_of_not_mem (hp _), List.splitOn_eq_singleton (hp _)]
      simp only [List.mapM_cons, List.mapM_nil, pyInt_ok]
      rfl
    simp only [setForm, set5BText, hs, readLabel_ok, label_succ, e1]
  · rw [strText_value ps' fuel '⟨' ']' a a _ (by simp) (by simp) (by simp) (by simp)]
    exact congrArg (fun z => some (asNum z)) e3
  · rw [strText_value ps' fuel '⟨' ']' b b _ (by simp) (by simp) (by simp) (by simp)]
    exact congrArg (fun z => some (asNum z)) e4

/-- The five-bracket `⟨a|b|c+d|e|a]` as it stands in an expression. -/
def fiveLeaf (par : Bool) (a b x y e : Fin n) : Leaf :=
  .str '⟨' (digitOf (a + 1)) [⟨false, digitOf (b + 1), []⟩, ⟨par, digitOf (x + 1), [('+', digitOf (y + 1))]⟩, ⟨false, digitOf (e + 1), []⟩]
    (digitOf (a + 1)) ']'

theorem fiveLeaf_ok {par : Bool} {a b x y e : Fin n} (h : OneDigit [a, b, x, y, e]) : (fiveLeaf par a b x y e).Ok := by
  have d : ∀ k ∈ [a, b, x, y, e], (digitOf ((k : ℕ) + 1)).isDigit = true := fun k hk => digitOf_isDigit _ (h k hk)
  refine ⟨by simp, by simp, d a (by simp), d a (by simp), by simp, ?_⟩
  intro s hs
  simp only [List.mem_cons, List.not_mem_nil, or_false] at hs
  rcases hs with rfl | rfl | rfl
  · exact ⟨d b (by simp), by simp, by simp⟩
  · exact ⟨d x (by simp), by simpa using d y (by simp), by simp⟩
  · exact ⟨d e (by simp), by simp, by simp⟩

theorem fiveLeaf_name {par : Bool} {a b x y e : Fin n} (h : OneDigit [a, b, x, y, e]) :
    (fiveLeaf par a b x y e).name = strText '⟨' a [(false, [b]), (par, [x, y]), (false, [e])] a ']' := by
  have d : ∀ k ∈ [a, b, x, y, e], pyStr ((k : ℕ) + 1) = [digitOf ((k : ℕ) + 1)] := fun k hk => by rw [pyStr_digit (h k hk)]; rfl
  cases par <;>
  simp [fiveLeaf, Leaf.name, strText, stringText, joined, WSlot.text, WSlot.body, slotOf, plusOf, slotText, slotBody, d a, d b, d x, d y,
    d e, List.intercalate_cons_cons]

theorem fiveDiff_expr {par : Bool} {a b x y e f : Fin n} (h : OneDigit [a, b, x, y, e, f]) :
    exprText [.ch '(', .leaf (fiveLeaf par a b x y e), .ch '-', .leaf (fiveLeaf par b f x y e), .ch ')'] =
      fiveDiffText par (a + 1) (b + 1) (x + 1) (y + 1) (e + 1) (f + 1) := by
  have d : ∀ k ∈ [a, b, x, y, e, f], pyStr ((k : ℕ) + 1) = [digitOf ((k : ℕ) + 1)] := fun k hk => by rw [pyStr_digit (h k hk)]; rfl
  cases par <;>
  simp [exprText, WTok.text, Leaf.text, fiveLeaf, Leaf.name, fiveDiffText, joined, WSlot.text, WSlot.body, d a, d b, d x, d y, d e, d f,
    List.intercalate_cons_cons]

theorem open_expression (t : List Char) : classify ('(' :: t) = .expression := by
  rw [C92_expression]
  intro f h
  generalize he : '(' :: t = u at h
  cases h with
  | massOf h =>
    obtain ⟨c, d, hc, -, rfl | rfl⟩ := h <;> rw [List.cons.injEq] at he <;> rw [← he.1] at hc <;> simp at hc
  | internalMass h _ =>
    obtain ⟨c, us, a, d, rfl, hc, -⟩ := h
    rw [List.cons.injEq] at he
    rw [← he.1] at hc
    simp at hc
  | mandelstam hc => rw [List.cons.injEq] at he; rw [← he.1] at hc; simp at hc
  | angle hc => rw [List.cons.injEq] at he; rw [← he.1] at hc; simp at hc
  | Au hc => rw [List.cons.injEq] at he; rw [← he.1] at hc; simp at hc
  | string hc => rw [List.cons.injEq] at he; rw [← he.1] at hc; simp at hc
  | openEnd hc => rw [List.cons.injEq] at he; rw [← he.1] at hc; simp at hc
  | _ => simp at he

/-- **C93** for differences of five-brackets of one-digit labels: `_set` returns with the difference set. -/
theorem C93_five_brackets [NeZero (2 : K)] (abs : K → Γ) (tol : Γ) (h0 : abs 0 ≤ tol) {c : Ctx K} {ps : Point K n} {r l : Fin n → V2 K}
    (h : ∀ k, IsMassless c (ps k) (r k) (l k)) (hc : Conserves ps) {a b x y e f : Fin n} (hxy : x ≠ y)
    (he : e ∉ [a, b, x, y, f]) (hx : x ∉ [a, b, f]) (hy : y ∉ [a, b, f]) (h1 : OneDigit [a, b, x, y, e, f]) (X : K)
    (g : SpecHalf5 r l a b x y e * l a 0 - SpecHalf5 r l b f x y e * l b 0 ≠ 0) (hd : SpecSquare (l x) (l y) ≠ 0)
    (par : Bool) (fuel mode : ℕ) :
    ∃ ps', SetsTo abs tol c ps fuel (fiveDiffText par (a + 1) (b + 1) (x + 1) (y + 1) (e + 1) (f + 1)) X mode ps' ∧
      ∀ k, k ≠ e → k ≠ x → k ≠ y → ps' k = ps k := by
  obtain ⟨ps', u, v, e1, e2, e3, e4, e5, e6⟩ := C93_five_brackets_inner h hc hxy he hx hy X g hd par fuel mode
  have o1 : OneDigit [a, b, x, y, e] := fun k hk => h1 k (by simp only [List.mem_cons, List.not_mem_nil, or_false] at hk ⊢; tauto)
  have o2 : OneDigit [b, f, x, y, e] := fun k hk => h1 k (by simp only [List.mem_cons, List.not_mem_nil, or_false] at hk ⊢; tauto)
  have hex : Expression [.ch '(', .leaf (fiveLeaf par a b x y e), .ch '-', .leaf (fiveLeaf par b f x y e), .ch ')'] := by
    refine ⟨?_, ?_⟩
    · intro t ht
      simp only [List.mem_cons, List.not_mem_nil, or_false] at ht
      rcases ht with rfl | rfl | rfl | rfl | rfl
      · simp only [WTok.Fit]; decide
      · exact fiveLeaf_ok o1
      · simp only [WTok.Fit]; decide
      · exact fiveLeaf_ok o2
      · simp only [WTok.Fit]; decide
    · simp [WTok.blank, WTok.Apart, fiveLeaf, Leaf.open]
  have hl1 : leafNum ps' fuel (fiveLeaf par a b x y e).name = .ok u := by rw [leafNum, fiveLeaf_name o1, e3]
  have hl2 : leafNum ps' fuel (fiveLeaf par b f x y e).name = .ok v := by rw [leafNum, fiveLeaf_name o2, e4]
  have hv : callNumber ps' fuel (fiveDiffText par (a + 1) (b + 1) (x + 1) (y + 1) (e + 1) (f + 1)) = some (.ok X) := by
    have hch := C94_eval (leafNum ps' fuel) hex
    have hrd : readText ([WTok.ch '(', .leaf (fiveLeaf par a b x y e), .ch '-', .leaf (fiveLeaf par b f x y e), .ch ')'].map WTok.sym) =
        .ok (.sub (.atom (.leaf (fiveLeaf par a b x y e).name)) (.atom (.leaf (fiveLeaf par b f x y e).name))) := rfl
    have hev : evalText (leafNum ps' fuel) ([WTok.ch '(', .leaf (fiveLeaf par a b x y e), .ch '-', .leaf (fiveLeaf par b f x y e),
        .ch ')'].map WTok.sym) = .ok (.fld X) := by
      rw [evalText, hrd]
      simp [evalNode, hl1, hl2, lift₂, vSub, binop, EVal.toField, e5]
    rw [hev] at hch
    have hxx : ∃ t, exprText [.ch '(', .leaf (fiveLeaf par a b x y e), .ch '-', .leaf (fiveLeaf par b f x y e), .ch ')'] = '(' :: t :=
      ⟨_, rfl⟩
    obtain ⟨t, ht⟩ := hxx
    have hcl : classify (exprText [.ch '(', .leaf (fiveLeaf par a b x y e), .ch '-', .leaf (fiveLeaf par b f x y e), .ch ')']) =
        .expression := by rw [ht]; exact open_expression t
    rw [← fiveDiff_expr h1, callNumber, callText, rsubs_plain _ (expr_plain hex)]
    simp only [if_pos hcl, hch, Option.map_some, EVal.toField]
  refine ⟨ps', ⟨?_, hv, e2⟩, e6⟩
  unfold setText
  simp only [e1, hv, good_checks h0 (fun e' => by subst e'; exact a.elim0) e2, sub_self, h0, if_true]

/-! ### Texts without a setter -/

/-- **C93**: a text that no setter reads is ignored: the setter returns with the point unchanged. -/
theorem C93_unknown (c : Ctx K) (ps : Point K n) (fuel : ℕ) (t : List Char) (X : K) (fix : Bool) (mode : ℕ)
    (hp : plainChars t = true) (hc : checkConsistency t = .ok ()) (h : ∀ f, ¬SetReads t f) :
    setInner c ps fuel t X fix mode = some (.ok ps) := by
  unfold setInner
  rw [if_pos hp, hc, (C93_ignored t).mpr h]
  rfl

end Lips

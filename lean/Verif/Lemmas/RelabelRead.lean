import Verif.Lemmas.Relabel
import Verif.Props.Relabel

/-! Reading labels in texts with renamed labels, and the value of a form with renamed labels. -/

namespace Lips

variable {n : ℕ}

theorem digitChar_code : ∀ k < 10, (Nat.digitChar k).toNat = 48 + k ∧ (Nat.digitChar k).isDigit = true := by decide

theorem isDigit_code (c : Char) : c.isDigit = true ↔ 48 ≤ c.toNat ∧ c.toNat ≤ 57 := by
  simp only [Char.isDigit, Bool.and_eq_true, decide_eq_true_eq, ge_iff_le, UInt32.le_iff_toNat_le]
  rfl

/-- The value of a renamed character. -/
theorem relabelChar_val (hn : n ≤ 9) (σ : Equiv.Perm (Fin n)) (c : Char) :
    label n ((relabelChar σ c).toNat - 48) = (label n (c.toNat - 48)).map σ ∧ ((relabelChar σ c).toNat - 48 = 0 ↔ c.toNat - 48 = 0) := by
  have e1 : '1'.toNat = 49 := rfl
  unfold relabelChar
  by_cases h : '1'.toNat ≤ c.toNat ∧ c.toNat < '1'.toNat + n
  · rw [dif_pos h]
    rw [e1] at h
    have hl := (σ ⟨c.toNat - '1'.toNat, by rw [e1]; omega⟩).2
    rw [(digitChar_code _ (by omega)).1]
    constructor
    · have h1 : 1 ≤ c.toNat - 48 ∧ c.toNat - 48 ≤ n := by omega
      rw [label, label, dif_pos h1, dif_pos (by omega), Except.map]
      congr 1
      apply Fin.ext
      simp only []
      have : (⟨c.toNat - 48 - 1, by omega⟩ : Fin n) = ⟨c.toNat - '1'.toNat, by rw [e1]; omega⟩ := by apply Fin.ext; simp only [e1]; omega
      rw [this]; omega
    · omega
  · rw [dif_neg h]
    rw [e1] at h
    have h1 : ¬ (1 ≤ c.toNat - 48 ∧ c.toNat - 48 ≤ n) := by omega
    rw [label, dif_neg h1]
    exact ⟨rfl, Iff.rfl⟩

theorem relabelChar_map (hn : n ≤ 9) (σ : Equiv.Perm (Fin n)) : DigitMap (relabelChar σ) := by
  have e1 : '1'.toNat = 49 := rfl
  refine ⟨fun c hc => ?_, fun c hc => ?_, fun c => ?_⟩
  · unfold relabelChar
    refine dif_neg fun h => ?_
    have := (isDigit_code c).2 (by omega)
    rw [hc] at this; cases this
  · unfold relabelChar
    split
    · rename_i h
      have hl := (σ ⟨c.toNat - '1'.toNat, by omega⟩).2
      exact (digitChar_code _ (by omega)).2
    · exact hc
  · constructor
    · intro e
      unfold relabelChar at e
      split at e
      · rename_i h
        have hl := (σ ⟨c.toNat - '1'.toNat, by omega⟩).2
        have h2 := (digitChar_code _ (show (σ ⟨c.toNat - '1'.toNat, by omega⟩ : ℕ) + 1 < 10 by omega)).1
        rw [e] at h2
        have : '0'.toNat = 48 := rfl
        omega
      · exact e
    · rintro rfl
      unfold relabelChar
      exact dif_neg (by rw [e1]; have : '0'.toNat = 48 := rfl; omega)

/-! ### Numbers -/

theorem ofDigitChars_snoc (t : List Char) (c : Char) : Nat.ofDigitChars 10 (t ++ [c]) 0 = Nat.ofDigitChars 10 t 0 * 10 + (c.toNat - 48) := by
  simp only [Nat.ofDigitChars, List.foldl_append, List.foldl_cons, List.foldl_nil]
  have : '0'.toNat = 48 := rfl
  omega

theorem label_big {k : ℕ} (hn : n ≤ 9) (hk : 10 ≤ k) : label n k = .error .indexError := dif_neg (by omega)

theorem readLabel_relabel (hn : n ≤ 9) (σ : Equiv.Perm (Fin n)) (t : List Char) :
    readLabel n (t.map (relabelChar σ)) = (readLabel n t).map σ := by
  suffices h : label n (Nat.ofDigitChars 10 (t.map (relabelChar σ)) 0) = (label n (Nat.ofDigitChars 10 t 0)).map σ ∧
      (Nat.ofDigitChars 10 (t.map (relabelChar σ)) 0 = 0 ↔ Nat.ofDigitChars 10 t 0 = 0) from h.1
  induction t using List.reverseRecOn with
  | nil => exact ⟨by simp [Nat.ofDigitChars, label, Except.map], Iff.rfl⟩
  | append_singleton t c ih =>
    obtain ⟨h1, h2⟩ := relabelChar_val hn σ c
    rw [List.map_append, List.map_singleton, ofDigitChars_snoc, ofDigitChars_snoc]
    constructor
    · by_cases h0 : Nat.ofDigitChars 10 t 0 = 0
      · rw [ih.2.2 h0, h0, Nat.zero_mul, Nat.zero_add, Nat.zero_add]; exact h1
      · have h0' := fun e => h0 (ih.2.1 e)
        rw [label_big hn (by omega), label_big hn (by omega)]; rfl
    · have := ih.2
      omega

theorem mapM_except {α β γ δ : Type} {f : α → γ} {g : γ → Except Err δ} {g' : α → Except Err β} {k : β → δ} (h : ∀ x, g (f x) = (g' x).map k) (l : List α) :
    (l.map f).mapM g = (l.mapM g').map (List.map k) := by
  induction l with
  | nil => rfl
  | cons a l ih =>
    rw [List.map_cons, List.mapM_cons, List.mapM_cons, h a, ih]
    cases g' a with
    | error e => rfl
    | ok x => cases l.mapM g' <;> rfl

theorem readDigits_relabel (hn : n ≤ 9) (σ : Equiv.Perm (Fin n)) (t : List Char) :
    readDigits n (t.map (relabelChar σ)) = (readDigits n t).map (List.map σ) :=
  mapM_except (g := fun c : Char => label n (c.toNat - 48)) (fun c => (relabelChar_val hn σ c).1) t

/-! ### Slots -/

theorem termsFrom_map {m : Char → Char} (h : DigitMap m) (t : List Char) : ∀ (sg : Bool) (cur : List Char),
    termsFrom sg (cur.map m) (t.map m) = (termsFrom sg cur t).map fun q => (q.1, q.2.map m) := by
  induction t with
  | nil => intro sg cur; rfl
  | cons c t ih =>
    intro sg cur
    simp only [List.map_cons, termsFrom, h.eq_iff (x := '+') (by decide), h.eq_iff (x := '-') (by decide)]
    split
    · have := ih true []
      simp only [List.map_nil] at this
      rw [this]; rfl
    · split
      · have := ih false []
        simp only [List.map_nil] at this
        rw [this]; rfl
      · have := ih sg (cur ++ [c])
        simpa using this

theorem literalOk_map {m : Char → Char} (h : DigitMap m) (t : List Char) : literalOk (t.map m) = literalOk t := by
  unfold literalOk
  have h1 : (t.map m).all (· = '0') = t.all (· = '0') := by
    simp only [List.all_map, Function.comp_def, h.zero]
  have h2 : (t.map m).head? = some '0' ↔ t.head? = some '0' := by
    cases t <;> simp [h.zero]
  rw [h1]
  congr 1
  simp only [ne_eq, h2]

theorem readTerm_relabel (hn : n ≤ 9) (σ : Equiv.Perm (Fin n)) (q : Bool × List Char) :
    readTerm n (q.1, q.2.map (relabelChar σ)) = (readTerm n q).map fun t => (t.1, σ t.2) := by
  have h := relabelChar_map hn σ
  have hl := readLabel_relabel hn σ q.2
  rw [readLabel, readLabel] at hl
  unfold readTerm
  simp only []
  rw [h.isDigits, literalOk_map h, hl]
  split
  · cases label n (Nat.ofDigitChars 10 q.2 0) <;> rfl
  · rfl

theorem readSlot_relabel (hn : n ≤ 9) (σ : Equiv.Perm (Fin n)) (t : List Char) :
    readSlot n (t.map (relabelChar σ)) = (readSlot n t).map (mapSlot σ) := by
  have h := relabelChar_map hn σ
  unfold readSlot
  have e := termsFrom_map h (stripParens t) true []
  rw [List.map_nil] at e
  rw [h.stripParens, e]
  simp only [List.map_eq_nil_iff]
  split
  · rfl
  · exact mapM_except (readTerm_relabel hn σ) _

theorem readSlots_relabel (hn : n ≤ 9) (σ : Equiv.Perm (Fin n)) (ts : List (List Char)) :
    readSlots n (ts.map (List.map (relabelChar σ))) = (readSlots n ts).map (List.map (mapSlot σ)) :=
  mapM_except (readSlot_relabel hn σ) ts

/-! ### Values -/

variable {K : Type*} [Field K]

theorem evalString_relabel (hn : n ≤ 9) (ps : Point K n) (σ : Equiv.Perm (Fin n)) (o : Char) (a : List Char) (ms : List (List Char)) (d : List Char)
    (c : Char) : evalString (moved ps σ) o (a.map (relabelChar σ)) (ms.map (List.map (relabelChar σ))) (d.map (relabelChar σ)) c =
      evalString ps o a ms d c := by
  unfold evalString
  rw [List.length_map, readLabel_relabel hn, readLabel_relabel hn, readSlots_relabel hn]
  split
  · rfl
  · cases readLabel n a with
    | error e => rfl
    | ok a =>
      cases readSlots n ms with
      | error e => rfl
      | ok ms =>
        cases readLabel n d with
        | error e => rfl
        | ok d => exact (C35_relabel ps σ).1 o a ms d c

theorem unpack4_map {m : Char → Char} (h : DigitMap m) (t : List Char) :
    unpack4 (t.map m) = (unpack4 t).map fun q => (q.1.map m, q.2.1.map m, q.2.2.1.map m, q.2.2.2.map m) := by
  have hm : '|' ∈ t.map m ↔ '|' ∈ t := by
    simp only [List.mem_map, h.eq_iff (x := '|') (by decide), exists_eq_right]
  have e : (if '|' ∈ t.map m then (t.map m).splitOn '|' else (t.map m).map fun c => [c]) =
      (if '|' ∈ t then t.splitOn '|' else t.map fun c => [c]).map (List.map m) := by
    simp only [hm, h.splitOn (x := '|') (by decide)]
    split <;> simp
  unfold unpack4
  rw [e]
  rcases (if '|' ∈ t then t.splitOn '|' else t.map fun c => [c]) with _ | ⟨a, _ | ⟨b, _ | ⟨c, _ | ⟨d, _ | ⟨x, l⟩⟩⟩⟩⟩ <;> rfl

theorem rotateText_map (m : Char → Char) : ∀ (k : ℕ) (q : List Char × List Char × List Char × List Char),
    rotateText k (q.1.map m, q.2.1.map m, q.2.2.1.map m, q.2.2.2.map m) =
      (rotateText k q).map fun q => (q.1.map m, q.2.1.map m, q.2.2.1.map m, q.2.2.2.map m)
  | 0, _ => rfl
  | k + 1, (a, b, c, d) => by
    simp only [rotateText, List.length_map]
    split
    · rfl
    · exact rotateText_map m k (b, c, d, a)

theorem tr5Text_map {m : Char → Char} (h : DigitMap m) {o e : Char} (ho : o.isDigit = false) (he : e.isDigit = false) (a b c d : List Char) :
    tr5Text o (a.map m) (b.map m) (c.map m) (d.map m) e = (tr5Text o a b c d e).map m := by
  have := h.intercalate [a, b, c, d, a]
  simp only [List.map_cons, List.map_nil] at this
  simp only [tr5Text, List.map_append, List.map_cons, List.map_nil, h.fix ho, h.fix he, this]

theorem evalStringText_relabel (hn : n ≤ 9) (ps : Point K n) (σ : Equiv.Perm (Fin n)) {t : List Char} (ht : NoTrDigit t) (hd : t.head? ≠ some 'δ') :
    evalStringText (moved ps σ) (t.map (relabelChar σ)) = evalStringText ps t := by
  unfold evalStringText
  rw [(relabelChar_map hn σ).classify ht hd]
  cases classify t <;> first | rfl | exact congrArg some (evalString_relabel hn ps σ _ _ _ _ _)

theorem evalTr5_relabel (hn : n ≤ 9) (ps : Point K n) (σ : Equiv.Perm (Fin n)) (t : List Char) :
    evalTr5 (moved ps σ) (t.map (relabelChar σ)) = evalTr5 ps t := by
  have h := relabelChar_map hn σ
  unfold evalTr5
  rw [unpack4_map h]
  rcases unpack4 t with e | q
  · rfl
  · simp only [Except.map, rotateText_map]
    rcases rotateText 4 q with _ | ⟨a, b, c, d⟩
    · rfl
    · simp only [Option.map_some]
      rw [tr5Text_map h (by decide) (by decide), tr5Text_map h (by decide) (by decide),
        evalStringText_relabel hn ps σ (by rintro ⟨h1, -⟩; simp [tr5Text] at h1) (by simp [tr5Text]),
        evalStringText_relabel hn ps σ (by rintro ⟨h1, -⟩; simp [tr5Text] at h1) (by simp [tr5Text])]

theorem computeDelta_len (ps : Point K n) {k l : ℕ} (e : k = l) (F : Fin (l + 2) → List (Fin n)) (G : Fin (k + 2) → List (Fin n))
    (h : ∀ i, G i = F (i.cast (by rw [e]))) : computeDelta ps k G = computeDelta ps l F := by
  subst e
  exact congrArg _ (funext h)

theorem evalDelta_relabel (hn : n ≤ 9) (ps : Point K n) (σ : Equiv.Perm (Fin n)) (cs : List (List Char)) :
    evalDelta (moved ps σ) (cs.map (List.map (relabelChar σ))) = evalDelta ps cs := by
  unfold evalDelta
  rw [mapM_except (readDigits_relabel hn σ) cs]
  rcases cs.mapM (readDigits n) with e | ⟨_ | ⟨c0, _ | ⟨c1, cs⟩⟩⟩
  · rfl
  · rfl
  · rfl
  · refine congrArg Except.ok ?_
    rw [← (C35_relabel ps σ).2.2.2.2.2.2.1]
    refine computeDelta_len _ (by simp) _ _ fun i => ?_
    simp only [List.get_eq_getElem, Fin.val_cast]
    rw [← List.getElem_map (f := List.map σ)]
    rfl

/-- The forms with labels that stand for themselves only. -/
def Form.Plain : Form → Prop
  | .omega _ | .pi _ | .d5 | .internalMass _ => False
  | .delta [_] => False
  | _ => True

theorem evalForm_relabel (hn : n ≤ 9) (ps : Point K n) (σ : Equiv.Perm (Fin n)) (fuel : ℕ) (f : Form) (hf : f.Plain) :
    evalForm (moved ps σ) fuel (f.mapLabels (relabelChar σ)) = evalForm ps fuel f := by
  have hm : ∀ k, moved ps σ (σ k) = ps k := fun k => by rw [moved, Equiv.symm_apply_apply]
  obtain ⟨hNB, hOB, hOE, hDO, hTr, hS, -⟩ := C35_relabel ps σ
  cases f with
  | tr5 t => exact congrArg (Option.map asNum) (evalTr5_relabel hn ps σ t)
  | tr es =>
    simp only [Form.mapLabels, evalForm, readSlots_relabel hn]
    cases readSlots n es with
    | error e => rfl
    | ok ms => simp only [Except.map, hTr]
  | omega ds => exact hf.elim
  | pi ds => exact hf.elim
  | delta cs =>
    rcases cs with _ | ⟨c, _ | ⟨c', cs⟩⟩
    · exact congrArg (fun r => some (asNum r)) (evalDelta_relabel hn ps σ [])
    · exact hf.elim
    · exact congrArg (fun r => some (asNum r)) (evalDelta_relabel hn ps σ (c :: c' :: cs))
  | d5 => exact hf.elim
  | massOf t =>
    simp only [Form.mapLabels, evalForm, List.length_map, ← List.map_drop, readDigits_relabel hn]
    cases readDigits n (t.drop (t.length - 1)) with
    | error e => rfl
    | ok ms => simp only [Except.map, hS]
  | mandelstam ds =>
    simp only [Form.mapLabels, evalForm, readDigits_relabel hn]
    cases readDigits n ds with
    | error e => rfl
    | ok ms => simp only [Except.map, hS]
  | angle a b =>
    simp only [Form.mapLabels, evalForm, readLabel_relabel hn]
    cases readLabel n a <;> cases readLabel n b <;> simp only [Except.map, hm]
  | square a b =>
    simp only [Form.mapLabels, evalForm, readLabel_relabel hn]
    cases readLabel n a <;> cases readLabel n b <;> simp only [Except.map, hm]
  | Au a =>
    simp only [Form.mapLabels, evalForm, readLabel_relabel hn]
    cases readLabel n a <;> simp only [Except.map, hm]
  | Ad a =>
    simp only [Form.mapLabels, evalForm, readLabel_relabel hn]
    cases readLabel n a <;> simp only [Except.map, hm]
  | Su a =>
    simp only [Form.mapLabels, evalForm, readLabel_relabel hn]
    cases readLabel n a <;> simp only [Except.map, hm]
  | Sd a =>
    simp only [Form.mapLabels, evalForm, readLabel_relabel hn]
    cases readLabel n a <;> simp only [Except.map, hm]
  | string o a ms d c => exact congrArg (fun r => some (asNum r)) (evalString_relabel hn ps σ o a ms d c)
  | openBegin ms d c =>
    simp only [Form.mapLabels, evalForm, readLabel_relabel hn, readSlots_relabel hn]
    cases readSlots n ms <;> cases readLabel n d <;> simp only [Except.map, hOB]
  | openEnd o a ms =>
    simp only [Form.mapLabels, evalForm, readLabel_relabel hn, readSlots_relabel hn]
    cases readLabel n a <;> cases readSlots n ms <;> simp only [Except.map, hOE]
  | doubleOpen ms =>
    simp only [Form.mapLabels, evalForm, readSlots_relabel hn]
    cases readSlots n ms <;> simp only [Except.map, hDO]
  | internalMass t => exact hf.elim
  | expression => rfl

end Lips

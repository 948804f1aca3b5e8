import Verif.Props.Dispatch
import Verif.Props.Masses

/-!
Property C82 for the texts that begin with a name: `s`, `Δ`, `Ω`, `Π`, `tr`, `tr5`, masses; and for
the open strings.
-/

namespace Lips

variable {K : Type*} [Field K] {n : ℕ}

/-- Labels written with one digit each. -/
def digitText (ls : List (Fin n)) : List Char := ls.map fun l : Fin n => digitOf ((l : ℕ) + 1)

/-- All labels have one digit. -/
def OneDigit (ls : List (Fin n)) : Prop := ∀ l ∈ ls, (l : ℕ) + 1 < 10

theorem digitOf_val : ∀ k < 10, (digitOf k).toNat - 48 = k := by decide
theorem digitOf_isDigit : ∀ k < 10, (digitOf k).isDigit = true := by decide

theorem label_succ (l : Fin n) : label n ((l : ℕ) + 1) = .ok l := by
  rw [label, dif_pos ⟨by omega, by have := l.2; omega⟩]
  simp

theorem digitText_isDigit {ls : List (Fin n)} (h : OneDigit ls) : ∀ c ∈ digitText ls, c.isDigit = true := by
  intro c hc
  obtain ⟨l, hl, rfl⟩ := List.mem_map.1 hc
  exact digitOf_isDigit _ (h l hl)

theorem isDigits_digitText {ls : List (Fin n)} (h : OneDigit ls) (hne : ls ≠ []) :
    isDigits (digitText ls) = true :=
  isDigits_iff.2 ⟨by simpa [digitText] using hne, digitText_isDigit h⟩

theorem readDigits_ok {ls : List (Fin n)} (h : OneDigit ls) : readDigits n (digitText ls) = .ok ls := by
  rw [readDigits, digitText, List.mapM_map, mapM_ok _ id _ fun l hl => ?_, List.map_id]
  simp only [Function.comp, digitOf_val _ (h l hl), label_succ, id]

theorem digitText_not_bold {ls : List (Fin n)} (h : OneDigit ls) : ∀ c ∈ digitText ls, c ∉ boldChars :=
  fun c hc => digit_not_bold (digitText_isDigit h c hc)

/-! ### Mandelstams -/

/-- C82: `s_ijk...` in its four spellings, with one-digit labels, is evaluated as the Mandelstam
variable of these labels. -/
theorem C82_mandelstam (ps : Point K n) (fuel : ℕ) (pre : List Char)
    (hp : pre ∈ ["s_".toList, "S_".toList, "s".toList, "S".toList]) (ls : List (Fin n)) (hne : ls ≠ [])
    (h : OneDigit ls) : computeText ps fuel (pre ++ digitText ls) = some (.ok (.num (computeS ps ls))) := by
  obtain ⟨c, ds, e⟩ := List.exists_cons_of_ne_nil (show digitText ls ≠ [] by simpa [digitText] using hne)
  have hd := isDigits_digitText h hne
  have hc : c ≠ '_' := by
    have := (isDigits_iff.1 hd).2 c (by rw [e]; simp)
    exact (digit_ne this).2.2.2.2.2
  simp only [List.mem_cons, List.not_mem_nil, or_false] at hp
  have hcl : classify (pre ++ digitText ls) = .mandelstam (digitText ls) := by
    rcases hp with rfl | rfl | rfl | rfl
    · simp [classify, matchTr5, matchTr, afterDigits, between, matchDelta, matchMi_cons, matchS, hd]
    · simp [classify, matchTr5, matchTr, afterDigits, between, matchDelta, matchMi_cons, matchS, hd]
    · rw [e] at hd ⊢
      simp [classify, matchTr5, matchTr, afterDigits, between, matchDelta, matchMi_cons, matchS, hd, hc]
    · rw [e] at hd ⊢
      simp [classify, matchTr5, matchTr, afterDigits, between, matchDelta, matchMi_cons, matchS, hd, hc]
  rw [computeText_plain, hcl]
  · simp only [evalForm, readDigits_ok h]
  · intro x hx
    rcases List.mem_append.1 hx with hx | hx
    · rcases hp with rfl | rfl | rfl | rfl <;> exact (by decide : ∀ x ∈ _, x ∉ boldChars) x hx
    · exact digitText_not_bold h x hx

/-- C82 (finding): a label with two digits in a Mandelstam variable is read as two labels; with a
zero among them it is refused, otherwise the wrong particles are used. -/
theorem C82_two_digit_mandelstam (ps : Point K n) (fuel : ℕ) :
    computeText ps fuel "s_10".toList = some (.error .indexError) ∧
    (∀ h : 2 ≤ n, computeText ps fuel "s_12".toList =
      some (.ok (.num (computeS ps [⟨0, by omega⟩, ⟨1, by omega⟩])))) := by
  constructor
  · rw [computeText_plain _ _ _ (by decide)]
    have : classify "s_10".toList = .mandelstam "10".toList := by decide
    rw [this]
    have : readDigits n "10".toList = .error .indexError := by
      have hz : label n 0 = .error .indexError := by rw [label, dif_neg (by omega)]
      have e : "10".toList = ['1', '0'] := by decide
      rw [e, readDigits, List.mapM_cons, List.mapM_cons]
      have h0 : ('0' : Char).toNat - 48 = 0 := by decide
      rw [h0, hz]
      cases h1 : label n (('1' : Char).toNat - 48) with
      | ok x => rfl
      | error e =>
        have : e = .indexError := by
          unfold label at h1
          split at h1 <;> cases h1
          rfl
        rw [this]; rfl
    simp only [evalForm, this]
  · intro h
    have := C82_mandelstam ps fuel "s_".toList (by simp) [⟨0, by omega⟩, ⟨1, by omega⟩] (by simp)
      (by intro l hl; simp at hl; rcases hl with rfl | rfl <;> simp)
    exact this

/-! ### Shorthands with three labels -/

/-- C82: `Ω_ijk`, `Π_ijk` and `Δ_ijk` with one-digit labels are evaluated from the three corners
that the labels generate. -/
theorem C82_shorthands (ps : Point K n) (fuel : ℕ) (i j k : Fin n) (h : OneDigit [i, j, k])
    {A B C : List (Fin n)} (harcs : shortCorners n fuel (digitText [i, j, k]) = some (.ok (A, B, C))) :
    computeText ps fuel ("Ω_".toList ++ digitText [i, j, k]) = some (asNum (computeOmega ps A B C)) ∧
    computeText ps fuel ("Π_".toList ++ digitText [i, j, k]) = some (asNum (computePi ps A C)) ∧
    computeText ps fuel ("Δ_".toList ++ digitText [i, j, k]) =
      some (.ok (.num (computeDeltaShort ps A B))) := by
  have hd := isDigits_digitText h (by simp)
  have hb : '|' ∉ digitText [i, j, k] := fun hm => (digit_ne (digitText_isDigit h _ hm)).1 rfl
  have hsp := List.splitOn_eq_singleton hb
  refine ⟨?_, ?_, ?_⟩
  · have hcl : classify ("Ω_".toList ++ digitText [i, j, k]) = .omega (digitText [i, j, k]) := by
      simp [classify, matchTr5, matchTr, afterDigits, between, hd]
    rw [computeText_plain, hcl]
    · simp only [evalForm, harcs, Option.map_some]
    · intro x hx
      rcases List.mem_append.1 hx with hx | hx
      · exact (by decide : ∀ x ∈ _, x ∉ boldChars) x hx
      · exact digitText_not_bold h x hx
  · have hcl : classify ("Π_".toList ++ digitText [i, j, k]) = .pi (digitText [i, j, k]) := by
      simp [classify, matchTr5, matchTr, afterDigits, between, hd]
    rw [computeText_plain, hcl]
    · simp only [evalForm, harcs, Option.map_some]
    · intro x hx
      rcases List.mem_append.1 hx with hx | hx
      · exact (by decide : ∀ x ∈ _, x ∉ boldChars) x hx
      · exact digitText_not_bold h x hx
  · have hcl : classify ("Δ_".toList ++ digitText [i, j, k]) = .delta [digitText [i, j, k]] := by
      simp [classify, matchTr5, matchTr, afterDigits, between, matchDelta, hd, hsp]
    rw [computeText_plain, hcl]
    · simp only [evalForm, harcs, Option.map_some]
    · intro x hx
      rcases List.mem_append.1 hx with hx | hx
      · exact (by decide : ∀ x ∈ _, x ∉ boldChars) x hx
      · exact digitText_not_bold h x hx

/-! ### Gram determinants -/

/-- C82: `Δ_ab|cd|ef...` with at least two corners of one-digit labels is evaluated as the Gram
determinant of these corners. -/
theorem C82_delta (ps : Point K n) (fuel : ℕ) (c0 c1 : List (Fin n)) (cs : List (List (Fin n)))
    (hne : ∀ c ∈ c0 :: c1 :: cs, c ≠ []) (h : ∀ c ∈ c0 :: c1 :: cs, OneDigit c) :
    computeText ps fuel ("Δ_".toList ++ ['|'].intercalate ((c0 :: c1 :: cs).map digitText)) =
      some (.ok (.num (computeDelta ps cs.length fun i => (c0 :: c1 :: cs).get (i.cast (by simp))))) := by
  have hb : ∀ l ∈ (c0 :: c1 :: cs).map digitText, '|' ∉ l := by
    intro l hl hm
    obtain ⟨c, hc, rfl⟩ := List.mem_map.1 hl
    exact (digit_ne (digitText_isDigit (h c hc) _ hm)).1 rfl
  have hsp := List.splitOn_intercalate '|' hb (by simp)
  have hall : ((c0 :: c1 :: cs).map digitText).all isDigits = true := by
    rw [List.all_eq_true]
    intro l hl
    obtain ⟨c, hc, rfl⟩ := List.mem_map.1 hl
    exact isDigits_digitText (h c hc) (hne c hc)
  have hcl : classify ("Δ_".toList ++ ['|'].intercalate ((c0 :: c1 :: cs).map digitText)) =
      .delta ((c0 :: c1 :: cs).map digitText) := by
    have : matchDelta ("Δ_".toList ++ ['|'].intercalate ((c0 :: c1 :: cs).map digitText)) =
        some ((c0 :: c1 :: cs).map digitText) := by
      unfold matchDelta
      have e : ("Δ_".toList ++ ['|'].intercalate ((c0 :: c1 :: cs).map digitText)).drop 2 =
          ['|'].intercalate ((c0 :: c1 :: cs).map digitText) := by simp
      rw [e, hsp, if_pos]
      exact ⟨by simp, hall⟩
    rw [classify, this]
    simp [matchTr5, matchTr, afterDigits, between]
  rw [computeText_plain, hcl]
  · have hr : ((c0 :: c1 :: cs).map digitText).mapM (readDigits n) = .ok (c0 :: c1 :: cs) := by
      rw [List.mapM_map, mapM_ok _ id _ fun c hc => ?_, List.map_id]
      exact readDigits_ok (h c hc)
    have he : evalDelta ps ((c0 :: c1 :: cs).map digitText) =
        .ok (computeDelta ps cs.length fun i => (c0 :: c1 :: cs).get (i.cast (by simp))) := by
      rw [evalDelta, hr]
    simp only [List.map_cons] at he ⊢
    simp only [evalForm, he, asNum]
  · intro x hx
    rcases List.mem_append.1 hx with hx | hx
    · exact (by decide : ∀ x ∈ _, x ∉ boldChars) x hx
    · refine intercalate_not_bold _ ?_ x hx
      intro t ht
      obtain ⟨c, hc, rfl⟩ := List.mem_map.1 ht
      exact digitText_not_bold (h c hc)

/-! ### Masses -/

/-- The names of the squared masses of particles: `m` or `M`, possibly an underscore, and one digit. -/
def OneDigitMass (t : List Char) : Prop :=
  ∃ c d, c ∈ ['m', 'M'] ∧ ('0' ≤ d ∧ d ≤ '9') ∧ (t = [c, d] ∨ t = [c, '_', d])

theorem matchMi_iff (t : List Char) : matchMi t = true ↔ OneDigitMass t := by
  unfold OneDigitMass
  simp only [← isDigit_iff]
  unfold matchMi
  split
  · rename_i c d
    simp only [Bool.and_eq_true, Bool.or_eq_true, decide_eq_true_eq]
    constructor
    · rintro ⟨h1, h2⟩
      exact ⟨c, d, by simpa using h1, h2, .inl rfl⟩
    · rintro ⟨c', d', h1, h2, h | h⟩
      · simp at h; obtain ⟨rfl, rfl⟩ := h; exact ⟨by simpa using h1, h2⟩
      · simp at h
  · rename_i c u d
    simp only [Bool.and_eq_true, Bool.or_eq_true, decide_eq_true_eq]
    constructor
    · rintro ⟨⟨h1, rfl⟩, h2⟩
      exact ⟨c, d, by simpa using h1, h2, .inr rfl⟩
    · rintro ⟨c', d', h1, h2, h | h⟩
      · simp at h
      · simp at h; obtain ⟨rfl, rfl, rfl⟩ := h; exact ⟨⟨by simpa using h1, rfl⟩, h2⟩
  · rename_i h1 h2
    simp only [Bool.false_eq_true, false_iff]
    rintro ⟨c, d, -, -, rfl | rfl⟩
    · exact h1 _ _ rfl
    · exact h2 _ _ _ rfl

/-- C82: a mass name is read from the attribute, unless it consists of `m` or `M`, possibly an
underscore, and one digit: then the squared mass of that particle is returned instead. -/
theorem C82_mass_name (t : List Char) (h : MassForm t) :
    (OneDigitMass t → classify t = .massOf t) ∧ (¬OneDigitMass t → classify t = .internalMass t) := by
  rw [← isMassName_iff] at h
  rw [← matchMi_iff]
  suffices hs : classify t = if matchMi t then .massOf t else .internalMass t by
    rw [hs]; exact ⟨fun x => if_pos x, fun x => if_neg x⟩
  obtain ⟨c, cs, rfl⟩ : ∃ c cs, t = c :: cs := by
    cases t with
    | nil => simp [isMassName] at h
    | cons c cs => exact ⟨c, cs, rfl⟩
  have hc : c = 'm' ∨ c = 'M' ∨ c = 'μ' := by
    simp only [isMassName, Bool.and_eq_true, Bool.or_eq_true, decide_eq_true_eq] at h
    tauto
  have hbr : classifyBracket (c :: cs) = .internalMass (c :: cs) := by
    have h1 : ∀ opens : List Char, opens ∈ [['⟨', '<'], ['|'], ['[']] → c ∉ opens := by
      rcases hc with rfl | rfl | rfl <;> decide
    have h2 : matchNB (c :: cs) = none := by
      have : c ∉ ['<', '⟨', '['] := by rcases hc with rfl | rfl | rfl <;> decide
      unfold matchNB
      split
      · rfl
      · rename_i e
        cases e
        split
        · split
          · rw [if_neg (fun hh => this hh.1)]
          · rfl
        · rfl
    have h3 : matchOpenBegin (c :: cs) = none := by rcases hc with rfl | rfl | rfl <;> simp [matchOpenBegin]
    have h4 : matchOpenEnd (c :: cs) = none := by
      have : c ∉ ['⟨', '['] := by rcases hc with rfl | rfl | rfl <;> decide
      unfold matchOpenEnd
      split
      · rfl
      · rename_i e
        cases e
        split
        · rw [if_neg (fun hh => this hh.1)]
        · rfl
    have h5 : matchDoubleOpen (c :: cs) = none := by
      rcases hc with rfl | rfl | rfl <;> simp [matchDoubleOpen, between]
    rw [classifyBracket, matchTwo_none (.inl (h1 _ (by simp))), matchOne_none (.inl (h1 _ (by simp))),
      matchOne_none (.inl (h1 _ (by simp))), matchTwo_none (.inl (h1 _ (by simp))),
      matchOne_none (.inl (h1 _ (by simp))), matchOne_none (.inl (h1 _ (by simp))), h2, h3, h4, h5]
    simp [h]
  rcases hc with rfl | rfl | rfl <;>
    (simp [classify, matchTr5, matchTr, afterDigits, between, matchDelta, matchS, hbr] )

/-- C82 is false for internal masses: a mass called `m1` is registered by its assignment, but
`compute("m1")` returns `s_1`. -/
theorem C82_mass_shadowed (ps : Point K n) (fuel : ℕ) (h : 1 ≤ n) :
    MassForm "m1".toList ∧
    computeText ps fuel "m1".toList = some (.ok (.num (computeS ps [⟨0, by omega⟩]))) := by
  have hm : MassForm "m1".toList := (isMassName_iff _).mp (by decide)
  refine ⟨hm, ?_⟩
  rw [computeText_plain _ _ _ (by decide), (C82_mass_name _ hm).1 ((matchMi_iff _).mp (by decide))]
  have : readDigits n ("m1".toList.drop ("m1".toList.length - 1)) = .ok [⟨0, by omega⟩] := by
    have := readDigits_ok (ls := [(⟨0, by omega⟩ : Fin n)]) (by intro l hl; simp at hl; subst hl; simp)
    exact this
  simp only [evalForm, this]

example : classify "mt2".toList = .internalMass "mt2".toList ∧ classify "m_H".toList = .internalMass "m_H".toList ∧
    classify "M12".toList = .internalMass "M12".toList ∧ classify "m_3".toList = .massOf "m_3".toList := by decide

end Lips

import Verif.Lemmas.Patterns
import Verif.Props.DispatchNames

/-!
C92: what `compute` takes a text for is decided by the regular expressions of lips/tools.py alone; the order in
which they are tried matters for masses only.
-/

namespace Lips

open Computability

/-! ### Specification -/

/-- The texts of the patterns, tools.py:32-51 and particles_compute.py:84-275, with what is taken from them. -/
inductive ReadsAs : List Char → Form → Prop
  | tr5Labels {ds} : ds ∈ plus digitL → ReadsAs ("tr5_".toList ++ ds) (.tr5 ds)
  | tr5 {m} : m ∈ plus (digitL + opL) → ReadsAs ("tr5(".toList ++ (m ++ [')'])) (.tr5 m)
  | tr {m} : m ∈ trLang → ReadsAs ("tr(".toList ++ (m ++ [')'])) (.tr ((m.filter (· ∉ ['(', ')'])).splitOn '|'))
  | omega {ds} : ds ∈ plus digitL → ReadsAs ("Ω_".toList ++ ds) (.omega ds)
  | pi {ds} : ds ∈ plus digitL → ReadsAs ("Π_".toList ++ ds) (.pi ds)
  | delta {cs} : cs ≠ [] → (∀ c ∈ cs, c ∈ plus digitL) → ReadsAs ("Δ_".toList ++ ['|'].intercalate cs) (.delta cs)
  | d5 : ReadsAs "δ5".toList .d5
  | massOf {t} : OneDigitMass t → ReadsAs t (.massOf t)
  | mandelstam {c us ds} : c ∈ ['s', 'S'] → us ∈ [[], ['_']] → ds ∈ plus digitL → ReadsAs (c :: (us ++ ds)) (.mandelstam ds)
  | angle {o a b c} : o ∈ ['⟨', '<'] → c ∈ ['⟩', '>'] → a ∈ plus digitL → b ∈ plus digitL →
      ReadsAs (o :: ((a ++ '|' :: b) ++ [c])) (.angle a b)
  | Au {o a} : o ∈ ['⟨', '<'] → a ∈ plus digitL → ReadsAs (o :: (a ++ ['|'])) (.Au a)
  | Ad {a c} : c ∈ ['⟩', '>'] → a ∈ plus digitL → ReadsAs ('|' :: (a ++ [c])) (.Ad a)
  | square {a b} : a ∈ plus digitL → b ∈ plus digitL → ReadsAs ('[' :: ((a ++ '|' :: b) ++ [']'])) (.square a b)
  | Su {a} : a ∈ plus digitL → ReadsAs ('|' :: (a ++ [']'])) (.Su a)
  | Sd {a} : a ∈ plus digitL → ReadsAs ('[' :: (a ++ ['|'])) (.Sd a)
  | string {o a m d c} : o ∈ ['<', '⟨', '['] → c ∈ ['⟩', ']', '>'] → a ∈ plus digitL → m ∈ nbLang → d ∈ plus digitL →
      ReadsAs (o :: ((a ++ '|' :: (m ++ '|' :: d)) ++ [c])) (.string o a (m.splitOn '|') d c)
  | openBegin {m d c} : m ∈ obLang → d ∈ plus digitL → c ∈ ['⟩', ']'] →
      ReadsAs ('|' :: ((m ++ '|' :: d) ++ [c])) (.openBegin (m.splitOn '|') d c)
  | openEnd {o a m} : o ∈ ['⟨', '['] → a ∈ plus digitL → m ∈ obLang →
      ReadsAs (o :: ((a ++ '|' :: m) ++ ['|'])) (.openEnd o a (m.splitOn '|'))
  | doubleOpen {m} : m ∈ obLang → ReadsAs ('|' :: (m ++ ['|'])) (.doubleOpen (m.splitOn '|'))
  | internalMass {t} : MassForm t → ¬OneDigitMass t → ReadsAs t (.internalMass t)

/-! ### Digits and bars -/

theorem mem_plus_oneOf (p : Char → Prop) (t : List Char) : t ∈ plus (oneOf p) ↔ t ≠ [] ∧ ∀ c ∈ t, p c := by
  have star : ∀ t, t ∈ (oneOf p)∗ ↔ ∀ c ∈ t, p c := by
    intro t
    induction t with
    | nil => simp [Language.nil_mem_kstar]
    | cons c t ih => rw [star_eq, Language.mem_add, cons_mem_one, cons_mem_oneOf_mul, ih, false_or, List.forall_mem_cons]
  unfold plus
  cases t with
  | nil => simp [nil_mem_oneOf_mul]
  | cons c t => rw [cons_mem_oneOf_mul, star, List.forall_mem_cons]; simp

theorem isDigits_lang (t : List Char) : isDigits t = true ↔ t ∈ plus digitL := by
  rw [mem_plus_oneOf]
  simp only [isDigits, Bool.and_eq_true, Bool.not_eq_true', List.isEmpty_eq_false_iff, List.all_eq_true, isDigit_iff]

theorem bar_digits {t : List Char} (h : isDigits t = true) : '|' ∉ t := by
  simp only [isDigits, Bool.and_eq_true, List.all_eq_true] at h
  intro hb
  exact absurd (h.2 _ hb) (by decide)

theorem digits_ne_nil {t : List Char} (h : isDigits t = true) : t ≠ [] := by
  rintro rfl; simp [isDigits] at h

theorem trChars_lang (m : List Char) :
    (m ≠ [] ∧ m.all (fun c => c.isDigit || isOp c) = true) ↔ m ∈ plus (digitL + opL) := by
  have : digitL + opL = oneOf fun c => ('0' ≤ c ∧ c ≤ '9') ∨ c ∈ ['+', '|', '-'] := by
    ext t
    simp only [Language.mem_add]
    constructor
    · rintro (⟨c, h, e⟩ | ⟨c, h, e⟩)
      · exact ⟨c, .inl h, e⟩
      · exact ⟨c, .inr h, e⟩
    · rintro ⟨c, h | h, e⟩
      · exact .inl ⟨c, h, e⟩
      · exact .inr ⟨c, h, e⟩
  rw [this, mem_plus_oneOf]
  simp only [List.all_eq_true, Bool.or_eq_true, isDigit_iff, isOp, decide_eq_true_eq, List.mem_cons, List.not_mem_nil, or_false, or_assoc]

theorem not_mem_of_mem_splitOn {c : Char} {t l : List Char} (h : l ∈ t.splitOn c) : c ∉ l := by
  induction hn : t.length using Nat.strong_induction_on generalizing t with
  | _ n ih =>
    by_cases hc : c ∈ t
    · obtain ⟨u, v, rfl, hu⟩ := List.eq_append_cons_of_mem hc
      rw [List.splitOn_append_cons_self_of_not_mem hu, List.mem_cons] at h
      rcases h with rfl | h
      · exact hu
      · exact ih v.length (by subst hn; simp only [List.length_append, List.length_cons]; omega) h rfl
    · rw [List.splitOn_eq_singleton hc, List.mem_singleton] at h
      rw [h]; exact hc

theorem splitOn_ne_nil (c : Char) (t : List Char) : t.splitOn c ≠ [] := by
  by_cases hc : c ∈ t
  · obtain ⟨u, v, rfl, hu⟩ := List.eq_append_cons_of_mem hc
    rw [List.splitOn_append_cons_self_of_not_mem hu]; simp
  · rw [List.splitOn_eq_singleton hc]; simp

/-- Parts of a text between bars, joined again. -/
theorem join_cons {a : List Char} {ps : List (List Char)} (h : ps ≠ []) :
    ['|'].intercalate (a :: ps) = a ++ '|' :: ['|'].intercalate ps := by
  cases ps with
  | nil => exact absurd rfl h
  | cons p ps => simp [List.intercalate_cons_cons]

theorem join_concat {d : List Char} {ps : List (List Char)} (h : ps ≠ []) :
    ['|'].intercalate (ps ++ [d]) = ['|'].intercalate ps ++ '|' :: d := by
  induction ps with
  | nil => exact absurd rfl h
  | cons p ps ih =>
    by_cases hp : ps = []
    · subst hp; simp [List.intercalate_cons_cons]
    · rw [List.cons_append, join_cons (by simp), ih hp, join_cons hp]; simp

/-! ### The matchers -/

/-- A text with at least two characters, by its ends. -/
theorem ends_cases (t : List Char) : t = [] ∨ (∃ o, t = [o]) ∨ ∃ o u c, t = o :: (u ++ [c]) := by
  cases t with
  | nil => exact .inl rfl
  | cons o rest =>
    rcases List.eq_nil_or_concat rest with rfl | ⟨u, c, rfl⟩
    · exact .inr (.inl ⟨o, rfl⟩)
    · exact .inr (.inr ⟨o, u, c, by simp⟩)

theorem matchTwo_iff {os cl t a b} : matchTwo os cl t = some (a, b) ↔
    ∃ o c, o ∈ os ∧ c ∈ cl ∧ isDigits a = true ∧ isDigits b = true ∧ t = o :: ((a ++ '|' :: b) ++ [c]) := by
  constructor
  · intro h
    rcases ends_cases t with rfl | ⟨o, rfl⟩ | ⟨o, u, c, rfl⟩
    · simp [matchTwo] at h
    · simp [matchTwo] at h
    · simp only [matchTwo, List.getLast?_append, List.getLast?_singleton, Option.some_or, List.dropLast_concat] at h
      split at h
      · rename_i c' x y e1 e2
        injection e1 with e1
        subst e1
        split_ifs at h with hh
        simp only [Option.some.injEq, Prod.mk.injEq] at h
        obtain ⟨rfl, rfl⟩ := h
        refine ⟨o, c, hh.1, hh.2.1, hh.2.2.1, hh.2.2.2, ?_⟩
        have := List.intercalate_splitOn (xs := u) '|'
        rw [e2] at this
        rw [← this]; simp
      · simp at h
  · rintro ⟨o, c, h1, h2, h3, h4, rfl⟩
    simp only [matchTwo, List.getLast?_append, List.getLast?_singleton, Option.some_or, List.dropLast_concat,
      List.splitOn_append_cons_self_of_not_mem (bar_digits h3), List.splitOn_eq_singleton (bar_digits h4)]
    rw [if_pos ⟨h1, h2, h3, h4⟩]

theorem matchOne_iff {os cl t a} : matchOne os cl t = some a ↔
    ∃ o c, o ∈ os ∧ c ∈ cl ∧ isDigits a = true ∧ t = o :: (a ++ [c]) := by
  constructor
  · intro h
    rcases ends_cases t with rfl | ⟨o, rfl⟩ | ⟨o, u, c, rfl⟩
    · simp [matchOne] at h
    · simp [matchOne] at h
    · simp only [matchOne, List.getLast?_append, List.getLast?_singleton, Option.some_or, List.dropLast_concat] at h
      split_ifs at h with hh
      simp only [Option.some.injEq] at h
      subst h
      exact ⟨o, c, hh.1, hh.2.1, hh.2.2, rfl⟩
  · rintro ⟨o, c, h1, h2, h3, rfl⟩
    simp only [matchOne, List.getLast?_append, List.getLast?_singleton, Option.some_or, List.dropLast_concat]
    rw [if_pos ⟨h1, h2, h3⟩]

theorem matchNB_iff {t o a ms d c} : matchNB t = some (o, a, ms, d, c) ↔
    o ∈ ['<', '⟨', '['] ∧ c ∈ ['⟩', ']', '>'] ∧ isDigits a = true ∧ isDigits d = true ∧
      ∃ m, nbMiddle m = true ∧ ms = m.splitOn '|' ∧ t = o :: ((a ++ '|' :: (m ++ '|' :: d)) ++ [c]) := by
  constructor
  · intro h
    rcases ends_cases t with rfl | ⟨o', rfl⟩ | ⟨o', u, c', rfl⟩
    · simp [matchNB] at h
    · simp [matchNB] at h
    · simp only [matchNB, List.getLast?_append, List.getLast?_singleton, Option.some_or, List.dropLast_concat] at h
      split at h
      · rename_i c'' x ps e1 e2
        injection e1 with e1
        subst e1
        split at h
        · rename_i y e3
          split_ifs at h with hh
          simp only [Option.some.injEq, Prod.mk.injEq] at h
          obtain ⟨rfl, rfl, rfl, rfl, rfl⟩ := h
          refine ⟨hh.1, hh.2.1, hh.2.2.1, hh.2.2.2.1, ['|'].intercalate ps.dropLast, hh.2.2.2.2, ?_, ?_⟩
          · rw [List.splitOn_intercalate]
            · intro l hl
              apply not_mem_of_mem_splitOn (t := u)
              rw [e2]
              exact List.mem_cons_of_mem _ (List.mem_of_mem_dropLast hl)
            · rintro e
              rw [e] at hh
              exact absurd hh.2.2.2.2 (by decide)
          · have hps : ps = ps.dropLast ++ [y] := (List.dropLast_append_getLast? _ e3).symm
            have hne : ps.dropLast ≠ [] := by
              rintro e
              rw [e] at hh
              exact absurd hh.2.2.2.2 (by decide)
            have := List.intercalate_splitOn (xs := u) '|'
            rw [e2, join_cons (by rw [hps]; simp), hps, join_concat hne] at this
            rw [← this]
        · simp at h
      · simp at h
  · rintro ⟨h1, h2, h3, h4, m, h5, rfl, rfl⟩
    simp only [matchNB, List.getLast?_append, List.getLast?_singleton, Option.some_or, List.dropLast_concat,
      List.splitOn_append_cons_self_of_not_mem (bar_digits h3), List.splitOn_append_cons_self, List.splitOn_eq_singleton (bar_digits h4)]
    rw [List.intercalate_splitOn, if_pos ⟨h1, h2, h3, h4, h5⟩]

theorem obMiddle_ne_nil {m : List Char} (h : obMiddle m = true) : m ≠ [] := by
  rintro rfl; exact absurd h (by decide)

theorem matchOpenBegin_iff {t ms d c} : matchOpenBegin t = some (ms, d, c) ↔
    c ∈ ['⟩', ']'] ∧ isDigits d = true ∧
      ∃ m, obMiddle m = true ∧ ms = m.splitOn '|' ∧ t = '|' :: ((m ++ '|' :: d) ++ [c]) := by
  constructor
  · intro h
    rcases ends_cases t with rfl | ⟨o', rfl⟩ | ⟨o', u, c', rfl⟩
    · simp [matchOpenBegin] at h
    · unfold matchOpenBegin at h
      split at h
      · rename_i e
        simp only [List.cons.injEq] at e
        obtain ⟨-, rfl⟩ := e
        simp at h
      · simp at h
    · unfold matchOpenBegin at h
      split at h
      · rename_i rest e
        simp only [List.cons.injEq] at e
        obtain ⟨rfl, rfl⟩ := e
        simp only [List.getLast?_append, List.getLast?_singleton, Option.some_or, List.dropLast_concat] at h
        split at h
        · rename_i c'' y e1 e2
          injection e1 with e1
          subst e1
          split_ifs at h with hh
          simp only [Option.some.injEq, Prod.mk.injEq] at h
          obtain ⟨rfl, rfl, rfl⟩ := h
          have hne : (u.splitOn '|').dropLast ≠ [] := by
            rintro e
            rw [e] at hh
            exact absurd hh.2.2 (by decide)
          refine ⟨hh.1, hh.2.1, ['|'].intercalate (u.splitOn '|').dropLast, hh.2.2, ?_, ?_⟩
          · rw [List.splitOn_intercalate _ _ hne]
            intro l hl
            exact not_mem_of_mem_splitOn (t := u) (List.mem_of_mem_dropLast hl)
          · have hps : u.splitOn '|' = (u.splitOn '|').dropLast ++ [y] := (List.dropLast_append_getLast? _ e2).symm
            have := List.intercalate_splitOn (xs := u) '|'
            rw [hps, join_concat hne] at this
            rw [this]
        · simp at h
      · simp at h
  · rintro ⟨h1, h2, m, h3, rfl, rfl⟩
    simp only [matchOpenBegin, List.getLast?_append, List.getLast?_singleton, Option.some_or, List.dropLast_concat,
      List.splitOn_append_cons_self, List.splitOn_eq_singleton (bar_digits h2)]
    rw [List.intercalate_splitOn, if_pos ⟨h1, h2, h3⟩]

theorem matchOpenEnd_iff {t o a ms} : matchOpenEnd t = some (o, a, ms) ↔
    o ∈ ['⟨', '['] ∧ isDigits a = true ∧
      ∃ m, obMiddle m = true ∧ ms = m.splitOn '|' ∧ t = o :: ((a ++ '|' :: m) ++ ['|']) := by
  constructor
  · intro h
    rcases ends_cases t with rfl | ⟨o', rfl⟩ | ⟨o', u, c', rfl⟩
    · simp [matchOpenEnd] at h
    · simp [matchOpenEnd] at h
    · simp only [matchOpenEnd, List.getLast?_append, List.getLast?_singleton, Option.some_or, List.dropLast_concat] at h
      split at h
      · rename_i c'' x ps e1 e2
        injection e1 with e1
        subst e1
        split_ifs at h with hh
        simp only [Option.some.injEq, Prod.mk.injEq] at h
        obtain ⟨rfl, rfl, rfl⟩ := h
        have hne : ps ≠ [] := by
          rintro rfl
          exact absurd hh.2.2.2 (by decide)
        refine ⟨hh.1, hh.2.2.1, ['|'].intercalate ps, hh.2.2.2, ?_, ?_⟩
        · rw [List.splitOn_intercalate _ _ hne]
          intro l hl
          apply not_mem_of_mem_splitOn (t := u)
          rw [e2]
          exact List.mem_cons_of_mem _ hl
        · have := List.intercalate_splitOn (xs := u) '|'
          rw [e2, join_cons hne] at this
          rw [this, hh.2.1]
      · simp at h
  · rintro ⟨h1, h2, m, h3, rfl, rfl⟩
    simp only [matchOpenEnd, List.getLast?_append, List.getLast?_singleton, Option.some_or, List.dropLast_concat,
      List.splitOn_append_cons_self_of_not_mem (bar_digits h2)]
    rw [List.intercalate_splitOn, if_pos ⟨h1, trivial, h2, h3⟩]

theorem between_iff {pre : List Char} {last : Char} {t m : List Char} :
    between pre last t = some m ↔ t = pre ++ (m ++ [last]) := by
  unfold between
  constructor
  · intro h
    split_ifs at h with hh
    obtain ⟨h1, h2⟩ := hh
    obtain ⟨u, rfl⟩ := List.isPrefixOf_iff_prefix.mp h1
    simp only [List.drop_left, Option.some.injEq] at h h2
    rw [← h, List.dropLast_append_getLast? _ h2]
  · rintro rfl
    rw [if_pos ⟨List.isPrefixOf_iff_prefix.mpr ⟨_, rfl⟩, by simp⟩]
    simp

theorem afterDigits_iff {pre t ds : List Char} :
    afterDigits pre t = some ds ↔ isDigits ds = true ∧ t = pre ++ ds := by
  unfold afterDigits
  constructor
  · intro h
    split_ifs at h with hh
    obtain ⟨h1, h2⟩ := hh
    obtain ⟨u, rfl⟩ := List.isPrefixOf_iff_prefix.mp h1
    simp only [List.drop_left, Option.some.injEq] at h h2
    subst h
    exact ⟨h2, rfl⟩
  · rintro ⟨h, rfl⟩
    rw [if_pos ⟨List.isPrefixOf_iff_prefix.mpr ⟨_, rfl⟩, by simpa using h⟩]
    simp

theorem matchDoubleOpen_iff {t ms} : matchDoubleOpen t = some ms ↔
    ∃ m, obMiddle m = true ∧ ms = m.splitOn '|' ∧ t = '|' :: (m ++ ['|']) := by
  unfold matchDoubleOpen
  constructor
  · intro h
    split at h
    · rename_i m e
      split_ifs at h with hh
      exact ⟨m, hh, by simpa using h.symm, by simpa using between_iff.mp e⟩
    · simp at h
  · rintro ⟨m, h, rfl, rfl⟩
    rw [between_iff.mpr (show '|' :: (m ++ ['|']) = ['|'] ++ (m ++ ['|']) by simp)]
    simp [h]

theorem matchTr_iff {t es} : matchTr t = some es ↔
    ∃ m, trMiddle m = true ∧ es = (m.filter (· ∉ ['(', ')'])).splitOn '|' ∧ t = "tr(".toList ++ (m ++ [')']) := by
  unfold matchTr
  constructor
  · intro h
    split at h
    · rename_i m e
      split_ifs at h with hh
      exact ⟨m, hh, by simpa [stripParens] using h.symm, between_iff.mp e⟩
    · simp at h
  · rintro ⟨m, h, rfl, rfl⟩
    rw [between_iff.mpr rfl]
    simp [h, stripParens]

theorem matchTr5_iff {t m} : matchTr5 t = some m ↔
    (isDigits m = true ∧ t = "tr5_".toList ++ m) ∨
      ((m ≠ [] ∧ m.all (fun c => c.isDigit || isOp c) = true) ∧ t = "tr5(".toList ++ (m ++ [')'])) := by
  unfold matchTr5
  constructor
  · intro h
    split at h
    · rename_i ds e
      simp only [Option.some.injEq] at h
      subst h
      exact .inl (afterDigits_iff.mp e)
    · split at h
      · rename_i u e
        split_ifs at h with hh
        simp only [Option.some.injEq] at h
        subst h
        exact .inr ⟨hh, between_iff.mp e⟩
      · simp at h
  · rintro (⟨h, rfl⟩ | ⟨h, rfl⟩)
    · rw [afterDigits_iff.mpr ⟨h, rfl⟩]
    · have : afterDigits "tr5_".toList ("tr5(".toList ++ (m ++ [')'])) = none := by
        rw [Option.eq_none_iff_forall_ne_some]
        intro x hx
        have := (afterDigits_iff.mp hx).2
        simp at this
      rw [this, between_iff.mpr rfl]
      simp only [if_pos h]

theorem matchDelta_iff {t cs} : matchDelta t = some cs ↔
    cs ≠ [] ∧ (∀ c ∈ cs, isDigits c = true) ∧ t = "Δ_".toList ++ ['|'].intercalate cs := by
  unfold matchDelta
  constructor
  · intro h
    split_ifs at h with hh
    obtain ⟨h1, h2⟩ := hh
    obtain ⟨u, rfl⟩ := List.isPrefixOf_iff_prefix.mp h1
    have e : ("Δ_".toList ++ u).drop 2 = u := rfl
    rw [e] at h h2
    simp only [Option.some.injEq] at h
    subst h
    exact ⟨splitOn_ne_nil _ _, by simpa using h2, by rw [List.intercalate_splitOn]⟩
  · rintro ⟨h1, h2, rfl⟩
    have e : ("Δ_".toList ++ ['|'].intercalate cs).drop 2 = ['|'].intercalate cs := rfl
    have s : (['|'].intercalate cs).splitOn '|' = cs :=
      List.splitOn_intercalate _ (fun l hl => bar_digits (h2 l hl)) h1
    rw [e, s, if_pos ⟨List.isPrefixOf_iff_prefix.mpr ⟨_, rfl⟩, by simpa using h2⟩]

theorem matchS_iff {t ds} : matchS t = some ds ↔
    ∃ c us, c ∈ ['s', 'S'] ∧ us ∈ [[], ['_']] ∧ isDigits ds = true ∧ t = c :: (us ++ ds) := by
  constructor
  · intro h
    unfold matchS at h
    split at h
    · split_ifs at h with hh
      simp only [Option.some.injEq] at h; subst h
      exact ⟨'s', ['_'], by simp, by simp, hh, rfl⟩
    · split_ifs at h with hh
      simp only [Option.some.injEq] at h; subst h
      exact ⟨'S', ['_'], by simp, by simp, hh, rfl⟩
    · split_ifs at h with hh
      simp only [Option.some.injEq] at h; subst h
      exact ⟨'s', [], by simp, by simp, hh, rfl⟩
    · split_ifs at h with hh
      simp only [Option.some.injEq] at h; subst h
      exact ⟨'S', [], by simp, by simp, hh, rfl⟩
    · simp at h
  · rintro ⟨c, us, hc, hu, hd, rfl⟩
    have hb : ∀ r, ds ≠ '_' :: r := by
      rintro r rfl
      simp [isDigits] at hd
    simp only [List.mem_cons, List.not_mem_nil, or_false] at hc hu
    rcases hc with rfl | rfl <;> rcases hu with rfl | rfl
    · unfold matchS
      split <;> simp_all
    · simp [matchS, hd]
    · unfold matchS
      split <;> simp_all
    · simp [matchS, hd]

/-! ### One pattern for each form -/

/-- The number of the pattern that gives a form. -/
def Form.tag : Form → ℕ
  | .tr5 _ => 0 | .tr _ => 1 | .omega _ => 2 | .pi _ => 3 | .delta _ => 4 | .d5 => 5 | .massOf _ => 6
  | .mandelstam _ => 7 | .angle _ _ => 8 | .Au _ => 9 | .Ad _ => 10 | .square _ _ => 11 | .Su _ => 12 | .Sd _ => 13
  | .string _ _ _ _ _ => 14 | .openBegin _ _ _ => 15 | .openEnd _ _ _ => 16 | .doubleOpen _ => 17
  | .internalMass _ => 18 | .expression => 19

/-- What the pattern with a given number makes of a text. -/
def formOf (t : List Char) : ℕ → Option Form
  | 0 => (matchTr5 t).map .tr5
  | 1 => (matchTr t).map .tr
  | 2 => (afterDigits "Ω_".toList t).map .omega
  | 3 => (afterDigits "Π_".toList t).map .pi
  | 4 => (matchDelta t).map .delta
  | 5 => if t = "δ5".toList then some .d5 else none
  | 6 => if matchMi t then some (.massOf t) else none
  | 7 => (matchS t).map .mandelstam
  | 8 => (matchTwo ['⟨', '<'] ['⟩', '>'] t).map fun p => .angle p.1 p.2
  | 9 => (matchOne ['⟨', '<'] ['|'] t).map .Au
  | 10 => (matchOne ['|'] ['⟩', '>'] t).map .Ad
  | 11 => (matchTwo ['['] [']'] t).map fun p => .square p.1 p.2
  | 12 => (matchOne ['|'] [']'] t).map .Su
  | 13 => (matchOne ['['] ['|'] t).map .Sd
  | 14 => (matchNB t).map fun p => .string p.1 p.2.1 p.2.2.1 p.2.2.2.1 p.2.2.2.2
  | 15 => (matchOpenBegin t).map fun p => .openBegin p.1 p.2.1 p.2.2
  | 16 => (matchOpenEnd t).map fun p => .openEnd p.1 p.2.1 p.2.2
  | 17 => (matchDoubleOpen t).map .doubleOpen
  | 18 => if isMassName t ∧ ¬matchMi t then some (.internalMass t) else none
  | _ => none

theorem reads_iff (t : List Char) (f : Form) : ReadsAs t f ↔ formOf t f.tag = some f := by
  constructor
  · intro h
    cases h with
    | tr5Labels h =>
      simp only [Form.tag, formOf, matchTr5_iff.mpr (.inl ⟨(isDigits_lang _).mpr h, rfl⟩), Option.map_some]
    | tr5 h => simp only [Form.tag, formOf, matchTr5_iff.mpr (.inr ⟨(trChars_lang _).mpr h, rfl⟩), Option.map_some]
    | tr h => simp only [Form.tag, formOf, matchTr_iff.mpr ⟨_, (trMiddle_iff _).mpr h, rfl, rfl⟩, Option.map_some]
    | omega h => simp only [Form.tag, formOf, afterDigits_iff.mpr ⟨(isDigits_lang _).mpr h, rfl⟩, Option.map_some]
    | pi h => simp only [Form.tag, formOf, afterDigits_iff.mpr ⟨(isDigits_lang _).mpr h, rfl⟩, Option.map_some]
    | delta h1 h2 =>
      simp only [Form.tag, formOf, matchDelta_iff.mpr ⟨h1, fun c hc => (isDigits_lang _).mpr (h2 c hc), rfl⟩,
        Option.map_some]
    | d5 => rfl
    | massOf h => simp only [Form.tag, formOf, (matchMi_iff _).mpr h, if_true]
    | mandelstam h1 h2 h3 =>
      simp only [Form.tag, formOf, matchS_iff.mpr ⟨_, _, h1, h2, (isDigits_lang _).mpr h3, rfl⟩, Option.map_some]
    | angle h1 h2 h3 h4 =>
      simp only [Form.tag, formOf,
        matchTwo_iff.mpr ⟨_, _, h1, h2, (isDigits_lang _).mpr h3, (isDigits_lang _).mpr h4, rfl⟩, Option.map_some]
    | Au h1 h2 =>
      simp only [Form.tag, formOf,
        matchOne_iff.mpr ⟨_, '|', h1, List.mem_singleton_self _, (isDigits_lang _).mpr h2, rfl⟩, Option.map_some]
    | Ad h1 h2 =>
      simp only [Form.tag, formOf,
        matchOne_iff.mpr ⟨'|', _, List.mem_singleton_self _, h1, (isDigits_lang _).mpr h2, rfl⟩, Option.map_some]
    | square h1 h2 =>
      simp only [Form.tag, formOf,
        matchTwo_iff.mpr ⟨'[', ']', List.mem_singleton_self _, List.mem_singleton_self _, (isDigits_lang _).mpr h1,
          (isDigits_lang _).mpr h2, rfl⟩, Option.map_some]
    | Su h =>
      simp only [Form.tag, formOf,
        matchOne_iff.mpr ⟨'|', ']', List.mem_singleton_self _, List.mem_singleton_self _, (isDigits_lang _).mpr h, rfl⟩,
        Option.map_some]
    | Sd h =>
      simp only [Form.tag, formOf,
        matchOne_iff.mpr ⟨'[', '|', List.mem_singleton_self _, List.mem_singleton_self _, (isDigits_lang _).mpr h, rfl⟩,
        Option.map_some]
    | string h1 h2 h3 h4 h5 =>
      simp only [Form.tag, formOf,
        matchNB_iff.mpr ⟨h1, h2, (isDigits_lang _).mpr h3, (isDigits_lang _).mpr h5, _, (nbMiddle_iff _).mpr h4, rfl, rfl⟩,
        Option.map_some]
    | openBegin h1 h2 h3 =>
      simp only [Form.tag, formOf,
        matchOpenBegin_iff.mpr ⟨h3, (isDigits_lang _).mpr h2, _, (obMiddle_iff _).mpr h1, rfl, rfl⟩, Option.map_some]
    | openEnd h1 h2 h3 =>
      simp only [Form.tag, formOf,
        matchOpenEnd_iff.mpr ⟨h1, (isDigits_lang _).mpr h2, _, (obMiddle_iff _).mpr h3, rfl, rfl⟩, Option.map_some]
    | doubleOpen h =>
      simp only [Form.tag, formOf, matchDoubleOpen_iff.mpr ⟨_, (obMiddle_iff _).mpr h, rfl, rfl⟩, Option.map_some]
    | internalMass h1 h2 =>
      simp only [Form.tag, formOf]
      rw [if_pos ⟨(isMassName_iff _).mpr h1, fun h => h2 ((matchMi_iff _).mp h)⟩]
  · intro h
    cases f <;> simp only [Form.tag, formOf, Option.map_eq_some_iff, Form.tr5.injEq, Form.tr.injEq, Form.omega.injEq,
      Form.pi.injEq, Form.delta.injEq, Form.mandelstam.injEq, Form.Au.injEq, Form.Ad.injEq, Form.Su.injEq, Form.Sd.injEq,
      Form.doubleOpen.injEq, exists_eq_right, Prod.exists, Form.angle.injEq, Form.square.injEq, Form.string.injEq,
      Form.openBegin.injEq, Form.openEnd.injEq] at h
    · rcases matchTr5_iff.mp h with ⟨h', rfl⟩ | ⟨h', rfl⟩
      · exact .tr5Labels ((isDigits_lang _).mp h')
      · exact .tr5 ((trChars_lang _).mp h')
    · obtain ⟨m, h', rfl, rfl⟩ := matchTr_iff.mp h
      exact .tr ((trMiddle_iff _).mp h')
    · obtain ⟨h', rfl⟩ := afterDigits_iff.mp h
      exact .omega ((isDigits_lang _).mp h')
    · obtain ⟨h', rfl⟩ := afterDigits_iff.mp h
      exact .pi ((isDigits_lang _).mp h')
    · obtain ⟨h1, h2, rfl⟩ := matchDelta_iff.mp h
      exact .delta h1 fun c hc => (isDigits_lang _).mp (h2 c hc)
    · split_ifs at h with hh
      subst hh
      exact .d5
    · split_ifs at h with hh
      simp only [Option.some.injEq, Form.massOf.injEq] at h
      subst h
      exact .massOf ((matchMi_iff _).mp hh)
    · obtain ⟨c, us, h1, h2, h3, rfl⟩ := matchS_iff.mp h
      exact .mandelstam h1 h2 ((isDigits_lang _).mp h3)
    · obtain ⟨_, _, h, rfl, rfl⟩ := h
      obtain ⟨o, c, h1, h2, h3, h4, rfl⟩ := matchTwo_iff.mp h
      exact .angle h1 h2 ((isDigits_lang _).mp h3) ((isDigits_lang _).mp h4)
    · obtain ⟨o, c, h1, h2, h3, rfl⟩ := matchOne_iff.mp h
      rw [List.mem_singleton.mp h2]
      exact .Au h1 ((isDigits_lang _).mp h3)
    · obtain ⟨o, c, h1, h2, h3, rfl⟩ := matchOne_iff.mp h
      rw [List.mem_singleton.mp h1]
      exact .Ad h2 ((isDigits_lang _).mp h3)
    · obtain ⟨_, _, h, rfl, rfl⟩ := h
      obtain ⟨o, c, h1, h2, h3, h4, rfl⟩ := matchTwo_iff.mp h
      rw [List.mem_singleton.mp h1, List.mem_singleton.mp h2]
      exact .square ((isDigits_lang _).mp h3) ((isDigits_lang _).mp h4)
    · obtain ⟨o, c, h1, h2, h3, rfl⟩ := matchOne_iff.mp h
      rw [List.mem_singleton.mp h1, List.mem_singleton.mp h2]
      exact .Su ((isDigits_lang _).mp h3)
    · obtain ⟨o, c, h1, h2, h3, rfl⟩ := matchOne_iff.mp h
      rw [List.mem_singleton.mp h1, List.mem_singleton.mp h2]
      exact .Sd ((isDigits_lang _).mp h3)
    · obtain ⟨_, _, _, _, _, h, rfl, rfl, rfl, rfl, rfl⟩ := h
      obtain ⟨h1, h2, h3, h4, m, h5, rfl, rfl⟩ := matchNB_iff.mp h
      exact .string h1 h2 ((isDigits_lang _).mp h3) ((nbMiddle_iff _).mp h5) ((isDigits_lang _).mp h4)
    · obtain ⟨_, _, _, h, rfl, rfl, rfl⟩ := h
      obtain ⟨h1, h2, m, h3, rfl, rfl⟩ := matchOpenBegin_iff.mp h
      exact .openBegin ((obMiddle_iff _).mp h3) ((isDigits_lang _).mp h2) h1
    · obtain ⟨_, _, _, h, rfl, rfl, rfl⟩ := h
      obtain ⟨h1, h2, m, h3, rfl, rfl⟩ := matchOpenEnd_iff.mp h
      exact .openEnd h1 ((isDigits_lang _).mp h2) ((obMiddle_iff _).mp h3)
    · obtain ⟨m, h3, rfl, rfl⟩ := matchDoubleOpen_iff.mp h
      exact .doubleOpen ((obMiddle_iff _).mp h3)
    · split_ifs at h with hh
      simp only [Option.some.injEq, Form.internalMass.injEq] at h
      subst h
      exact .internalMass ((isMassName_iff _).mp hh.1) fun h => hh.2 ((matchMi_iff _).mpr h)
    · simp at h

theorem classify_formOf {t : List Char} (h : classify t ≠ .expression) : formOf t (classify t).tag = some (classify t) := by
  unfold classify classifyBracket at h ⊢
  repeat' split
  all_goals simp_all [Form.tag, formOf]

theorem formOf_of_expression {t : List Char} (h : classify t = .expression) (k : ℕ) : formOf t k = none := by
  unfold classify classifyBracket at h
  repeat' split at h
  all_goals cases h
  unfold formOf
  split <;> simp_all

/-! ### The patterns exclude each other -/

/-- The number of the only pattern a text can match, from its first, third and last character and its bars. -/
def patternNo (t : List Char) : ℕ :=
  let h := t.head?
  let l := t.getLast?
  let bars := t.count '|'
  if h = some 't' then (if t[2]? = some '5' then 0 else 1)
  else if h = some 'Ω' then 2
  else if h = some 'Π' then 3
  else if h = some 'Δ' then 4
  else if h = some 'δ' then 5
  else if h = some 's' ∨ h = some 'S' then 7
  else if h = some '|' then
    if l = some '|' then 17 else if bars = 1 then (if l = some ']' then 12 else 10) else 15
  else if h = some '⟨' ∨ h = some '<' then
    if l = some '|' then (if bars = 1 then 9 else 16) else if bars = 1 then 8 else 14
  else if h = some '[' then
    if l = some '|' then (if bars = 1 then 13 else 16) else if bars = 1 then 11 else 14
  else if matchMi t then 6 else 18

theorem count_digits {a : List Char} (h : isDigits a = true) : a.count '|' = 0 :=
  List.count_eq_zero.mpr (bar_digits h)

theorem ends_last (o c : Char) (u : List Char) : (o :: (u ++ [c])).getLast? = some c := by
  rw [← List.cons_append, List.getLast?_concat]

theorem reads_patternNo {t : List Char} {f : Form} (h : ReadsAs t f) : f.tag = patternNo t := by
  cases h with
  | tr5Labels h => simp [Form.tag, patternNo]
  | tr5 h => simp [Form.tag, patternNo]
  | tr h => simp [Form.tag, patternNo]
  | omega h => simp [Form.tag, patternNo]
  | pi h => simp [Form.tag, patternNo]
  | delta h1 h2 => simp [Form.tag, patternNo]
  | d5 => rfl
  | massOf h =>
    have hm := (matchMi_iff _).mpr h
    obtain ⟨c, d, hc, hd, e⟩ := h
    simp only [List.mem_cons, List.not_mem_nil, or_false] at hc
    rcases hc with rfl | rfl <;> rcases e with rfl | rfl <;> simp [Form.tag, patternNo, hm]
  | mandelstam h1 h2 h3 =>
    simp only [List.mem_cons, List.not_mem_nil, or_false] at h1
    rcases h1 with rfl | rfl <;> simp [Form.tag, patternNo]
  | angle h1 h2 h3 h4 =>
    have := count_digits ((isDigits_lang _).mpr h3)
    have := count_digits ((isDigits_lang _).mpr h4)
    simp only [List.mem_cons, List.not_mem_nil, or_false] at h1 h2
    rcases h1 with rfl | rfl <;> rcases h2 with rfl | rfl <;> (simp only [Form.tag, patternNo, ends_last, List.head?_cons]; simp_all)
  | Au h1 h2 =>
    have := count_digits ((isDigits_lang _).mpr h2)
    simp only [List.mem_cons, List.not_mem_nil, or_false] at h1
    rcases h1 with rfl | rfl <;> (simp only [Form.tag, patternNo, ends_last, List.head?_cons]; simp_all)
  | Ad h1 h2 =>
    have := count_digits ((isDigits_lang _).mpr h2)
    simp only [List.mem_cons, List.not_mem_nil, or_false] at h1
    rcases h1 with rfl | rfl <;> (simp only [Form.tag, patternNo, ends_last, List.head?_cons]; simp_all)
  | square h1 h2 =>
    have := count_digits ((isDigits_lang _).mpr h1)
    have := count_digits ((isDigits_lang _).mpr h2)
    (simp only [Form.tag, patternNo, ends_last, List.head?_cons]; simp_all)
  | Su h =>
    have := count_digits ((isDigits_lang _).mpr h)
    (simp only [Form.tag, patternNo, ends_last, List.head?_cons]; simp_all)
  | Sd h =>
    have := count_digits ((isDigits_lang _).mpr h)
    (simp only [Form.tag, patternNo, ends_last, List.head?_cons]; simp_all)
  | string h1 h2 h3 h4 h5 =>
    simp only [List.mem_cons, List.not_mem_nil, or_false] at h1 h2
    rcases h1 with rfl | rfl | rfl <;> rcases h2 with rfl | rfl | rfl <;> (simp only [Form.tag, patternNo, ends_last, List.head?_cons]; simp; try omega)
  | openBegin h1 h2 h3 =>
    simp only [List.mem_cons, List.not_mem_nil, or_false] at h3
    rcases h3 with rfl | rfl <;> (simp only [Form.tag, patternNo, ends_last, List.head?_cons]; simp; try omega)
  | openEnd h1 h2 h3 =>
    simp only [List.mem_cons, List.not_mem_nil, or_false] at h1
    rcases h1 with rfl | rfl <;> (simp only [Form.tag, patternNo, ends_last, List.head?_cons]; simp; try omega)
  | doubleOpen h => (simp only [Form.tag, patternNo, ends_last, List.head?_cons]; simp)
  | internalMass h1 h2 =>
    have hm : ¬matchMi t = true := fun h => h2 ((matchMi_iff _).mp h)
    obtain ⟨c, us, a, d, rfl, hc, -⟩ := h1
    simp only [List.mem_cons, List.not_mem_nil, or_false] at hc
    rcases hc with rfl | rfl | rfl <;> simp [Form.tag, patternNo, hm]

/-! ### Theorems -/

/-- **C92**: a text matches at most one of the patterns. The order in which they are tried does not matter, apart
from the test for a mass of one label, which comes before the one for an internal mass. -/
theorem C92_unique {t : List Char} {f g : Form} (hf : ReadsAs t f) (hg : ReadsAs t g) : f = g := by
  have e := (reads_patternNo hf).trans (reads_patternNo hg).symm
  rw [reads_iff] at hf hg
  rw [e, hg] at hf
  exact (Option.some.inj hf).symm

/-- **C92**: what `compute` takes a text for is what the pattern it matches says, with the groups of that pattern. -/
theorem C92_reads {t : List Char} {f : Form} (hf : f ≠ .expression) : classify t = f ↔ ReadsAs t f := by
  constructor
  · rintro rfl
    exact (reads_iff _ _).mpr (classify_formOf hf)
  · intro h
    by_cases he : classify t = .expression
    · have := formOf_of_expression he f.tag
      rw [(reads_iff _ _).mp h] at this
      simp at this
    · exact C92_unique ((reads_iff _ _).mpr (classify_formOf he)) h

/-- **C92**: exactly the texts matching none of the patterns are handed to the parser of expressions. -/
theorem C92_expression (t : List Char) : classify t = .expression ↔ ∀ f, ¬ReadsAs t f := by
  constructor
  · intro he f h
    have := formOf_of_expression he f.tag
    rw [(reads_iff _ _).mp h] at this
    simp at this
  · intro h
    by_contra he
    exact h _ ((reads_iff _ _).mpr (classify_formOf he))

/-! ### Cases -/

example : ReadsAs "⟨1|(2+3)|4|12]".toList (.string '⟨' ['1'] ["(2+3)".toList, ['4']] ['1', '2'] ']') :=
  (C92_reads (by simp)).mp (by decide +kernel)

example : ReadsAs "Δ_12|34|5".toList (.delta ["12".toList, "34".toList, ['5']]) := (C92_reads (by simp)).mp (by decide +kernel)

example : ∀ f, ¬ReadsAs "⟨1|2++3|4]".toList f := (C92_expression _).mp (by decide +kernel)

example : classify "m_t1".toList = .internalMass "m_t1".toList :=
  (C92_reads (by simp)).mpr
    (.internalMass ⟨'m', ['_'], ['t'], ['1'], by decide +kernel⟩ (fun h => absurd ((matchMi_iff _).mpr h) (by decide +kernel)))

end Lips

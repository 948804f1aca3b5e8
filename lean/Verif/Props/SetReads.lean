import Verif.Props.Patterns
import Verif.Model.SetText

/-!
Property C93, first part: which setter a text is given to. The regular expressions of lips/tools.py are written
as languages, as for C92.
-/

namespace Lips

open Computability

/-- Characters of the group `cd` of `p5Bdiff`: `[\d+[\+]*]*`. -/
def cdLang : Language Char :=
  (oneOf fun c => ('0' ≤ c ∧ c ≤ '9') ∨ c ∈ ['+', '['])∗ * (oneOf fun c => c = ']')∗

/-- What a setter makes of what `compute` reads; `none` where there is no setter. -/
def settable : Form → Option SetForm
  | .angle a b => some (.angle a b)
  | .square a b => some (.square a b)
  | .string o a m d c => some (.string o a m d c)
  | .mandelstam ds => some (.mandelstam ds)
  | .delta cs => some (.delta cs)
  | .omega ds => some (.omega ds)
  | .pi ds => some (.pi ds)
  | .tr5 m => some (.tr5 m)
  | _ => none

/-- The texts that the setters take: brackets, spinor strings, Mandelstams, Δ, Ω, Π and tr5 as `compute` reads
them, and differences of five-brackets `(⟨a|b|c+d|e|a]-⟨b|f|c+d|e|b])`, where each of the four parentheses
around `c+d` may be missing. -/
inductive SetReads : List Char → SetForm → Prop
  | form {t g f} : ReadsAs t g → settable g = some f → SetReads t f
  | diff {a b cd e f l r l' r'} : a ∈ plus digitL → b ∈ plus digitL → cd ∈ cdLang → e ∈ plus digitL →
      f ∈ plus digitL → l ∈ [[], ['(']] → l' ∈ [[], ['(']] → r ∈ [[], [')']] → r' ∈ [[], [')']] →
      SetReads (['|'].intercalate ["(⟨".toList ++ a, b, l ++ cd ++ r, e, a ++ "]-⟨".toList ++ b, f, l' ++ cd ++ r', e,
        b ++ "])".toList]) (.diff a b cd e f)

theorem mem_star_oneOf (p : Char → Prop) (t : List Char) : t ∈ (oneOf p)∗ ↔ ∀ c ∈ t, p c := by
  induction t with
  | nil => simp [Language.nil_mem_kstar]
  | cons c t ih => rw [star_eq, Language.mem_add, cons_mem_one, cons_mem_oneOf_mul, ih, false_or, List.forall_mem_cons]

theorem cdGroup_iff (t : List Char) : cdGroup t = true ↔ t ∈ cdLang := by
  have hp : ∀ c : Char, (c.isDigit || decide (c = '+') || decide (c = '[')) = true ↔
      (('0' ≤ c ∧ c ≤ '9') ∨ c ∈ ['+', '[']) := by
    intro c
    simp only [Bool.or_eq_true, isDigit_iff, decide_eq_true_eq, List.mem_cons, List.not_mem_nil, or_false, or_assoc]
  unfold cdGroup cdLang
  rw [Language.mem_mul]
  simp only [mem_star_oneOf, List.all_eq_true, decide_eq_true_eq]
  constructor
  · intro h
    exact ⟨_, fun c hc => (hp c).mp (List.all_eq_true.mp List.all_takeWhile c hc), _, h, List.takeWhile_append_dropWhile⟩
  · rintro ⟨u, hu, v, hv, rfl⟩ c hc
    rw [List.dropWhile_append_of_pos fun c hc => (hp c).mpr (hu c hc)] at hc
    exact hv c ((List.dropWhile_sublist _).subset hc)

theorem cd_chars {t : List Char} (h : t ∈ cdLang) : '|' ∉ t ∧ '(' ∉ t ∧ ')' ∉ t := by
  unfold cdLang at h
  rw [Language.mem_mul] at h
  obtain ⟨u, hu, v, hv, rfl⟩ := h
  rw [mem_star_oneOf] at hu hv
  refine ⟨?_, ?_, ?_⟩ <;> intro hc <;> rcases List.mem_append.mp hc with hc | hc
  all_goals first
    | exact absurd (hv _ hc) (by decide)
    | exact absurd (hu _ hc) (by decide)

theorem stripOuter_iff {m cd : List Char} (h : cd ∈ cdLang) :
    stripOuter m = cd ↔ ∃ l r, l ∈ [[], ['(']] ∧ r ∈ [[], [')']] ∧ m = l ++ cd ++ r := by
  obtain ⟨-, ho, hc⟩ := cd_chars h
  have key : ∀ u : List Char, ((if u.getLast? = some ')' then u.dropLast else u) = cd) ↔ ∃ r, r ∈ [[], [')']] ∧ u = cd ++ r := by
    intro u
    constructor
    · intro e
      split_ifs at e with hl
      · exact ⟨[')'], by simp, by rw [← e, List.dropLast_append_getLast? _ hl]⟩
      · exact ⟨[], by simp, by simpa using e⟩
    · rintro ⟨r, hr, rfl⟩
      simp only [List.mem_cons, List.not_mem_nil, or_false] at hr
      rcases hr with rfl | rfl
      · rw [if_neg]
        · simp
        · intro e
          rw [List.append_nil] at e
          exact hc (List.mem_of_getLast? e)
      · simp
  unfold stripOuter
  simp only
  rw [key]
  constructor
  · rintro ⟨r, hr, e⟩
    split_ifs at e with hh
    · refine ⟨['('], r, by simp, hr, ?_⟩
      cases m with
      | nil => simp at hh
      | cons x m =>
        simp only [List.head?_cons, Option.some.injEq] at hh
        subst hh
        simpa using e
    · exact ⟨[], r, by simp, hr, by simpa using e⟩
  · rintro ⟨l, r, hl, hr, rfl⟩
    refine ⟨r, hr, ?_⟩
    simp only [List.mem_cons, List.not_mem_nil, or_false] at hl hr
    rcases hl with rfl | rfl
    · rw [if_neg]
      · simp
      · intro e
        have := List.mem_of_mem_head? e
        rcases hr with rfl | rfl
        · exact ho (by simpa using this)
        · have : '(' ∈ cd ∨ '(' = ')' := by simpa using this
          exact ho (this.resolve_right (by decide))
    · simp

theorem match5B_iff {t a b cd e f} : match5B t = some (a, b, cd, e, f) ↔ SetReads t (.diff a b cd e f) := by
  constructor
  · intro h
    unfold match5B at h
    split at h
    · rename_i p0 b₁ m e₁ p4 f₁ m' e' p8 hs
      have ht : t = ['|'].intercalate [p0, b₁, m, e₁, p4, f₁, m', e', p8] := by rw [← hs, List.intercalate_splitOn]
      split at h
      · rename_i a₁
        split_ifs at h with hh
        obtain ⟨h1, h2, h3, h4, h5, h6, h7, h8, h9⟩ := hh
        simp only [Option.some.injEq, Prod.mk.injEq] at h
        obtain ⟨rfl, rfl, hcd, rfl, rfl⟩ := h
        have hl := (cdGroup_iff _).mp h8
        rw [hcd] at hl
        rw [hcd] at h9
        obtain ⟨l, r, hl1, hr1, rfl⟩ := (stripOuter_iff hl).mp hcd
        obtain ⟨l', r', hl2, hr2, rfl⟩ := (stripOuter_iff hl).mp h9
        subst h5 h6 h7
        rw [ht]
        exact .diff ((isDigits_lang _).mp h1) ((isDigits_lang _).mp h2) hl ((isDigits_lang _).mp h3)
          ((isDigits_lang _).mp h4) hl1 hl2 hr1 hr2
      · cases h
    · cases h
  · intro h
    cases h with
    | form hg hf => rename_i g; cases g <;> simp [settable] at hf
    | diff h1 h2 h3 h4 h5 hl hl' hr hr' =>
      rename_i l r l' r'
      have b1 := bar_digits ((isDigits_lang _).mpr h1)
      have b2 := bar_digits ((isDigits_lang _).mpr h2)
      have b3 := (cd_chars h3).1
      have b4 := bar_digits ((isDigits_lang _).mpr h4)
      have b5 := bar_digits ((isDigits_lang _).mpr h5)
      have side : ∀ {l : List Char}, l ∈ [[], ['(']] ∨ l ∈ [[], [')']] → '|' ∉ l := by
        rintro l (h | h) <;> simp only [List.mem_cons, List.not_mem_nil, or_false] at h <;>
          rcases h with rfl | rfl <;> decide
      unfold match5B
      rw [List.splitOn_intercalate]
      · simp only [List.cons_append, show "(⟨".toList = ['(', '⟨'] from rfl, List.nil_append]
        rw [if_pos]
        · rw [(stripOuter_iff h3).mpr ⟨l, r, hl, hr, rfl⟩]
        · refine ⟨(isDigits_lang _).mpr h1, (isDigits_lang _).mpr h2, (isDigits_lang _).mpr h4, (isDigits_lang _).mpr h5,
            trivial, trivial, trivial, ?_, ?_⟩
          · rw [(stripOuter_iff h3).mpr ⟨l, r, hl, hr, rfl⟩]; exact (cdGroup_iff _).mpr h3
          · rw [(stripOuter_iff h3).mpr ⟨l, r, hl, hr, rfl⟩, (stripOuter_iff h3).mpr ⟨l', r', hl', hr', rfl⟩]
      · intro u hu
        simp only [List.mem_cons, List.not_mem_nil, or_false] at hu
        rcases hu with rfl | rfl | rfl | rfl | rfl | rfl | rfl | rfl | rfl <;>
          simp [b1, b2, b3, b4, b5, side (.inl hl), side (.inl hl'), side (.inr hr), side (.inr hr')]
      · simp

theorem not_reads_paren {t : List Char} (h : t.head? = some '(') (g : Form) : ¬ReadsAs t g := by
  intro hg
  cases hg with
  | massOf hm =>
    obtain ⟨c, d, hc, -, rfl | rfl⟩ := hm <;> simp at h <;> subst h <;> simp at hc
  | internalMass hm _ =>
    obtain ⟨c, us, a, d, rfl, hc, -⟩ := hm
    simp at h; subst h; simp at hc
  | mandelstam hc _ _ => simp at h; subst h; simp at hc
  | angle hc => simp at h; subst h; simp at hc
  | Au hc => simp at h; subst h; simp at hc
  | string hc => simp at h; subst h; simp at hc
  | openEnd hc => simp at h; subst h; simp at hc
  | _ => simp at h

theorem diff_head {t a b cd e f} (h : SetReads t (.diff a b cd e f)) : t.head? = some '(' := by
  cases h with
  | form hg hf => rename_i g; cases g <;> simp [settable] at hf
  | diff => simp [List.intercalate_cons_cons]

/-- **C93**: a text is read by at most one setter. -/
theorem C93_unique {t : List Char} {f g : SetForm} (hf : SetReads t f) (hg : SetReads t g) : f = g := by
  cases hf with
  | form h1 e1 =>
    cases hg with
    | form h2 e2 => rw [C92_unique h1 h2, e2] at e1; exact (Option.some.inj e1).symm
    | diff k1 k2 k3 k4 k5 k6 k7 k8 k9 =>
      exact absurd h1 (not_reads_paren (diff_head (.diff k1 k2 k3 k4 k5 k6 k7 k8 k9)) _)
  | diff k1 k2 k3 k4 k5 k6 k7 k8 k9 =>
    have hd := SetReads.diff k1 k2 k3 k4 k5 k6 k7 k8 k9
    generalize ['|'].intercalate _ = t at hd hg
    cases hg with
    | form h2 e2 => exact absurd h2 (not_reads_paren (diff_head hd) _)
    | diff j1 j2 j3 j4 j5 j6 j7 j8 j9 =>
      have e1 := match5B_iff.mpr hd
      rw [match5B_iff.mpr (.diff j1 j2 j3 j4 j5 j6 j7 j8 j9)] at e1
      simp only [Option.some.injEq, Prod.mk.injEq] at e1
      obtain ⟨rfl, rfl, rfl, rfl, rfl⟩ := e1
      rfl

theorem setClassify_sound {t : List Char} (h : setClassify t ≠ .nothing) : SetReads t (setClassify t) := by
  have of : ∀ g f, formOf t g.tag = some g → settable g = some f → SetReads t f :=
    fun g f h1 h2 => .form ((reads_iff _ _).mpr h1) h2
  unfold setClassify at h ⊢
  repeat' split
  · rename_i a b e; exact of (.angle a b) _ (by simp [Form.tag, formOf, e]) rfl
  · rename_i a b e; exact of (.square a b) _ (by simp [Form.tag, formOf, e]) rfl
  · rename_i o a ms d c e; exact of (.string o a ms d c) _ (by simp [Form.tag, formOf, e]) rfl
  · rename_i ds e; exact of (.mandelstam ds) _ (by simp [Form.tag, formOf, e]) rfl
  · rename_i cs e; exact of (.delta cs) _ (by simp [Form.tag, formOf, e]) rfl
  · rename_i ds e; exact of (.omega ds) _ (by simp only [Form.tag, formOf, e, Option.map_some]) rfl
  · rename_i ds e; exact of (.pi ds) _ (by simp only [Form.tag, formOf, e, Option.map_some]) rfl
  · rename_i m e; exact of (.tr5 m) _ (by simp [Form.tag, formOf, e]) rfl
  · rename_i e; exact match5B_iff.mp e
  · simp_all

theorem setClassify_nothing {t : List Char} (h : setClassify t = .nothing) (f : SetForm) : ¬SetReads t f := by
  unfold setClassify at h
  repeat' split at h
  all_goals cases h
  rename_i h1 h2 h3 h4 h5 h6 h7 h8 h9
  intro hf
  cases hf with
  | form hg e =>
    rename_i g
    have := (reads_iff _ _).mp hg
    cases g <;> simp only [settable, reduceCtorEq] at e <;> simp only [Form.tag, formOf] at this
    all_goals simp_all
  | diff k1 k2 k3 k4 k5 k6 k7 k8 k9 =>
    rw [match5B_iff.mpr (.diff k1 k2 k3 k4 k5 k6 k7 k8 k9)] at h9
    cases h9

/-- **C93**: the setter that a text is given to is the one of the pattern it matches, with the groups of that
pattern; the order in which `_set_inner` tries the patterns does not matter. -/
theorem C93_reads {t : List Char} {f : SetForm} (hf : f ≠ .nothing) : setClassify t = f ↔ SetReads t f := by
  constructor
  · rintro rfl; exact setClassify_sound hf
  · intro h
    by_cases hn : setClassify t = .nothing
    · exact absurd h (setClassify_nothing hn f)
    · exact C93_unique (setClassify_sound hn) h

/-- **C93**: a text is ignored exactly when no setter reads it. -/
theorem C93_ignored (t : List Char) : setClassify t = .nothing ↔ ∀ f, ¬SetReads t f := by
  constructor
  · exact setClassify_nothing
  · intro h
    by_contra hn
    exact h _ (setClassify_sound hn)

/-- **C93**: setting and computing agree on what a text stands for. -/
theorem C93_agrees {t : List Char} {f : SetForm} (hf : settable (classify t) = some f) : setClassify t = f := by
  have hne : classify t ≠ .expression := by intro e; rw [e] at hf; simp [settable] at hf
  have hn : f ≠ .nothing := by
    rintro rfl
    revert hf
    cases classify t <;> simp [settable]
  exact (C93_reads hn).mpr (.form ((C92_reads hne).mp rfl) hf)

/-- **C93**: `check_consistency` refuses nothing but the empty text, the single letters that begin an
invariant, and texts of less than five characters that begin with `tr5`. -/
theorem C93_check_raises (t : List Char) : (∃ e, checkConsistency t = .error e) ↔
    t = [] ∨ t ∈ [['s'], ['S'], ['Δ'], ['Ω'], ['Π'], ['δ']] ∨ "tr5".toList <+: t ∧ t.length < 5 := by
  unfold checkConsistency
  match t with
  | [] => simp
  | [a] =>
    by_cases h : a ∈ ['s', 'S', 'Δ', 'Ω', 'Π', 'δ']
    · simp only [List.mem_cons, List.not_mem_nil, or_false] at h
      rcases h with rfl | rfl | rfl | rfl | rfl | rfl <;> simp
    · have h2 : [a].take 3 ≠ "tr5".toList := by simp
      dsimp only
      rw [if_neg (not_or.mpr ⟨h, h2⟩)]
      simp only [reduceCtorEq, exists_false, false_iff, not_or, not_and]
      refine ⟨by simp, ?_, ?_⟩
      · intro hm; apply h; simpa using hm
      · intro hp; simp [List.prefix_iff_eq_take] at hp
  | a :: b :: r =>
    have hp : "tr5".toList <+: a :: b :: r ↔ (a :: b :: r).take 3 = "tr5".toList := by
      rw [List.prefix_iff_eq_take]; exact eq_comm
    rw [hp]
    by_cases h3 : (a :: b :: r).take 3 = "tr5".toList
    · obtain ⟨rfl, rfl, u, rfl⟩ : a = 't' ∧ b = 'r' ∧ ∃ u, r = '5' :: u := by
        cases r with
        | nil => simp at h3
        | cons x u => simp at h3; exact ⟨h3.1, h3.2.1, u, by rw [h3.2.2]⟩
      cases u with
      | nil => simp
      | cons y u =>
        cases u with
        | nil => simp
        | cons z u => simp
    · simp only [h3, or_false, false_and, if_false, List.getElem?_cons_succ, List.getElem?_cons_zero]
      simp

/-- **C93**: `check_consistency` never raises on a text that a setter reads. -/
theorem C93_check_passes {t : List Char} {f : SetForm} (h : SetReads t f) : checkConsistency t = .ok () := by
  have key : ¬∃ e, checkConsistency t = .error e := by
    rw [C93_check_raises]
    cases h with
    | diff k1 k2 k3 k4 k5 k6 k7 k8 k9 =>
      have hh := diff_head (.diff k1 k2 k3 k4 k5 k6 k7 k8 k9)
      generalize ['|'].intercalate _ = t at hh
      rcases t with _ | ⟨x, u⟩
      · simp at hh
      · simp only [List.head?_cons, Option.some.injEq] at hh
        subst hh
        simp [List.prefix_iff_eq_take]
    | form hg e =>
      have dn : ∀ {ds : List Char}, ds ∈ plus digitL → ds ≠ [] := fun h => digits_ne_nil ((isDigits_lang _).mpr h)
      cases hg <;> simp only [settable, reduceCtorEq] at e
      · rename_i ds hd
        have : 0 < ds.length := List.length_pos_iff.mpr (dn hd)
        simp; omega
      · rename_i m hm
        have : m ≠ [] := ((trChars_lang m).mpr hm).1
        have : 0 < m.length := List.length_pos_iff.mpr this
        simp
      · simp [List.prefix_iff_eq_take]
      · simp [List.prefix_iff_eq_take]
      · simp [List.prefix_iff_eq_take]
      · rename_i c us ds hc hu hd
        have := dn hd
        simp only [List.mem_cons, List.not_mem_nil, or_false] at hc hu
        rcases hc with rfl | rfl <;> rcases hu with rfl | rfl <;> simp [List.prefix_iff_eq_take, this]
      · rename_i o a b c ho _ _ _
        simp only [List.mem_cons, List.not_mem_nil, or_false] at ho
        rcases ho with rfl | rfl <;> simp [List.prefix_iff_eq_take]
      · simp [List.prefix_iff_eq_take]
      · rename_i o a m d c ho _ _ _ _
        simp only [List.mem_cons, List.not_mem_nil, or_false] at ho
        rcases ho with rfl | rfl | rfl <;> simp [List.prefix_iff_eq_take]
  cases hc : checkConsistency t with
  | ok u => rfl
  | error e => exact absurd ⟨e, hc⟩ key

end Lips

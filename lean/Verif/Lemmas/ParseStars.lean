import Verif.Lemmas.ParsePasses

/-! The substitutions of `_parse` before and between those that find the invariants. -/

namespace Lips

open RE

/-! ### Characters for characters -/

/-- Replacing a character. -/
theorem sub_char {s : String} {c : Char} (hs : s.toList = [c]) {f : List Char → List Char} (pre t : List Char) :
    (lit s).sub f 0 pre t = t.flatMap fun x => if x = c then f [c] else [x] := by
  induction t generalizing pre with
  | nil => rfl
  | cons x t ih =>
    rw [List.flatMap_cons]
    by_cases hx : x = c
    · subst hx
      have : (lit s).Hit pre [x] t := ⟨by simp, by rw [← hs]; exact head_lit⟩
      have := sub_hit (f := f) this
      rw [show x :: t = [x] ++ t from rfl, this, ih, if_pos rfl]
    · have : (lit s).Quiet pre [x] t := quiet_of_starts (by simp [lit, hs, starts, isTest, hx])
      have := sub_quiet (f := f) this
      rw [show x :: t = [x] ++ t from rfl, this, ih, if_neg hx]

/-- The sign of powers. -/
def ePow : RE := cat [lit "^", .notAhead (of "]⟩>|")]

theorem sub_pow {f : List Char → List Char} (pre t : List Char) (h : ∀ p x q, t = p ++ '^' :: x :: q → x ∉ "]⟩>|".toList) :
    ePow.sub f 0 pre t = t.flatMap fun x => if x = '^' then f ['^'] else [x] := by
  induction t generalizing pre with
  | nil => rfl
  | cons x t ih =>
    have ht : ∀ p x q, t = p ++ '^' :: x :: q → x ∉ "]⟩>|".toList := fun p y q e => h (x :: p) y q (by rw [e]; rfl)
    rw [List.flatMap_cons]
    by_cases hx : x = '^'
    · subst hx
      have : ePow.Hit pre ['^'] t := by
        refine ⟨by simp, head_cat_cons (head_lit (t := "^") (post := t)) (head_cat_cons ?_ head_cat_nil)⟩
        have : (of "]⟩>|").run ("^".toList.reverse ++ pre, t) = [] := by
          rcases t with _ | ⟨y, t⟩
          · rfl
          · have := h [] y t rfl
            rw [run_eq_nil]
            intro u post e hu
            obtain ⟨c, hc, rfl⟩ := takes_of.mp hu
            simp only [List.cons_append, List.nil_append, List.cons.injEq] at e
            exact this (e.1 ▸ hc)
        have e : (notAhead (of "]⟩>|")).run ("^".toList.reverse ++ pre, t) = [("^".toList.reverse ++ pre, t)] := by
          rw [run, this]; rfl
        rw [e]
        rfl
      have := sub_hit (f := f) this
      rw [show '^' :: t = ['^'] ++ t from rfl, this, ih _ ht, if_pos rfl]
    · have : ePow.Quiet pre [x] t := quiet_of_starts (by
        have : "^".toList = ['^'] := rfl
        simp [ePow, cat, lit, this, starts, isTest, hx])
      have := sub_quiet (f := f) this
      rw [show x :: t = [x] ++ t from rfl, this, ih _ ht, if_neg hx]

/-! ### Substitutions of texts that do not occur -/

/-- Every match has a character that the text does not have. -/
theorem sub_missing {r : RE} {f : List Char → List Char} {c : Char} (hr : ∀ pre u post, r.Takes pre u post → c ∈ u) {t : List Char} (h : c ∉ t) :
    r.sub f 0 [] t = t := by
  apply sub_none
  intro b1 x b2 e
  rw [run_eq_nil]
  intro u post hu ht
  apply h
  rw [e]
  have := hr _ _ _ ht
  have h2 : c ∈ x :: (b2 ++ []) := by rw [hu]; simp [this]
  rw [List.append_nil] at h2
  exact List.mem_append_right _ h2

/-- In the text an underscore has a digit after it. -/
def UnderDigit (t : List Char) : Prop := ∀ p q, t = p ++ '_' :: q → ∃ d s, q = d :: s ∧ d.isDigit = true

theorem sub_massive {r : RE} {f : List Char → List Char} {o e : RE} (hr : r = cat [o, some1 dig, of "_d", e])
    (he : ∀ pre u post, e.Takes pre u post → ∃ c, u = [c] ∧ c.isDigit = false) {t : List Char} (hd : 'd' ∉ t) (hu : UnderDigit t) :
    r.sub f 0 [] t = t := by
  apply sub_none
  intro b1 x b2 e
  rw [run_eq_nil]
  intro u post hu' ht
  rw [hr] at ht
  simp only [takes_cat_cons, takes_cat_nil, takes_plus_dig, takes_of] at ht
  obtain ⟨a, _, rfl, -, ds, _, rfl, -, _, _, rfl, ⟨y, hy, rfl⟩, z, _, rfl, hz, rfl⟩ := ht
  obtain ⟨c, rfl, hc⟩ := he _ _ _ hz
  have e2 : t = (b1 ++ a ++ ds) ++ y :: c :: post := by
    rw [e]
    have : x :: b2 = a ++ (ds ++ y :: c :: post) := by simpa using hu'
    rw [this]
    simp
  have hy2 : y = '_' ∨ y = 'd' := by
    have : "_d".toList = ['_', 'd'] := rfl
    rw [this] at hy
    simpa using hy
  rcases hy2 with rfl | rfl
  · obtain ⟨d, s, h1, h2⟩ := hu _ _ e2
    simp only [List.cons.injEq] at h1
    rw [← h1.1, hc] at h2
    simp at h2
  · exact hd (by rw [e2]; simp)

theorem underDigit_append {a b : List Char} (ha : UnderDigit a) (hb : UnderDigit b) : UnderDigit (a ++ b) := by
  intro p q h
  rcases List.append_eq_append_iff.mp h with ⟨c, rfl, h2⟩ | ⟨c, h1, h2⟩
  · exact hb _ _ h2
  · rcases c with _ | ⟨x, c⟩
    · exact hb [] q (by simpa using h2.symm)
    · simp only [List.cons_append, List.cons.injEq] at h2
      obtain ⟨rfl, h2⟩ := h2
      obtain ⟨d, s, h3, h4⟩ := ha _ _ h1
      exact ⟨d, s ++ b, by rw [h2, h3]; rfl, h4⟩

theorem underDigit_none {a : List Char} (h : '_' ∉ a) : UnderDigit a := by
  intro p q e
  exact absurd (by rw [e]; simp) h

/-- A word ending with an underscore, and digits. -/
theorem underDigit_word {w ds : List Char} (hw : ∀ p q, w = p ++ '_' :: q → q = []) (hd : Digits ds) : UnderDigit (w ++ ds) := by
  intro p q h
  have hds : '_' ∉ ds := fun hx => absurd (hd.2 _ hx) (by decide)
  rcases List.append_eq_append_iff.mp h with ⟨c, rfl, h2⟩ | ⟨c, h1, h2⟩
  · exact absurd (by rw [h2]; simp) hds
  · rcases c with _ | ⟨x, c⟩
    · exact absurd (by rw [List.nil_append] at h2; rw [← h2]; simp) hds
    · simp only [List.cons_append, List.cons.injEq] at h2
      obtain ⟨rfl, h2⟩ := h2
      have := hw _ _ h1
      subst this
      obtain ⟨h3, h4⟩ := hd
      rcases ds with _ | ⟨d, ds⟩
      · exact absurd rfl h3
      · exact ⟨d, ds, by rw [h2]; rfl, h4 d (by simp)⟩

theorem word_under {w : List Char} (h : '_' ∉ w.dropLast) : ∀ p q, w = p ++ '_' :: q → q = [] := by
  intro p q e
  by_contra hq
  apply h
  rw [e, List.dropLast_append_of_ne_nil (by simp), List.dropLast_cons_of_ne_nil hq]
  simp

theorem text_under {l : Leaf} (h : l.Ok) : UnderDigit l.text := by
  have none : '_' ∉ "0123456789".toList ++ l.alphabet → UnderDigit l.text := by
    intro hn
    apply underDigit_none
    intro hx
    apply hn
    rcases text_name_only h '_' (List.mem_append_left _ hx) with h | h
    · exact absurd h (by decide)
    · exact List.mem_append_right _ h
  cases l with
  | two sq bar a b =>
    apply none
    cases sq
    · exact (by decide : '_' ∉ "0123456789".toList ++ "⟨|⟩".toList)
    · exact (by decide : '_' ∉ "0123456789".toList ++ "[|]".toList)
  | mandel p ds =>
    obtain ⟨hp, hd⟩ := h
    simp only [List.mem_cons, List.not_mem_nil, or_false] at hp
    rcases hp with rfl | rfl | rfl | rfl
    · exact underDigit_word (word_under (by decide)) hd
    · exact underDigit_word (word_under (by decide)) hd
    · exact underDigit_word (word_under (by decide)) hd
    · exact underDigit_word (word_under (by decide)) hd
  | omega ds => exact underDigit_word (word_under (by decide)) h
  | pi ds => exact underDigit_word (word_under (by decide)) h
  | tr5l ds => exact underDigit_word (word_under (by decide)) h
  | tr5s s ss => exact none (by decide : '_' ∉ "0123456789".toList ++ "tr5(|+-)".toList)
  | trace s ss => exact none (by decide : '_' ∉ "0123456789".toList ++ "tr(|+-)".toList)
  | delta c cs =>
    refine underDigit_append (underDigit_word (w := "Δ_".toList) (word_under (by decide)) (h.2 c (by simp)).1) (underDigit_none ?_)
    intro hx
    simp only [List.mem_flatMap, List.mem_cons] at hx
    obtain ⟨k, hk, hx | hx⟩ := hx
    · exact absurd hx (by decide)
    · exact absurd ((h.2 k (by simp [hk])).1.2 _ hx) (by decide)
  | str o a ss b c =>
    obtain ⟨ho, hc, -⟩ := h
    apply none
    intro hx
    rcases List.mem_append.mp hx with hx | hx
    · exact absurd hx (by decide)
    · rcases List.mem_cons.mp hx with hx | hx
      · exact absurd (hx ▸ ho) (by decide)
      · rcases List.mem_cons.mp hx with hx | hx
        · exact absurd (hx ▸ hc) (by decide)
        · exact absurd hx (by decide)

theorem raw_under {ts : List WTok} (h : ∀ t ∈ ts, t.Ok) : UnderDigit (shownAll 0 ts) := by
  induction ts with
  | nil => exact underDigit_none (by simp [shownAll])
  | cons t ts ih =>
    have e : shownAll 0 (t :: ts) = t.shown 0 ++ shownAll 0 ts := by simp [shownAll]
    rw [e]
    refine underDigit_append ?_ (ih fun x hx => h x (by simp [hx]))
    have ht := h t (by simp)
    cases t with
    | ch c =>
      apply underDigit_none
      simp only [WTok.shown, List.mem_singleton]
      rintro rfl
      exact absurd ht (by decide : '_' ∉ rawChars)
    | leaf l =>
      have : l.shown 0 = l.text := by
        cases l with
        | two sq bar a b => cases sq <;> rfl
        | _ => rfl
      change UnderDigit (l.shown 0)
      rw [this]
      exact text_under ht

theorem runPasses_absent {ps : List Pass} {t : List Char} (h : ∀ p ∈ ps, p.1.sub p.2 0 [] t = t) : runPasses ps t = t := by
  unfold runPasses
  induction ps with
  | nil => rfl
  | cons p ps ih => rw [List.foldl_cons, h p (by simp), ih fun q hq => h q (by simp [hq])]

/-- The substitutions for massive spinors find nothing. -/
theorem massive_none {ts : List WTok} (h : ∀ t ∈ ts, t.Ok) : runPasses passesMassive (shownAll 0 ts) = shownAll 0 ts := by
  have hc := shownAll_chars h 0
  have hno : ∀ c, c ∉ allChars → c ∉ shownAll 0 ts := fun c hx hm => hx (hc c hm)
  apply runPasses_absent
  intro p hp
  simp only [passesMassive, List.mem_cons, List.not_mem_nil, or_false] at hp
  rcases hp with rfl | rfl | rfl | rfl | rfl
  · exact sub_massive rfl (fun pre u post hu => by rw [takes_lit] at hu; exact ⟨'|', hu, by decide⟩) (hno 'd' (by decide)) (raw_under h)
  · refine sub_massive rfl (fun pre u post hu => ?_) (hno 'd' (by decide)) (raw_under h)
    obtain ⟨c, hc, rfl⟩ := takes_of.mp hu
    exact ⟨c, rfl, (by decide : ∀ c ∈ "⟩>".toList, c.isDigit = false) c hc⟩
  · have : ∀ pre u post, eMassiveBd.Takes pre u post → '^' ∈ u ∨ 'u' ∈ u := by
      intro pre u post hu
      simp only [eMassiveBd, takes_cat_cons, takes_cat_nil, takes_plus_dig, takes_of, takes_lit] at hu
      obtain ⟨_, _, rfl, -, ds, _, rfl, -, _, _, rfl, ⟨y, hy, rfl⟩, -⟩ := hu
      have e : "^u".toList = ['^', 'u'] := rfl
      rw [e] at hy
      simp only [List.mem_cons, List.not_mem_nil, or_false] at hy
      rcases hy with rfl | rfl <;> simp
    apply sub_none
    intro b1 x b2 e
    rw [run_eq_nil]
    intro u post hu ht
    have hm : ∀ c ∈ u, c ∈ shownAll 0 ts := by
      intro c hcu
      have h2 : c ∈ x :: (b2 ++ []) := by rw [hu]; simp [hcu]
      rw [e]
      rw [List.append_nil] at h2
      exact List.mem_append_right _ h2
    rcases this _ _ _ ht with h' | h'
    · exact hno '^' (by decide) (hm _ h')
    · exact hno 'u' (by decide) (hm _ h')
  · have : ∀ pre u post, eMassiveBu.Takes pre u post → '^' ∈ u ∨ 'u' ∈ u := by
      intro pre u post hu
      simp only [eMassiveBu, takes_cat_cons, takes_cat_nil, takes_plus_dig, takes_of, takes_lit] at hu
      obtain ⟨_, _, rfl, -, ds, _, rfl, -, _, _, rfl, ⟨y, hy, rfl⟩, -⟩ := hu
      have e : "^u".toList = ['^', 'u'] := rfl
      rw [e] at hy
      simp only [List.mem_cons, List.not_mem_nil, or_false] at hy
      rcases hy with rfl | rfl <;> simp
    apply sub_none
    intro b1 x b2 e
    rw [run_eq_nil]
    intro u post hu ht
    have hm : ∀ c ∈ u, c ∈ shownAll 0 ts := by
      intro c hcu
      have h2 : c ∈ x :: (b2 ++ []) := by rw [hu]; simp [hcu]
      rw [e]
      rw [List.append_nil] at h2
      exact List.mem_append_right _ h2
    rcases this _ _ _ ht with h' | h'
    · exact hno '^' (by decide) (hm _ h')
    · exact hno 'u' (by decide) (hm _ h')
  · exact sub_missing (c := '@') (fun pre u post hu => by rw [takes_lit.mp hu]; decide) (hno '@' (by decide))

/-! ### Letters and digits before `oPs` -/

def isAlnum (c : Char) : Bool := asciiLetter c || c.isDigit

def eBeforeO : RE := cat [some1 (.cls fun c => asciiLetter c || c.isDigit), lit "oPs"]

theorem takes_eBeforeO {pre u post : List Char} : eBeforeO.Takes pre u post ↔
    ∃ x, u = x ++ "oPs".toList ∧ x ≠ [] ∧ ∀ c ∈ x, isAlnum c = true := by
  simp only [eBeforeO, takes_cat_cons, takes_cat_nil, takes_lit, takes_plus_cls]
  constructor
  · rintro ⟨x, _, rfl, ⟨h1, h2⟩, _, _, rfl, rfl, rfl⟩
    exact ⟨x, by simp, h1, h2⟩
  · rintro ⟨x, rfl, h1, h2⟩
    exact ⟨x, "oPs".toList, rfl, ⟨h1, h2⟩, "oPs".toList, [], by simp, rfl, rfl⟩

/-- A product sign before every `o` with a letter or digit before it. -/
def starO : Bool → List Char → List Char
  | _, [] => []
  | b, c :: t => (if b && c = 'o' then ['*', c] else [c]) ++ starO (isAlnum c) t

/-- In the text an `o` begins `oPs(`. -/
def OPs (t : List Char) : Prop := ∀ p q, t = p ++ 'o' :: q → ∃ q', q = 'P' :: 's' :: '(' :: q'

theorem OPs.right {a b : List Char} (h : OPs (a ++ b)) : OPs b := fun p q e => h (a ++ p) q (by rw [e]; simp)

def lastAl (b : Bool) (t : List Char) : Bool := match t.getLast? with
  | some c => isAlnum c
  | none => b

theorem lastAl_cons (b : Bool) (c : Char) (t : List Char) : lastAl b (c :: t) = lastAl (isAlnum c) t := by
  unfold lastAl
  rcases t with _ | ⟨d, t⟩
  · rfl
  · rw [List.getLast?_cons_cons]
    rcases h : (d :: t).getLast? with _ | e
    · simp at h
    · rfl

theorem starO_append (b : Bool) (s t : List Char) : starO b (s ++ t) = starO b s ++ starO (lastAl b s) t := by
  induction s generalizing b with
  | nil => rfl
  | cons c s ih => rw [List.cons_append, starO, starO, ih, lastAl_cons, List.append_assoc]

theorem starO_none (b : Bool) {s : List Char} (h : 'o' ∉ s) : starO b s = s := by
  induction s generalizing b with
  | nil => rfl
  | cons c s ih =>
    have hc : ¬c = 'o' := fun e => h (by simp [e])
    rw [starO, ih _ fun hx => h (by simp [hx])]
    simp [hc]

/-- A match lies within the letters and digits. -/
theorem alnum_within {u post w rest : List Char} (hu : ∀ c ∈ u, isAlnum c = true) (hr : ∀ c, rest.head? = some c → isAlnum c = false)
    (h : w ++ rest = u ++ post) : ∃ v, w = u ++ v := by
  rcases List.append_eq_append_iff.mp h with ⟨c, h1, h2⟩ | ⟨c, h1, -⟩
  · rcases c with _ | ⟨x, c⟩
    · exact ⟨[], by simpa using h1.symm⟩
    · have h3 := hr x (by rw [h2]; rfl)
      have h4 := hu x (by rw [h1]; simp)
      rw [h3] at h4
      simp at h4
  · exact ⟨c, h1⟩

theorem oPs_alnum {x : List Char} (h : ∀ c ∈ x, isAlnum c = true) : ∀ c ∈ x ++ "oPs".toList, isAlnum c = true := by
  intro c hc
  rcases List.mem_append.mp hc with hc | hc
  · exact h c hc
  · exact (by decide : ∀ c ∈ "oPs".toList, isAlnum c = true) c hc

/-- The substitution before `oPs`. -/
theorem sub_beforeO (n : ℕ) (t pre : List Char) (hn : t.length ≤ n) (h : OPs t) :
    eBeforeO.sub (fun m => m.take (m.length - 3) ++ "*oPs".toList) 0 pre t = starO false t := by
  induction n generalizing t pre with
  | zero =>
    have : t = [] := List.length_eq_zero_iff.mp (by omega)
    subst this
    rfl
  | succ n ih =>
    rcases t with _ | ⟨c, s⟩
    · rfl
    by_cases hc : isAlnum c = true
    · -- the run of letters and digits
      obtain ⟨w, rest, hw, hwa, hra, hwn⟩ : ∃ w rest, c :: s = w ++ rest ∧ (∀ x ∈ w, isAlnum x = true) ∧
          (∀ x, rest.head? = some x → isAlnum x = false) ∧ w ≠ [] := by
        refine ⟨(c :: s).takeWhile isAlnum, (c :: s).dropWhile isAlnum, (List.takeWhile_append_dropWhile).symm, ?_, ?_, ?_⟩
        · exact fun x hx => List.all_eq_true.mp List.all_takeWhile x hx
        · intro x hx
          have := List.head?_dropWhile_not isAlnum (c :: s)
          rw [hx] at this
          exact Bool.eq_false_iff.mpr (by simpa using this)
        · simp [hc]
      rw [hw] at h hn ⊢
      have hlen : rest.length ≤ n := by
        have := List.length_pos_of_ne_nil hwn
        rw [List.length_append] at hn
        omega
      have hrest : ∀ b, starO b rest = starO false rest := by
        intro b
        rcases rest with _ | ⟨x, rest⟩
        · rfl
        · have : x ≠ 'o' := by
            rintro rfl
            exact absurd (hra 'o' rfl) (by decide)
          simp [starO, this]
      by_cases ho : 'o' ∈ w
      · obtain ⟨a, b, e, hoa⟩ := List.eq_append_cons_of_mem ho
        subst e
        obtain ⟨q', hq⟩ := h a (b ++ rest) (by simp)
        have hbr : b = ['P', 's'] ∧ rest = '(' :: q' := by
          have hb : ∀ x ∈ b, isAlnum x = true := fun x hx => hwa x (by simp [hx])
          rcases rest with _ | ⟨x, rest⟩
          · rw [List.append_nil] at hq
            have := hb '(' (by rw [hq]; simp)
            exact absurd this (by decide)
          · obtain ⟨h1, h2, h3⟩ := split_at_close (p := fun x => isAlnum x = true) hb (b := ['P', 's']) (by decide)
              (by rw [hra x rfl]; simp) (d := '(') (by decide) (by simpa using hq)
            exact ⟨h1, by rw [h2, h3]⟩
        obtain ⟨rfl, rfl⟩ := hbr
        have hoPs : 'o' :: ['P', 's'] = "oPs".toList := rfl
        rw [hoPs] at hwa ⊢
        have hone : ∀ (v x : List Char), a ++ "oPs".toList = v ++ (x ++ "oPs".toList) ++ [] → x.length + v.length = a.length := by
          intro v x e
          have := congrArg List.length e
          simp only [List.length_append, List.length_nil] at this
          omega
        rcases ha : a with _ | ⟨a0, a1⟩
        · -- nothing before it
          rw [List.nil_append]
          have hq : eBeforeO.Quiet pre "oPs".toList ('(' :: q') := by
            intro b1 x b2 e
            rw [run_eq_nil]
            intro u post hu ht
            obtain ⟨y, rfl, hy, hya⟩ := takes_eBeforeO.mp ht
            obtain ⟨v, hv⟩ := alnum_within (w := x :: b2) (rest := '(' :: q') (oPs_alnum hya) (by
              rintro c ⟨⟩; decide) (by simpa using hu)
            have h1 := congrArg List.length hv
            have h2 := congrArg List.length e
            have h3 := List.length_pos_of_ne_nil hy
            have h4 : "oPs".toList.length = 3 := rfl
            simp only [List.length_append, List.length_cons, h4] at h1 h2
            omega
          rw [sub_quiet hq, ih _ _ hlen h.right, starO_append, hrest]
          rfl
        · -- something before it
          rw [← ha]
          have hane : a ≠ [] := by rw [ha]; simp
          have hhit : eBeforeO.Hit pre (a ++ "oPs".toList) ('(' :: q') := by
            refine ⟨by simp, head_unique (takes_eBeforeO.mpr ⟨a, rfl, hane, fun c hc => hwa c (by simp [hc])⟩) ?_⟩
            intro u post hu ht
            obtain ⟨y, rfl, hy, hya⟩ := takes_eBeforeO.mp ht
            obtain ⟨v, hv⟩ := alnum_within (rest := '(' :: q') (oPs_alnum hya) (by rintro c ⟨⟩; decide) hu
            have hcount := congrArg (List.count 'o') hv
            have h0 : List.count 'o' a = 0 := List.count_eq_zero.mpr hoa
            have h1 : List.count 'o' "oPs".toList = 1 := rfl
            simp only [List.count_append, h0, h1] at hcount
            have hy0 : 'o' ∉ y := List.count_eq_zero.mp (by omega)
            have hv' : a ++ 'o' :: ['P', 's'] = y ++ 'o' :: (['P', 's'] ++ v) := by
              have e1 : "oPs".toList = 'o' :: ['P', 's'] := rfl
              rw [e1] at hv
              simpa using hv
            obtain ⟨h2, -⟩ := split_at_char hoa hy0 hv'
            rw [h2]
          rw [sub_hit hhit, ih _ _ hlen h.right, starO_append, starO_append, starO_none _ hoa, hrest (lastAl false (a ++ _))]
          have hla : lastAl false a = true := by
            unfold lastAl
            rw [List.getLast?_eq_some_getLast hane]
            exact hwa _ (by simp)
          rw [hla]
          have e2 : (a ++ "oPs".toList).take ((a ++ "oPs".toList).length - 3) = a := by
            have : (a ++ "oPs".toList).length - 3 = a.length := by
              have h4 : "oPs".toList.length = 3 := rfl
              rw [List.length_append, h4]; omega
            rw [this, List.take_left]
          rw [e2]
          rfl
      · have hq : eBeforeO.Quiet pre w rest := by
          intro b1 x b2 e
          rw [run_eq_nil]
          intro u post hu ht
          obtain ⟨y, rfl, hy, hya⟩ := takes_eBeforeO.mp ht
          obtain ⟨v, hv⟩ := alnum_within (w := x :: b2) (oPs_alnum hya) hra (by simpa using hu)
          apply ho
          rw [e, hv]
          have e1 : "oPs".toList = 'o' :: ['P', 's'] := rfl
          rw [e1]
          simp
        rw [sub_quiet hq, ih _ _ hlen h.right, starO_append, starO_none _ ho, hrest (lastAl false w)]
    · have hcf : isAlnum c = false := by simpa using hc
      have hq : eBeforeO.Quiet pre [c] s := quiet_of_starts (by
        intro x hx
        rw [List.mem_singleton] at hx
        subst hx
        simp only [isAlnum] at hcf
        simp [eBeforeO, cat, some1, starts, isTest, hcf])
      have := sub_quiet (f := fun m => m.take (m.length - 3) ++ "*oPs".toList) hq
      rw [show c :: s = [c] ++ s from rfl, this, ih _ _ (by simp at hn; omega) (OPs.right (a := [c]) h)]
      simp [starO, hcf]

end Lips

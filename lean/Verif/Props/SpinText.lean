import Verif.Lemmas.ParseStars
import Verif.Props.Indexing
import Verif.Props.Front

/-!
Property C106 on texts: spinors of massive particles with a lowered or raised spin index, `⟨a_|..`, `[a^|..`, `..|b_⟩` and `..|b^]`, are
rewritten as the first component of the pair of spinors with `ϵ` (particles_eval.py:84-87, 120-129).
-/

namespace Lips

open RE

/-! ### One of the four patterns -/

/-- A pattern of a bracket or bar, digits, a mark, a bar or bracket. -/
structure MarkPat (r : RE) (o mk e : List Char) : Prop where
  takes : ∀ pre u post, r.Takes pre u post ↔
    ∃ a ds m z, u = a :: (ds ++ [m, z]) ∧ a ∈ o ∧ ds ≠ [] ∧ (∀ c ∈ ds, c.isDigit = true) ∧ m ∈ mk ∧ z ∈ e

theorem markPat_of {r o e : RE} {ol ml el : List Char} {mk : String} (hr : r = cat [o, some1 dig, of mk, e])
    (ho : ∀ pre u post, o.Takes pre u post ↔ ∃ c ∈ ol, u = [c]) (hm : mk.toList = ml)
    (he : ∀ pre u post, e.Takes pre u post ↔ ∃ c ∈ el, u = [c]) : MarkPat r ol ml el := by
  constructor
  intro pre u post
  subst hr
  simp only [takes_cat_cons, takes_cat_nil, takes_plus_dig, takes_of, ho, he, hm]
  constructor
  · rintro ⟨_, _, rfl, ⟨a, ha, rfl⟩, ds, _, rfl, ⟨hds, hd⟩, _, _, rfl, ⟨m, hm, rfl⟩, _, _, rfl, ⟨z, hz, rfl⟩, rfl⟩
    exact ⟨a, ds, m, z, by simp, ha, hds, hd, hm, hz⟩
  · rintro ⟨a, ds, m, z, rfl, ha, hds, hd, hm, hz⟩
    exact ⟨[a], ds ++ [m, z], rfl, ⟨a, ha, rfl⟩, ds, [m, z], rfl, ⟨hds, hd⟩, [m], [z], rfl, ⟨m, hm, rfl⟩, [z], [], rfl, ⟨z, hz, rfl⟩, rfl⟩

theorem takes_lit_one {s : String} {c : Char} (h : s.toList = [c]) (pre u post : List Char) :
    (lit s).Takes pre u post ↔ ∃ x ∈ [c], u = [x] := by
  rw [takes_lit, h]; simp

theorem takes_of_list {s : String} {l : List Char} (h : s.toList = l) (pre u post : List Char) :
    (of s).Takes pre u post ↔ ∃ x ∈ l, u = [x] := by
  rw [takes_of, h]

theorem mark_Au : MarkPat eMassiveAu ['⟨', '<'] ['_', 'd'] ['|'] :=
  markPat_of rfl (takes_of_list rfl) rfl (takes_lit_one rfl)
theorem mark_Ad : MarkPat eMassiveAd ['|'] ['_', 'd'] ['⟩', '>'] :=
  markPat_of rfl (takes_lit_one rfl) rfl (takes_of_list rfl)
theorem mark_Bd : MarkPat eMassiveBd ['['] ['^', 'u'] ['|'] :=
  markPat_of rfl (takes_lit_one rfl) rfl (takes_lit_one rfl)
theorem mark_Bu : MarkPat eMassiveBu ['|'] ['^', 'u'] [']'] :=
  markPat_of rfl (takes_lit_one rfl) rfl (takes_lit_one rfl)

theorem sub_quiet_all {r : RE} {f : List Char → List Char} {pre t : List Char} (h : r.Quiet pre t []) : r.sub f 0 pre t = t := by
  have := sub_quiet (f := f) h
  rw [List.append_nil t] at this
  rw [this]
  simp [RE.sub]

theorem sub_hit_all {r : RE} {f : List Char → List Char} {pre t : List Char} (h : r.Hit pre t []) : r.sub f 0 pre t = f t := by
  have := sub_hit (f := f) h
  rw [List.append_nil t] at this
  rw [this]
  simp [RE.sub]

section Pat
variable {r : RE} {o mk e : List Char} {f : List Char → List Char} {pre post : List Char}

/-- No match without a mark. -/
theorem MarkPat.quiet_mark (h : MarkPat r o mk e) {b : List Char} (hb : ∀ c ∈ mk, c ∉ b ++ post) : r.Quiet pre b post := by
  intro b1 c b2 e1
  rw [run_eq_nil]
  intro u post' hu ht
  obtain ⟨a, ds, m, z, rfl, -, -, -, hm, -⟩ := (h.takes _ _ _).1 ht
  refine hb m hm ?_
  rw [e1, List.append_assoc, List.cons_append, hu]
  simp

/-- No match without a place to begin. -/
theorem MarkPat.quiet_open (h : MarkPat r o mk e) {b : List Char} (hb : ∀ c ∈ o, c ∉ b) : r.Quiet pre b post := by
  intro b1 c b2 e1
  rw [run_eq_nil]
  intro u post' hu ht
  obtain ⟨a, ds, m, z, rfl, ha, -⟩ := (h.takes _ _ _).1 ht
  simp only [List.cons_append, List.cons.injEq] at hu
  exact hb a ha (by rw [e1, ← hu.1]; simp)

/-- No match from a text without marks across a bar. -/
theorem MarkPat.quiet_bar (h : MarkPat r o mk e) {b : List Char} (hb : ∀ c ∈ mk, c ∉ b) (hbar : '|' ∉ mk) :
    r.Quiet pre b ('|' :: post) := by
  intro b1 c b2 e1
  rw [run_eq_nil]
  intro u post' hu ht
  obtain ⟨a, ds, m, z, rfl, ha, -, hd, hm, hz⟩ := (h.takes _ _ _).1 ht
  simp only [List.cons_append, List.cons.injEq] at hu
  obtain ⟨rfl, hu⟩ := hu
  have hb2 : m ∉ b2 := fun hmb => hb m hm (by rw [e1]; simp [hmb])
  have hno : '|' ∉ ds ++ [m] := by
    simp only [List.mem_append, List.mem_cons, List.not_mem_nil, or_false, not_or]
    exact ⟨fun hx => absurd (hd _ hx) (by decide), fun hx => hbar (hx ▸ hm)⟩
  have hu : b2 ++ '|' :: post = (ds ++ [m]) ++ (z :: post') := by simpa using hu
  rcases List.append_eq_append_iff.1 hu with ⟨q, h1, h2⟩ | ⟨q, h1, -⟩
  · rcases q with _ | ⟨x, q⟩
    · rw [List.append_nil] at h1
      exact hb2 (by rw [← h1]; simp)
    · simp only [List.cons_append, List.cons.injEq] at h2
      rw [h1, ← h2.1] at hno
      simp at hno
  · exact hb2 (by rw [h1]; simp)

/-- The match at the beginning. -/
theorem MarkPat.hit (h : MarkPat r o mk e) {a m z : Char} {ds : List Char} (ha : a ∈ o) (hds : ds ≠ [])
    (hd : ∀ c ∈ ds, c.isDigit = true) (hm : m ∈ mk) (hz : z ∈ e) (hmk : ∀ c ∈ mk, c.isDigit = false) :
    r.Hit pre (a :: (ds ++ [m, z])) post := by
  refine ⟨by simp, head_unique ((h.takes _ _ _).2 ⟨a, ds, m, z, rfl, ha, hds, hd, hm, hz⟩) ?_⟩
  intro v w e1 hv
  obtain ⟨a', ds', m', z', rfl, -, -, hd', hm', -⟩ := (h.takes _ _ _).1 hv
  simp only [List.cons_append, List.append_assoc, List.cons.injEq, List.nil_append] at e1 ⊢
  obtain ⟨rfl, e1⟩ := e1
  refine ⟨rfl, ?_⟩
  have key : ∀ x y : List Char, (∀ c ∈ x, c.isDigit = true) → (∀ c ∈ y, c.isDigit = true) → ∀ p q m m', m ∈ mk → m' ∈ mk →
      x ++ m :: p = y ++ m' :: q → x = y ∧ m = m' ∧ p = q := by
    intro x
    induction x with
    | nil =>
      intro y _ hy p q m m' hm hm' e
      rcases y with _ | ⟨c, y⟩
      · simpa using e
      · simp only [List.nil_append, List.cons_append, List.cons.injEq] at e
        have := hy c (by simp)
        rw [← e.1, hmk m hm] at this
        simp at this
    | cons c x ih =>
      intro y hx hy p q m m' hm hm' e
      rcases y with _ | ⟨d, y⟩
      · simp only [List.nil_append, List.cons_append, List.cons.injEq] at e
        have := hx c (by simp)
        rw [e.1, hmk m' hm'] at this
        simp at this
      · simp only [List.cons_append, List.cons.injEq] at e
        obtain ⟨rfl, e⟩ := e
        obtain ⟨rfl, h2, h3⟩ := ih y (fun c hc => hx c (by simp [hc])) (fun c hc => hy c (by simp [hc])) p q m m' hm hm' e
        exact ⟨rfl, h2, h3⟩
  obtain ⟨rfl, rfl, h3⟩ := key ds ds' hd hd' _ _ m m' hm hm' e1
  simp only [List.cons.injEq] at h3
  rw [h3.1]

/-- A match at the beginning and no other. -/
theorem MarkPat.sub_first (h : MarkPat r o mk e) {a m z : Char} {ds rest : List Char} (ha : a ∈ o) (hds : ds ≠ [])
    (hd : ∀ c ∈ ds, c.isDigit = true) (hm : m ∈ mk) (hz : z ∈ e) (hmk : ∀ c ∈ mk, c.isDigit = false)
    (hr : (∀ c ∈ o, c ∉ rest) ∨ ∀ c ∈ mk, c ∉ rest) :
    r.sub f 0 [] (a :: (ds ++ [m, z]) ++ rest) = f (a :: (ds ++ [m, z])) ++ rest := by
  rw [sub_hit (h.hit ha hds hd hm hz hmk)]
  have hq : r.Quiet ((a :: (ds ++ [m, z])).reverse ++ []) rest [] := by
    rcases hr with hr | hr
    · exact h.quiet_open hr
    · exact h.quiet_mark (by simpa using hr)
  rw [sub_quiet_all hq]

/-- A match at the end and no other. -/
theorem MarkPat.sub_last (h : MarkPat r ['|'] mk e) {m z : Char} {ds b : List Char} (hds : ds ≠ [])
    (hd : ∀ c ∈ ds, c.isDigit = true) (hm : m ∈ mk) (hz : z ∈ e) (hmk : ∀ c ∈ mk, c.isDigit = false) (hbar : '|' ∉ mk)
    (hb : ∀ c ∈ mk, c ∉ b) :
    r.sub f 0 [] (b ++ '|' :: (ds ++ [m, z])) = b ++ f ('|' :: (ds ++ [m, z])) := by
  rw [sub_quiet (h.quiet_bar hb hbar)]
  rw [sub_hit_all (h.hit (by simp) hds hd hm hz hmk)]

/-- No match with a mark only at the end. -/
theorem MarkPat.sub_across (h : MarkPat r o mk e) {b t : List Char} (hb : ∀ c ∈ mk, c ∉ b) (hbar : '|' ∉ mk)
    (ht : ∀ c ∈ o, c ∉ '|' :: t) : r.sub f 0 [] (b ++ '|' :: t) = b ++ '|' :: t := by
  apply sub_none
  apply quiet_append
  · simpa using h.quiet_bar hb hbar
  · exact h.quiet_open ht

theorem MarkPat.sub_no_mark (h : MarkPat r o mk e) {t : List Char} (ht : ∀ c ∈ mk, c ∉ t) : r.sub f 0 [] t = t :=
  sub_none (h.quiet_mark (by simpa using ht))

theorem MarkPat.sub_no_open (h : MarkPat r o mk e) {t : List Char} (ht : ∀ c ∈ o, c ∉ t) : r.sub f 0 [] t = t :=
  sub_none (h.quiet_open ht)

end Pat

/-! ### The texts -/

/-- `⟨a_|` or `[a^|`. -/
def spinOpen (sq : Bool) (a : ℕ) : List Char := if sq then '[' :: (pyStr a ++ ['^', '|']) else '⟨' :: (pyStr a ++ ['_', '|'])

/-- `|b_⟩` or `|b^]`. -/
def spinClose (sq : Bool) (b : ℕ) : List Char := if sq then '|' :: (pyStr b ++ ['^', ']']) else '|' :: (pyStr b ++ ['_', '⟩'])

/-- The first row of `ϵ` or `-ϵ` times the two rows of spinors. -/
def markRow (sq : Bool) (a : ℕ) : List Char :=
  if sq then "(-ϵ@block([[[".toList ++ pyStr a ++ "|], [[".toList ++ pyStr (a + 1) ++ "|]]))[0:1, :]".toList
  else "(ϵ@block([[⟨".toList ++ pyStr a ++ "|], [⟨".toList ++ pyStr (a + 1) ++ "|]]))[0:1, :]".toList

/-- The first column of the two columns of spinors times `ϵ` or `-ϵ`. -/
def markCol (sq : Bool) (b : ℕ) : List Char :=
  if sq then "(block([|".toList ++ pyStr b ++ "], |".toList ++ pyStr (b + 1) ++ "]])@ϵ)[:, 0:1]".toList
  else "(block([|".toList ++ pyStr b ++ "⟩, |".toList ++ pyStr (b + 1) ++ "⟩])@-ϵ)[:, 0:1]".toList

theorem not_mem_pyStr {c : Char} (h : c.isDigit = false) (k : ℕ) : c ∉ pyStr k := fun hc => by
  have := pyStr_digits k c hc
  rw [h] at this
  simp at this

theorem digitsIn_spin (x m z : Char) (k : ℕ) (hx : x.isDigit = false) (hm : m.isDigit = false) (hz : z.isDigit = false) :
    numberIn (x :: (pyStr k ++ [m, z])) = k := by
  have : digitsIn (x :: (pyStr k ++ [m, z])) = pyStr k := by
    rw [digitsIn, List.filter_cons, hx, List.filter_append, List.filter_eq_self.2 (pyStr_digits k)]
    simp [hm, hz]
  rw [numberIn, this]
  exact pyInt_pyStr k

/-! ### `@|@` -/

/-- Every `@` has another character than `|` after it. -/
def atOk : List Char → Bool
  | [] => true
  | '@' :: [] => false
  | '@' :: c :: s => c != '|' && atOk (c :: s)
  | _ :: s => atOk s

theorem atOk_free {t : List Char} (h : '@' ∉ t) : atOk t = true := by
  induction t with
  | nil => rfl
  | cons c t ih =>
    simp only [List.mem_cons, not_or] at h
    rw [atOk]
    · exact ih h.2
    · rintro rfl; exact absurd rfl h.1
    · rintro _ _ rfl; exact absurd rfl h.1

theorem atOk_append {a b : List Char} (ha : atOk a = true) (hb : atOk b = true) : atOk (a ++ b) = true := by
  induction a using atOk.induct with
  | case1 => exact hb
  | case2 => simp [atOk] at ha
  | case3 c s ih =>
    simp only [atOk, Bool.and_eq_true] at ha
    simp only [List.cons_append, atOk, Bool.and_eq_true]
    exact ⟨ha.1, ih ha.2⟩
  | case4 c s h1 h2 ih =>
    rw [atOk] at ha
    · rw [List.cons_append, atOk]
      · exact ih ha
      · intro hc hs
        have := List.append_eq_nil_iff.1 hs
        exact h1 hc this.1
      · intro x s' hc hs
        rcases s with _ | ⟨y, s⟩
        · exact h1 hc rfl
        · exact h2 y s hc rfl
    · exact h1
    · exact h2

theorem run_at {pre t : List Char} (h : ∀ s, t ≠ '@' :: '|' :: '@' :: s) : (lit "@|@").run (pre, t) = [] := by
  rw [run_eq_nil]
  intro u post hu ht
  rw [takes_lit] at ht
  subst ht
  exact h post hu

theorem quiet_at {pre t post : List Char} (h : atOk t = true) : (lit "@|@").Quiet pre t post := by
  induction t using atOk.induct generalizing pre with
  | case1 => exact quiet_nil
  | case2 => simp [atOk] at h
  | case3 c s ih =>
    simp only [atOk, Bool.and_eq_true, bne_iff_ne] at h
    refine quiet_cons (run_at ?_) (ih h.2)
    intro q hq
    simp only [List.cons_append, List.cons.injEq] at hq
    exact h.1 hq.2.1
  | case4 c s h1 h2 ih =>
    have h : atOk s = true := by
      rw [atOk] at h
      · exact h
      · exact h1
      · exact h2
    refine quiet_cons (run_at ?_) (ih h)
    intro q hq
    simp only [List.cons.injEq] at hq
    rcases s with _ | ⟨y, s⟩
    · exact h1 hq.1 rfl
    · exact h2 y s hq.1 rfl

/-! ### All five substitutions -/

/-- None of these characters occurs. -/
def FreeOf (l t : List Char) : Prop := ∀ c ∈ l, c ∉ t

theorem FreeOf.append {l a b : List Char} (ha : FreeOf l a) (hb : FreeOf l b) : FreeOf l (a ++ b) := fun c hc h =>
  (List.mem_append.1 h).elim (ha c hc) (hb c hc)

theorem FreeOf.cons {l b : List Char} {x : Char} (hx : x ∉ l) (hb : FreeOf l b) : FreeOf l (x :: b) := fun c hc h =>
  (List.mem_cons.1 h).elim (fun e => hx (e ▸ hc)) (hb c hc)

theorem freeOf_pyStr {l : List Char} (hl : ∀ c ∈ l, c.isDigit = false) (k : ℕ) : FreeOf l (pyStr k) := fun c hc => not_mem_pyStr (hl c hc) k

theorem FreeOf.sub {l l' t : List Char} (h : FreeOf l t) (hl : l' ⊆ l) : FreeOf l' t := fun c hc => h c (hl hc)

/-- What may be between the ends. -/
def midChars : List Char := "0123456789+-|".toList

def spinMarks : List Char := ['_', 'd', '^', 'u']

theorem freeOf_mid {mid : List Char} (h : ∀ c ∈ mid, c ∈ midChars) {l : List Char} (hl : ∀ c ∈ l, c ∉ midChars) : FreeOf l mid :=
  fun c hc hm => hl c hc (h c hm)

theorem markRow_free (sq : Bool) (a : ℕ) : FreeOf spinMarks (markRow sq a) := by
  have hp : ∀ k, FreeOf spinMarks (pyStr k) := freeOf_pyStr (by decide)
  cases sq
  · exact ((((show FreeOf spinMarks _ by unfold FreeOf; decide).append (hp _)).append (by unfold FreeOf; decide)).append (hp _)).append
      (by unfold FreeOf; decide)
  · exact ((((show FreeOf spinMarks _ by unfold FreeOf; decide).append (hp _)).append (by unfold FreeOf; decide)).append (hp _)).append
      (by unfold FreeOf; decide)

theorem markCol_free (sq : Bool) (b : ℕ) : FreeOf spinMarks (markCol sq b) := by
  have hp : ∀ k, FreeOf spinMarks (pyStr k) := freeOf_pyStr (by decide)
  cases sq
  · exact ((((show FreeOf spinMarks _ by unfold FreeOf; decide).append (hp _)).append (by unfold FreeOf; decide)).append (hp _)).append
      (by unfold FreeOf; decide)
  · exact ((((show FreeOf spinMarks _ by unfold FreeOf; decide).append (hp _)).append (by unfold FreeOf; decide)).append (hp _)).append
      (by unfold FreeOf; decide)

theorem markRow_at (sq : Bool) (a : ℕ) : atOk (markRow sq a) = true := by
  have hp : ∀ k, atOk (pyStr k) = true := fun k => atOk_free (not_mem_pyStr (by decide) k)
  cases sq
  · exact atOk_append (atOk_append (atOk_append (atOk_append (by decide) (hp _)) (by decide)) (hp _)) (by decide)
  · exact atOk_append (atOk_append (atOk_append (atOk_append (by decide) (hp _)) (by decide)) (hp _)) (by decide)

theorem markCol_at (sq : Bool) (b : ℕ) : atOk (markCol sq b) = true := by
  have hp : ∀ k, atOk (pyStr k) = true := fun k => atOk_free (not_mem_pyStr (by decide) k)
  cases sq
  · exact atOk_append (atOk_append (atOk_append (atOk_append (by decide) (hp _)) (by decide)) (hp _)) (by decide)
  · exact atOk_append (atOk_append (atOk_append (atOk_append (by decide) (hp _)) (by decide)) (hp _)) (by decide)

/-! What is written for the ends. -/

theorem written_Au (a : ℕ) : passesMassive[0].2 (spinOpen false a) = markRow false a ++ ['@', '|'] := by
  have hk : numberIn (spinOpen false a) = a := digitsIn_spin _ _ _ _ (by decide) (by decide) (by decide)
  show _ ++ pyStr (numberIn (spinOpen false a)) ++ _ ++ pyStr (numberIn (spinOpen false a) + 1) ++ _ = _
  rw [hk]
  simp [markRow]

theorem written_Bd (a : ℕ) : passesMassive[2].2 (spinOpen true a) = markRow true a ++ ['@', '|'] := by
  have hk : numberIn (spinOpen true a) = a := digitsIn_spin _ _ _ _ (by decide) (by decide) (by decide)
  show _ ++ pyStr (numberIn (spinOpen true a)) ++ _ ++ pyStr (numberIn (spinOpen true a) + 1) ++ _ = _
  rw [hk]
  simp [markRow]

theorem written_Ad (b : ℕ) : passesMassive[1].2 (spinClose false b) = '|' :: '@' :: markCol false b := by
  have hk : numberIn (spinClose false b) = b := digitsIn_spin _ _ _ _ (by decide) (by decide) (by decide)
  show _ ++ pyStr (numberIn (spinClose false b)) ++ _ ++ pyStr (numberIn (spinClose false b) + 1) ++ _ = _
  rw [hk]
  simp [markCol]

theorem written_Bu (b : ℕ) : passesMassive[3].2 (spinClose true b) = '|' :: '@' :: markCol true b := by
  have hk : numberIn (spinClose true b) = b := digitsIn_spin _ _ _ _ (by decide) (by decide) (by decide)
  show _ ++ pyStr (numberIn (spinClose true b)) ++ _ ++ pyStr (numberIn (spinClose true b) + 1) ++ _ = _
  rw [hk]
  simp [markCol]

/-- The four substitutions of the ends. -/
def fourSubs (t : List Char) : List Char := runPasses (passesMassive.take 4) t

theorem fourSubs_spin (sq sq' : Bool) (a b : ℕ) (mid : List Char) (hmid : ∀ c ∈ mid, c ∈ midChars) :
    fourSubs (spinOpen sq a ++ (mid ++ spinClose sq' b)) = markRow sq a ++ '@' :: '|' :: (mid ++ '|' :: '@' :: markCol sq' b) := by
  have hne := pyStr_ne_nil
  have hdg := pyStr_digits
  have hm : FreeOf spinMarks mid := freeOf_mid hmid (by decide)
  have hm2 : FreeOf ['⟨', '<', '['] mid := freeOf_mid hmid (by decide)
  have h1 : ['_', 'd'] ⊆ spinMarks := by decide
  have h2 : ['^', 'u'] ⊆ spinMarks := by decide
  have hp : ∀ k, FreeOf spinMarks (pyStr k) := freeOf_pyStr (by decide)
  have hp2 : ∀ k, FreeOf ['⟨', '<', '['] (pyStr k) := freeOf_pyStr (by decide)
  have hrow : ∀ sq, FreeOf spinMarks (markRow sq a ++ '@' :: '|' :: mid) := fun sq =>
    (markRow_free sq a).append (.cons (by decide) (.cons (by decide) hm))
  have hcol : ∀ sq', FreeOf spinMarks ('|' :: '@' :: markCol sq' b) := fun sq' => .cons (by decide) (.cons (by decide) (markCol_free sq' b))
  have wAu := written_Au a
  have wBd := written_Bd a
  have wAd := written_Ad b
  have wBu := written_Bu b
  have hrun : ∀ t, fourSubs t = eMassiveBu.sub passesMassive[3].2 0 [] (eMassiveBd.sub passesMassive[2].2 0 []
      (eMassiveAd.sub passesMassive[1].2 0 [] (eMassiveAu.sub passesMassive[0].2 0 [] t))) := fun t => rfl
  rw [hrun]
  generalize passesMassive[0].2 = f0 at wAu ⊢
  generalize passesMassive[1].2 = f1 at wAd ⊢
  generalize passesMassive[2].2 = f2 at wBd ⊢
  generalize passesMassive[3].2 = f3 at wBu ⊢
  cases sq <;> cases sq'
  · -- `⟨a_|..|b_⟩`
    have e0 : eMassiveAu.sub f0 0 [] (spinOpen false a ++ (mid ++ spinClose false b)) =
        (markRow false a ++ '@' :: '|' :: mid) ++ spinClose false b := by
      have := mark_Au.sub_first (f := f0) (a := '⟨') (m := '_') (z := '|') (ds := pyStr a) (rest := mid ++ spinClose false b)
        (by decide) (hne a) (hdg a) (by decide) (by decide) (by decide)
        (.inl ((hm2.append (.cons (by decide) ((hp2 b).append (by unfold FreeOf; decide)))).sub (by decide)))
      rw [show spinOpen false a = '⟨' :: (pyStr a ++ ['_', '|']) from rfl] at *
      rw [this, wAu]
      simp
    have e1 : eMassiveAd.sub f1 0 [] ((markRow false a ++ '@' :: '|' :: mid) ++ spinClose false b) =
        (markRow false a ++ '@' :: '|' :: mid) ++ '|' :: '@' :: markCol false b := by
      rw [← wAd]
      exact mark_Ad.sub_last (hne b) (hdg b) (by decide) (by decide) (by decide) (by decide) ((hrow false).sub h1)
    rw [e0, e1, mark_Bd.sub_no_mark (((hrow false).append (hcol false)).sub h2),
      mark_Bu.sub_no_mark (((hrow false).append (hcol false)).sub h2)]
    simp
  · -- `⟨a_|..|b^]`
    have e0 : eMassiveAu.sub f0 0 [] (spinOpen false a ++ (mid ++ spinClose true b)) =
        (markRow false a ++ '@' :: '|' :: mid) ++ spinClose true b := by
      have := mark_Au.sub_first (f := f0) (a := '⟨') (m := '_') (z := '|') (ds := pyStr a) (rest := mid ++ spinClose true b)
        (by decide) (hne a) (hdg a) (by decide) (by decide) (by decide)
        (.inl ((hm2.append (.cons (by decide) ((hp2 b).append (by unfold FreeOf; decide)))).sub (by decide)))
      rw [show spinOpen false a = '⟨' :: (pyStr a ++ ['_', '|']) from rfl] at *
      rw [this, wAu]
      simp
    have hcl : FreeOf ['_', 'd'] (spinClose true b) :=
      .cons (by decide) (((hp b).sub h1).append (by unfold FreeOf; decide))
    have e2 : eMassiveBd.sub f2 0 [] ((markRow false a ++ '@' :: '|' :: mid) ++ spinClose true b) =
        (markRow false a ++ '@' :: '|' :: mid) ++ spinClose true b := by
      apply mark_Bd.sub_across ((hrow false).sub h2) (by decide)
      exact (FreeOf.cons (by decide) ((hp2 b).append (by unfold FreeOf; decide)) : FreeOf ['⟨', '<', '['] _).sub (by decide)
    have e3 : eMassiveBu.sub f3 0 [] ((markRow false a ++ '@' :: '|' :: mid) ++ spinClose true b) =
        (markRow false a ++ '@' :: '|' :: mid) ++ '|' :: '@' :: markCol true b := by
      rw [← wBu]
      exact mark_Bu.sub_last (hne b) (hdg b) (by decide) (by decide) (by decide) (by decide) ((hrow false).sub h2)
    rw [e0, mark_Ad.sub_no_mark (((hrow false).sub h1).append hcl), e2, e3]
    simp
  · -- `[a^|..|b_⟩`
    have e0 : eMassiveAu.sub f0 0 [] (spinOpen true a ++ (mid ++ spinClose false b)) = (spinOpen true a ++ mid) ++ spinClose false b := by
      rw [← List.append_assoc]
      refine mark_Au.sub_no_open (FreeOf.append (.append ?_ (hm2.sub (by decide))) ?_)
      · exact .cons (by decide) (((hp2 a).sub (by decide)).append (by unfold FreeOf; decide))
      · exact .cons (by decide) (((hp2 b).sub (by decide)).append (by unfold FreeOf; decide))
    have e1 : eMassiveAd.sub f1 0 [] ((spinOpen true a ++ mid) ++ spinClose false b) =
        (spinOpen true a ++ mid) ++ '|' :: '@' :: markCol false b := by
      rw [← wAd]
      refine mark_Ad.sub_last (hne b) (hdg b) (by decide) (by decide) (by decide) (by decide) (FreeOf.append ?_ (hm.sub h1))
      exact .cons (by decide) (((hp a).sub h1).append (by unfold FreeOf; decide))
    have e2 : eMassiveBd.sub f2 0 [] (spinOpen true a ++ (mid ++ '|' :: '@' :: markCol false b)) =
        (markRow true a ++ '@' :: '|' :: mid) ++ '|' :: '@' :: markCol false b := by
      have := mark_Bd.sub_first (f := f2) (a := '[') (m := '^') (z := '|') (ds := pyStr a) (rest := mid ++ '|' :: '@' :: markCol false b)
        (by decide) (hne a) (hdg a) (by decide) (by decide) (by decide) (.inr ((hm.append (hcol false)).sub h2))
      rw [show spinOpen true a = '[' :: (pyStr a ++ ['^', '|']) from rfl] at *
      rw [this, wBd]
      simp
    rw [e0, e1, List.append_assoc, e2, mark_Bu.sub_no_mark (((hrow true).append (hcol false)).sub h2)]
    simp
  · -- `[a^|..|b^]`
    have hop : FreeOf ['⟨', '<', '_', 'd'] (spinOpen true a) :=
      .cons (by decide) ((freeOf_pyStr (by decide) a).append (by unfold FreeOf; decide))
    have hcl : FreeOf ['⟨', '<', '_', 'd'] (spinClose true b) :=
      .cons (by decide) ((freeOf_pyStr (by decide) b).append (by unfold FreeOf; decide))
    have hall : FreeOf ['⟨', '<', '_', 'd'] (spinOpen true a ++ (mid ++ spinClose true b)) :=
      hop.append ((freeOf_mid hmid (by decide)).append hcl)
    have e2 : eMassiveBd.sub f2 0 [] (spinOpen true a ++ (mid ++ spinClose true b)) =
        (markRow true a ++ '@' :: '|' :: mid) ++ spinClose true b := by
      have := mark_Bd.sub_first (f := f2) (a := '[') (m := '^') (z := '|') (ds := pyStr a) (rest := mid ++ spinClose true b)
        (by decide) (hne a) (hdg a) (by decide) (by decide) (by decide)
        (.inl ((hm2.append (.cons (by decide) ((hp2 b).append (by unfold FreeOf; decide)))).sub (by decide)))
      rw [show spinOpen true a = '[' :: (pyStr a ++ ['^', '|']) from rfl] at *
      rw [this, wBd]
      simp
    have e3 : eMassiveBu.sub f3 0 [] ((markRow true a ++ '@' :: '|' :: mid) ++ spinClose true b) =
        (markRow true a ++ '@' :: '|' :: mid) ++ '|' :: '@' :: markCol true b := by
      rw [← wBu]
      exact mark_Bu.sub_last (hne b) (hdg b) (by decide) (by decide) (by decide) (by decide) ((hrow true).sub h2)
    rw [mark_Au.sub_no_open (hall.sub (by decide)), mark_Ad.sub_no_mark (hall.sub (by decide)), e2, e3]
    simp

theorem fourSubs_touch (sq sq' : Bool) (a b : ℕ) :
    fourSubs (spinOpen sq a ++ (spinClose sq' b).tail) = markRow sq a ++ '@' :: '|' :: '@' :: markCol sq' b := by
  have hne := pyStr_ne_nil
  have hdg := pyStr_digits
  have h1 : ['_', 'd'] ⊆ spinMarks := by decide
  have h2 : ['^', 'u'] ⊆ spinMarks := by decide
  have hp : ∀ k, FreeOf spinMarks (pyStr k) := freeOf_pyStr (by decide)
  have hrow : ∀ sq, FreeOf spinMarks (markRow sq a ++ ['@']) := fun sq =>
    (markRow_free sq a).append (by unfold FreeOf; decide)
  have hcol : ∀ sq', FreeOf spinMarks ('|' :: '@' :: markCol sq' b) := fun sq' => .cons (by decide) (.cons (by decide) (markCol_free sq' b))
  have wAu := written_Au a
  have wBd := written_Bd a
  have wAd := written_Ad b
  have wBu := written_Bu b
  have hrun : ∀ t, fourSubs t = eMassiveBu.sub passesMassive[3].2 0 [] (eMassiveBd.sub passesMassive[2].2 0 []
      (eMassiveAd.sub passesMassive[1].2 0 [] (eMassiveAu.sub passesMassive[0].2 0 [] t))) := fun t => rfl
  rw [hrun]
  generalize passesMassive[0].2 = f0 at wAu ⊢
  generalize passesMassive[1].2 = f1 at wAd ⊢
  generalize passesMassive[2].2 = f2 at wBd ⊢
  generalize passesMassive[3].2 = f3 at wBu ⊢
  have hopen : ∀ sq', FreeOf ['⟨', '<', '['] (spinClose sq' b).tail := fun sq' => by
    cases sq'
    · exact (freeOf_pyStr (by decide) b).append (by unfold FreeOf; decide)
    · exact (freeOf_pyStr (by decide) b).append (by unfold FreeOf; decide)
  have hcons : ∀ sq', '|' :: (spinClose sq' b).tail = spinClose sq' b := fun sq' => by cases sq' <;> rfl
  have eAu : ∀ sq', eMassiveAu.sub f0 0 [] (spinOpen false a ++ (spinClose sq' b).tail) = (markRow false a ++ ['@']) ++ spinClose sq' b := by
    intro sq'
    have := mark_Au.sub_first (f := f0) (a := '⟨') (m := '_') (z := '|') (ds := pyStr a) (rest := (spinClose sq' b).tail)
      (by decide) (hne a) (hdg a) (by decide) (by decide) (by decide) (.inl ((hopen sq').sub (by decide)))
    rw [show spinOpen false a = '⟨' :: (pyStr a ++ ['_', '|']) from rfl] at *
    rw [this, wAu, ← hcons sq']
    simp
  cases sq <;> cases sq'
  · have e1 : eMassiveAd.sub f1 0 [] ((markRow false a ++ ['@']) ++ spinClose false b) =
        (markRow false a ++ ['@']) ++ '|' :: '@' :: markCol false b := by
      rw [← wAd]
      exact mark_Ad.sub_last (hne b) (hdg b) (by decide) (by decide) (by decide) (by decide) ((hrow false).sub h1)
    rw [eAu, e1, mark_Bd.sub_no_mark (((hrow false).append (hcol false)).sub h2),
      mark_Bu.sub_no_mark (((hrow false).append (hcol false)).sub h2)]
    simp
  · have hcl : FreeOf ['_', 'd'] (spinClose true b) := .cons (by decide) (((hp b).sub h1).append (by unfold FreeOf; decide))
    have e2 : eMassiveBd.sub f2 0 [] ((markRow false a ++ ['@']) ++ spinClose true b) = (markRow false a ++ ['@']) ++ spinClose true b := by
      rw [← hcons]
      exact mark_Bd.sub_across ((hrow false).sub h2) (by decide)
        (FreeOf.cons (by decide) ((hopen true).sub (by decide)))
    have e3 : eMassiveBu.sub f3 0 [] ((markRow false a ++ ['@']) ++ spinClose true b) =
        (markRow false a ++ ['@']) ++ '|' :: '@' :: markCol true b := by
      rw [← wBu]
      exact mark_Bu.sub_last (hne b) (hdg b) (by decide) (by decide) (by decide) (by decide) ((hrow false).sub h2)
    rw [eAu, mark_Ad.sub_no_mark (((hrow false).sub h1).append hcl), e2, e3]
    simp
  · have hop : FreeOf ['⟨', '<', '_', 'd'] ('[' :: (pyStr a ++ ['^'])) :=
      .cons (by decide) ((freeOf_pyStr (by decide) a).append (by unfold FreeOf; decide))
    have et : spinOpen true a ++ (spinClose false b).tail = '[' :: (pyStr a ++ ['^']) ++ spinClose false b := by
      rw [← hcons]; simp [spinOpen]
    have e0 : eMassiveAu.sub f0 0 [] ('[' :: (pyStr a ++ ['^']) ++ spinClose false b) = '[' :: (pyStr a ++ ['^']) ++ spinClose false b := by
      refine mark_Au.sub_no_open (FreeOf.append (hop.sub (by decide)) ?_)
      rw [← hcons]
      exact .cons (by decide) ((hopen false).sub (by decide))
    have e1 : eMassiveAd.sub f1 0 [] ('[' :: (pyStr a ++ ['^']) ++ spinClose false b) =
        '[' :: (pyStr a ++ ['^']) ++ '|' :: '@' :: markCol false b := by
      rw [← wAd]
      exact mark_Ad.sub_last (hne b) (hdg b) (by decide) (by decide) (by decide) (by decide) (hop.sub (by decide))
    have e2 : eMassiveBd.sub f2 0 [] ('[' :: (pyStr a ++ ['^']) ++ '|' :: '@' :: markCol false b) =
        (markRow true a ++ ['@']) ++ '|' :: '@' :: markCol false b := by
      have := mark_Bd.sub_first (f := f2) (a := '[') (m := '^') (z := '|') (ds := pyStr a) (rest := '@' :: markCol false b)
        (by decide) (hne a) (hdg a) (by decide) (by decide) (by decide) (.inr ((FreeOf.cons (by decide) (markCol_free false b)).sub h2))
      rw [show spinOpen true a = '[' :: (pyStr a ++ ['^', '|']) from rfl] at wBd
      rw [wBd] at this
      simpa using this
    rw [et, e0, e1, e2, mark_Bu.sub_no_mark (((hrow true).append (hcol false)).sub h2)]
    simp
  · have hop : FreeOf ['⟨', '<', '_', 'd'] (spinOpen true a) :=
      .cons (by decide) ((freeOf_pyStr (by decide) a).append (by unfold FreeOf; decide))
    have hcl : FreeOf ['⟨', '<', '_', 'd'] (spinClose true b).tail :=
      (freeOf_pyStr (by decide) b).append (by unfold FreeOf; decide)
    have hall := hop.append hcl
    have e2 : eMassiveBd.sub f2 0 [] (spinOpen true a ++ (spinClose true b).tail) = (markRow true a ++ ['@']) ++ spinClose true b := by
      have := mark_Bd.sub_first (f := f2) (a := '[') (m := '^') (z := '|') (ds := pyStr a) (rest := (spinClose true b).tail)
        (by decide) (hne a) (hdg a) (by decide) (by decide) (by decide) (.inl ((hopen true).sub (by decide)))
      rw [show spinOpen true a = '[' :: (pyStr a ++ ['^', '|']) from rfl] at *
      rw [this, wBd, ← hcons true]
      simp
    have e3 : eMassiveBu.sub f3 0 [] ((markRow true a ++ ['@']) ++ spinClose true b) =
        (markRow true a ++ ['@']) ++ '|' :: '@' :: markCol true b := by
      rw [← wBu]
      exact mark_Bu.sub_last (hne b) (hdg b) (by decide) (by decide) (by decide) (by decide) ((hrow true).sub h2)
    rw [mark_Au.sub_no_open (hall.sub (by decide)), mark_Ad.sub_no_mark (hall.sub (by decide)), e2, e3]
    simp

theorem runPasses_massive (t : List Char) : runPasses passesMassive t = (lit "@|@").sub (fun _ => ['@']) 0 [] (fourSubs t) := rfl

/-! ### The substitutions before -/

/-- After every `^` there is a bracket or a bar. -/
def hatOk : List Char → Bool
  | [] => true
  | '^' :: [] => false
  | '^' :: c :: s => decide (c ∈ "]⟩>|".toList) && hatOk (c :: s)
  | _ :: s => hatOk s

theorem hatOk_free {t : List Char} (h : '^' ∉ t) : hatOk t = true := by
  induction t with
  | nil => rfl
  | cons c t ih =>
    simp only [List.mem_cons, not_or] at h
    rw [hatOk]
    · exact ih h.2
    · rintro rfl; exact absurd rfl h.1
    · rintro _ _ rfl; exact absurd rfl h.1

theorem hatOk_append {a b : List Char} (ha : hatOk a = true) (hb : hatOk b = true) : hatOk (a ++ b) = true := by
  induction a using hatOk.induct with
  | case1 => exact hb
  | case2 => simp [hatOk] at ha
  | case3 c s ih =>
    simp only [hatOk, Bool.and_eq_true] at ha
    simp only [List.cons_append, hatOk, Bool.and_eq_true]
    exact ⟨ha.1, ih ha.2⟩
  | case4 c s h1 h2 ih =>
    rw [hatOk] at ha
    · rw [List.cons_append, hatOk]
      · exact ih ha
      · intro hc hs
        exact h1 hc (List.append_eq_nil_iff.1 hs).1
      · intro x s' hc hs
        rcases s with _ | ⟨y, s⟩
        · exact h1 hc rfl
        · exact h2 y s hc rfl
    · exact h1
    · exact h2

theorem quiet_hat {pre t post : List Char} (h : hatOk t = true) : ePow.Quiet pre t post := by
  have hno : ∀ {pre : List Char} {c : Char} {s : List Char}, c ≠ '^' → ePow.run (pre, c :: s) = [] := by
    intro pre c s hc
    rw [run_eq_nil]
    intro u post hu ht
    simp only [ePow, takes_cat_cons, takes_lit] at ht
    obtain ⟨v, w, rfl, hv, -⟩ := ht
    subst hv
    exact hc (List.cons.inj hu).1
  induction t using hatOk.induct generalizing pre with
  | case1 => exact quiet_nil
  | case2 => simp [hatOk] at h
  | case3 c s ih =>
    simp only [hatOk, Bool.and_eq_true, decide_eq_true_eq] at h
    refine quiet_cons ?_ (ih h.2)
    rw [run_eq_nil]
    intro u post' hu ht
    simp only [ePow, takes_cat_cons, takes_lit, takes_notAhead, takes_cat_nil] at ht
    obtain ⟨v, w, rfl, hv, v2, w2, rfl, ⟨rfl, hn⟩, rfl⟩ := ht
    subst hv
    simp only [List.append_nil] at hu
    have hp : c :: (s ++ post) = post' := (List.cons.inj hu).2
    exact hn [c] (s ++ post) (by simp [← hp]) (takes_of.2 ⟨c, h.1, rfl⟩)
  | case4 c s h1 h2 ih =>
    have h : hatOk s = true := by
      rw [hatOk] at h
      · exact h
      · exact h1
      · exact h2
    by_cases hc : c = '^'
    · subst hc
      rcases s with _ | ⟨y, s⟩
      · exact absurd rfl (h1 rfl)
      · exact absurd rfl (h2 y s rfl)
    · exact quiet_cons (hno hc) (ih h)

/-- Texts that the substitutions of particles_eval.py:110-119 leave as they are. -/
theorem tidy_same {t : List Char} (h : FreeOf ['−', '\\', '<', '>', '}', '{', '\n', ' '] t) (hh : hatOk t = true) :
    runPasses passesTidy t = t := by
  have hl : ∀ (s : String) (c : Char) (f : List Char → List Char), c ∈ s.toList → c ∈ ['−', '\\', '<', '>', '}', '{', '\n', ' '] →
      (lit s).sub f 0 [] t = t := fun s c f hc hl =>
    sub_missing (c := c) (fun pre u post ht => by rw [takes_lit] at ht; rw [ht]; exact hc) (h c hl)
  have hc : ∀ (s : String) (rs : List RE) (c : Char) (f : List Char → List Char), c ∈ s.toList →
      c ∈ ['−', '\\', '<', '>', '}', '{', '\n', ' '] → (cat (lit s :: rs)).sub f 0 [] t = t := fun s rs c f hc hl =>
    sub_missing (c := c) (fun pre u post ht => by
      rw [takes_cat_cons] at ht
      obtain ⟨v, w, rfl, hv, -⟩ := ht
      rw [takes_lit] at hv
      rw [hv]
      exact List.mem_append_left _ hc) (h c hl)
  have hp : ∀ f, ePow.sub f 0 [] t = t := fun f => sub_none (quiet_hat hh)
  simp only [passesTidy, runPasses, replace, List.foldl_cons, List.foldl_nil]
  rw [hl _ '−' _ (by decide) (by decide), hl _ '\\' _ (by decide) (by decide), hl _ '<' _ (by decide) (by decide),
    hl _ '>' _ (by decide) (by decide), hl _ '\\' _ (by decide) (by decide), hl _ '}' _ (by decide) (by decide),
    hl _ '}' _ (by decide) (by decide), hl _ '\n' _ (by decide) (by decide), hl _ ' ' _ (by decide) (by decide),
    hc _ _ '}' _ (by decide) (by decide)]
  have := hp (fun _ => "**".toList)
  rw [ePow] at this
  rw [this, hc _ _ '{' _ (by decide) (by decide)]

/-- C106: in `⟨a_|..|b_⟩`, `⟨a_|..|b^]`, `[a^|..|b_⟩` and `[a^|..|b^]`, with digits, signs and bars between the ends and labels of any number of
digits, each end is rewritten with the components `a`, `a + 1` and `b`, `b + 1` and nothing else is touched. -/
theorem C106_spin_text (sq sq' : Bool) (a b : ℕ) (mid : List Char) (hne : mid ≠ []) (hmid : ∀ c ∈ mid, c ∈ midChars) :
    runPasses passesMassive (spinOpen sq a ++ (mid ++ spinClose sq' b)) =
      markRow sq a ++ "@|".toList ++ mid ++ "|@".toList ++ markCol sq' b := by
  rw [runPasses_massive, fourSubs_spin _ _ _ _ _ hmid]
  obtain ⟨x, rest, rfl⟩ := List.exists_cons_of_ne_nil hne
  have hx : '@' ∉ x :: rest := fun h => absurd (hmid _ h) (by decide)
  have hq : (lit "@|@").Quiet [] (markRow sq a ++ ('@' :: '|' :: (x :: rest ++ '|' :: '@' :: markCol sq' b))) [] := by
    refine quiet_append (quiet_at (markRow_at sq a)) (quiet_cons (run_at ?_) (quiet_at ?_))
    · intro s hs
      simp only [List.cons_append, List.cons.injEq, true_and] at hs
      exact hx (by rw [hs.1]; simp)
    · have h3 : atOk ('|' :: '@' :: markCol sq' b) = true := by
        have : atOk ("|@(".toList ++ (markCol sq' b).tail) = true := by
          refine atOk_append (by decide) ?_
          have := markCol_at sq' b
          cases sq' <;> exact this
        cases sq' <;> exact this
      exact atOk_append (a := '|' :: (x :: rest)) (atOk_free (by simp only [List.mem_cons, not_or] at hx ⊢; exact ⟨by decide, hx⟩)) h3
  rw [sub_quiet_all hq]
  simp

/-- C106: `⟨a_|b_⟩`, `⟨a_|b^]`, `[a^|b_⟩` and `[a^|b^]` are rewritten as the product of the row and the column. -/
theorem C106_spin_touch (sq sq' : Bool) (a b : ℕ) :
    runPasses passesMassive (spinOpen sq a ++ (spinClose sq' b).tail) = markRow sq a ++ '@' :: markCol sq' b := by
  rw [runPasses_massive, fourSubs_touch, sub_quiet (quiet_at (markRow_at sq a))]
  have hh : (lit "@|@").Hit ((markRow sq a).reverse ++ []) "@|@".toList (markCol sq' b) := ⟨by decide, head_lit⟩
  have := sub_hit (f := fun _ => ['@']) hh
  rw [show '@' :: '|' :: '@' :: markCol sq' b = "@|@".toList ++ markCol sq' b from rfl, this, sub_quiet_all (quiet_at (markCol_at sq' b))]
  rfl

theorem hatOk_open (sq : Bool) (a : ℕ) : hatOk (spinOpen sq a) = true := by
  have hp : ∀ x, x ≠ '^' → hatOk (x :: pyStr a) = true := fun x hx =>
    hatOk_free (by simp only [List.mem_cons, not_or]; exact ⟨hx.symm, not_mem_pyStr (by decide) a⟩)
  cases sq
  · exact hatOk_append (a := '⟨' :: pyStr a) (hp _ (by decide)) (by decide)
  · exact hatOk_append (a := '[' :: pyStr a) (hp _ (by decide)) (by decide)

theorem hatOk_close (sq : Bool) (b : ℕ) : hatOk (spinClose sq b) = true ∧ hatOk (spinClose sq b).tail = true := by
  have hp : hatOk (pyStr b) = true := hatOk_free (not_mem_pyStr (by decide) b)
  have hp1 : hatOk ('|' :: pyStr b) = true := hatOk_append (a := ['|']) (by decide) hp
  cases sq
  · exact ⟨hatOk_append (a := '|' :: pyStr b) hp1 (by decide), hatOk_append hp (by decide)⟩
  · exact ⟨hatOk_append (a := '|' :: pyStr b) hp1 (by decide), hatOk_append hp (by decide)⟩

/-- C106: `_parse` begins on these texts with rewriting their ends: what it does to them is what its later substitutions do to the texts with
`ϵ`. -/
theorem C106_spin_parse (sq sq' : Bool) (a b : ℕ) :
    (∀ mid, mid ≠ [] → (∀ c ∈ mid, c ∈ midChars) →
      parseText (spinOpen sq a ++ (mid ++ spinClose sq' b)) =
        runPasses (passesNames ++ passesOpen ++ passesEnd) (markRow sq a ++ "@|".toList ++ mid ++ "|@".toList ++ markCol sq' b)) ∧
    parseText (spinOpen sq a ++ (spinClose sq' b).tail) =
      runPasses (passesNames ++ passesOpen ++ passesEnd) (markRow sq a ++ '@' :: markCol sq' b) := by
  have hrun : ∀ t, runPasses passesTidy t = t → parseText t = runPasses (passesNames ++ passesOpen ++ passesEnd) (runPasses passesMassive t) := by
    intro t ht
    conv_rhs => rw [← ht]
    simp only [parseText, runPasses, List.foldl_append]
  have ho : FreeOf ['−', '\\', '<', '>', '}', '{', '\n', ' '] (spinOpen sq a) := by
    cases sq <;> exact .cons (by decide) ((freeOf_pyStr (by decide) a).append (by unfold FreeOf; decide))
  have hc : FreeOf ['−', '\\', '<', '>', '}', '{', '\n', ' '] (spinClose sq' b) := by
    cases sq' <;> exact .cons (by decide) ((freeOf_pyStr (by decide) b).append (by unfold FreeOf; decide))
  constructor
  · intro mid hne hmid
    rw [hrun, C106_spin_text _ _ _ _ _ hne hmid]
    refine tidy_same (ho.append ((freeOf_mid hmid (by decide)).append hc)) ?_
    exact hatOk_append (hatOk_open sq a) (hatOk_append (hatOk_free fun h => absurd (hmid _ h) (by decide)) (hatOk_close sq' b).1)
  · rw [hrun, C106_spin_touch]
    refine tidy_same (ho.append fun c hcc h => hc c hcc (List.mem_of_mem_tail h)) ?_
    exact hatOk_append (hatOk_open sq a) (hatOk_close sq' b).2

example : runPasses passesMassive "⟨5_|1+2|3^]".toList =
    "(ϵ@block([[⟨5|], [⟨6|]]))[0:1, :]@|1+2|@(block([|3], |4]])@ϵ)[:, 0:1]".toList := by decide +kernel

example : spinOpen false 5 ++ ("1+2".toList ++ spinClose true 3) = "⟨5_|1+2|3^]".toList ∧
    ∀ c ∈ "1+2".toList, c ∈ midChars := by decide +kernel

example : spinOpen true 12 ++ (spinClose false 3).tail = "[12^|3_⟩".toList := by decide +kernel

end Lips

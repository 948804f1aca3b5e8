import Verif.Props.OpenBroken
import Verif.Lemmas.ParseOpen

/-!
Property C106 on texts: pieces open at the left whose last label before the bar has two digits or more are broken up, whatever the labels
(particles_eval.py:31-35, 47-54, 109-164). With `C106_open_begin` this says which of these pieces `_parse` finds.
-/

namespace Lips

open RE

/-- The last label has two digits or more. -/
theorem signedSum_last_two {d : ℕ} {ss : List (Bool × ℕ)} (h : 10 ≤ lastLabel d ss) :
    ∃ s g k, g.isDigit = true ∧ k.isDigit = true ∧ '|' :: signedSum d ss = s ++ [g, k] := by
  have two : ∀ m, 10 ≤ m → ∃ s g k, g.isDigit = true ∧ k.isDigit = true ∧ pyStr m = s ++ [g, k] := by
    intro m hm
    obtain ⟨c, e, s, -, -, h1⟩ := pyStr_two hm
    rcases List.eq_nil_or_concat s with rfl | ⟨s1, k, rfl⟩
    · exact ⟨[], c, e, pyStr_digits m c (by rw [h1]; simp), pyStr_digits m e (by rw [h1]; simp), h1⟩
    · rw [List.concat_eq_append] at h1
      rcases List.eq_nil_or_concat s1 with rfl | ⟨s2, g, rfl⟩
      · exact ⟨[c], e, k, pyStr_digits m e (by rw [h1]; simp), pyStr_digits m k (by rw [h1]; simp), h1⟩
      · rw [List.concat_eq_append] at h1
        exact ⟨c :: e :: s2, g, k, pyStr_digits m g (by rw [h1]; simp), pyStr_digits m k (by rw [h1]; simp), by rw [h1]; simp⟩
  rcases List.eq_nil_or_concat ss with rfl | ⟨rs, p, rfl⟩
  · obtain ⟨s, g, k, hg, hk, e⟩ := two d h
    exact ⟨'|' :: s, g, k, hg, hk, by simp [signedSum, e]⟩
  · rw [List.concat_eq_append] at h ⊢
    obtain ⟨s, g, k, hg, hk, e⟩ := two p.2 (by simpa [lastLabel] using h)
    exact ⟨'|' :: signedSum d rs ++ (if p.1 then '+' else '-') :: s, g, k, hg, hk, by simp [signedSum, e]⟩

/-- Where a bar, digits and a closing bracket can be. -/
theorem close_pos {l A b1 ds B z : List Char} {x c : Char} (hA : FreeOf l A) (hb : '|' ∉ l) (hB : '|' ∉ B ++ [x])
    (hd : ∀ c ∈ ds, c.isDigit = true) (hc : c ∈ l) (e : A ++ '|' :: (B ++ [x]) = b1 ++ '|' :: (ds ++ c :: z)) : b1 = A := by
  rcases List.append_eq_append_iff.1 e with ⟨q, h5, h6⟩ | ⟨q, h5, h6⟩
  · rcases q with _ | ⟨y, q⟩
    · simpa using h5
    · rw [List.cons_append] at h6
      exact absurd (by rw [(List.cons.inj h6).2]; simp) hB
  · rcases q with _ | ⟨y, q⟩
    · simpa using h5.symm
    · rw [List.cons_append] at h6
      have hq : ∀ g ∈ q, g ∉ l := fun g hg hgl => hA g hgl (by rw [h5]; simp [hg])
      rcases List.append_eq_append_iff.1 (List.cons.inj h6).2 with ⟨q', h7, h8⟩ | ⟨q', h7, h8⟩
      · rcases q' with _ | ⟨y, q'⟩
        · exact absurd (by rw [← (List.cons.inj h8).1]; exact hc) hb
        · rw [List.cons_append] at h8
          exact absurd hc (hq c (by rw [h7, (List.cons.inj h8).1]; simp))
      · rcases q' with _ | ⟨y, q'⟩
        · exact absurd (by rw [(List.cons.inj h8).1]; exact hc) hb
        · rw [List.cons_append] at h8
          have := hd y (by rw [h7]; simp)
          rw [← (List.cons.inj h8).1] at this
          exact absurd this (by decide)

section Right
variable {r o : RE} {S : String} {x : Char} {l : List Char}

theorem right_takes
    (hr : r = cat [notOpened, .notBehind [among S, Char.isDigit], .notBehind [among "+|-", Char.isDigit, among ")"],
      .notBehind [among "+|-", Char.isDigit], lit "|", some1 dig, o, notClosed])
    (ho : ∀ pre u post, o.Takes pre u post ↔ ∃ c ∈ l, u = [c]) {pre u post : List Char} (h : r.Takes pre u post) :
    ∃ ds c, (∀ c ∈ ds, c.isDigit = true) ∧ c ∈ l ∧ u = '|' :: (ds ++ [c]) := by
  rw [hr] at h
  obtain ⟨_, _, rfl, h0, h⟩ := takes_cat_cons.1 h
  obtain ⟨rfl, -⟩ := takes_notBehind.1 h0
  obtain ⟨_, _, rfl, h0, h⟩ := takes_cat_cons.1 h
  obtain ⟨rfl, -⟩ := takes_notBehind.1 h0
  obtain ⟨_, _, rfl, h0, h⟩ := takes_cat_cons.1 h
  obtain ⟨rfl, -⟩ := takes_notBehind.1 h0
  obtain ⟨_, _, rfl, h0, h⟩ := takes_cat_cons.1 h
  obtain ⟨rfl, -⟩ := takes_notBehind.1 h0
  obtain ⟨v, _, rfl, h1, h⟩ := takes_cat_cons.1 h
  rw [takes_lit] at h1
  have h1 : v = ['|'] := h1
  subst h1
  obtain ⟨ds, _, rfl, h2, h⟩ := takes_cat_cons.1 h
  obtain ⟨-, hd⟩ := takes_plus_dig.1 h2
  obtain ⟨_, w, rfl, h3, h⟩ := takes_cat_cons.1 h
  obtain ⟨c, hc, rfl⟩ := (ho _ _ _).1 h3
  obtain ⟨rfl, -⟩ := takes_notClosed h
  exact ⟨ds, c, hd, hc, by simp⟩

/-- `|b⟩` and `|b]` after a label of two digits or more are taken for spinors alone. -/
theorem right_broken
    (hr : r = cat [notOpened, .notBehind [among S, Char.isDigit], .notBehind [among "+|-", Char.isDigit, among ")"],
      .notBehind [among "+|-", Char.isDigit], lit "|", some1 dig, o, notClosed])
    (hS : ∀ c ∈ S.toList, c.isDigit = false) (ho : ∀ pre u post, o.Takes pre u post ↔ ∃ c ∈ l, u = [c]) (hl : ∀ c ∈ l, c.isDigit = false)
    (hs : '+' ∉ l ∧ '-' ∉ l) (hb : '|' ∉ l) (hx : x ∈ l) {d : ℕ} {ss : List (Bool × ℕ)} (h : 10 ≤ lastLabel d ss) (b : ℕ) :
    r.sub wrap 0 [] (('|' :: signedSum d ss) ++ '|' :: (pyStr b ++ [x])) = ('|' :: signedSum d ss) ++ wrap ('|' :: (pyStr b ++ [x])) := by
  have hA : FreeOf l ('|' :: signedSum d ss) := .cons hb (signedSum_free hl hs d ss)
  have hB : '|' ∉ pyStr b ++ [x] := by
    simp only [List.mem_append, List.mem_singleton, not_or]
    exact ⟨not_mem_pyStr (by decide) b, fun h => hb (h ▸ hx)⟩
  have hq : r.Quiet [] ('|' :: signedSum d ss) ('|' :: (pyStr b ++ [x])) := by
    intro b1 y b2 e
    rw [run_eq_nil]
    intro u post hu hk
    obtain ⟨ds, c, hd, hc, rfl⟩ := right_takes hr ho hk
    have e2 : ('|' :: signedSum d ss) ++ '|' :: (pyStr b ++ [x]) = b1 ++ '|' :: (ds ++ c :: post) := by
      rw [e, List.append_assoc, List.cons_append, hu]
      simp
    have := congrArg List.length (close_pos hA hb hB hd hc e2)
    rw [e] at this
    simp at this
  obtain ⟨s, g, k, hg, hk, hgk⟩ := signedSum_last_two h
  have kne : ∀ t : String, (∀ c ∈ t.toList, c.isDigit = false) → ∀ y : Char, y.isDigit = true → among t y = false := by
    intro t ht y hy
    simp only [among, decide_eq_false_iff_not]
    intro hm
    rw [ht y hm] at hy
    simp at hy
  have hh : r.Hit (('|' :: signedSum d ss).reverse ++ []) ('|' :: (pyStr b ++ [x])) [] := by
    have hpre : ('|' :: signedSum d ss).reverse ++ [] = k :: g :: s.reverse := by rw [hgk]; simp
    rw [hpre]
    refine ⟨by simp, head_unique ?_ ?_⟩
    · rw [hr]
      refine takes_cat_cons.2 ⟨[], _, rfl, takes_notBehind.2 ⟨rfl, ?_⟩, ?_⟩
      · have : k ≠ '\'' := by rintro rfl; exact absurd hk (by decide)
        simp [endsIn, this]
      refine takes_cat_cons.2 ⟨[], _, rfl, takes_notBehind.2 ⟨rfl, ?_⟩, ?_⟩
      · simp [endsIn, kne S hS g hg]
      refine takes_cat_cons.2 ⟨[], _, rfl, takes_notBehind.2 ⟨rfl, ?_⟩, ?_⟩
      · simp [endsIn, kne ")" (by decide) k hk]
      refine takes_cat_cons.2 ⟨[], _, rfl, takes_notBehind.2 ⟨rfl, ?_⟩, ?_⟩
      · simp [endsIn, kne "+|-" (by decide) g hg]
      refine takes_cat_cons.2 ⟨['|'], pyStr b ++ [x], rfl, takes_lit.2 rfl, ?_⟩
      refine takes_cat_cons.2 ⟨pyStr b, [x], rfl, takes_plus_dig.2 ⟨pyStr_ne_nil _, pyStr_digits _⟩, ?_⟩
      refine takes_cat_cons.2 ⟨[x], [], rfl, (ho _ _ _).2 ⟨x, hx, rfl⟩, ?_⟩
      exact takes_cat_cons.2 ⟨[], [], rfl, notClosed_nil, takes_cat_nil.2 rfl⟩
    · intro v w e hv
      obtain ⟨ds, c, hd, hc, rfl⟩ := right_takes hr ho hv
      have e' : pyStr b ++ x :: [] = ds ++ c :: w := by simpa using e
      obtain ⟨rfl, rfl, -⟩ := digits_eq (pyStr_digits b) hd (hl x hx) (hl c hc) e'
      rfl
  have h1 := sub_quiet (f := wrap) hq
  have h2 := sub_hit_all (f := wrap) hh
  rw [h1, h2]

end Right

/-- Two bars with an `o` between them. -/
theorem gap_same {r : RE} {f : List Char → List Char} {p q : List Char} (h2 : TwoBars r) (ho : ∀ pre u post, r.Takes pre u post → 'o' ∉ u)
    (hp : p.count '|' = 1) (hq : q.count '|' = 1) : r.sub f 0 [] (p ++ 'o' :: q) = p ++ 'o' :: q := by
  apply sub_none
  intro b1 x b2 e
  rw [run_eq_nil]
  intro u post hu hk
  have hb := h2 _ _ _ hk
  have hn := ho _ _ _ hk
  rw [List.append_nil] at hu
  rw [hu] at e
  rcases List.append_eq_append_iff.1 e with ⟨k, h1, h3⟩ | ⟨k, h1, h3⟩
  · rcases k with _ | ⟨y, k⟩
    · rcases u with _ | ⟨y, u⟩
      · simp at hb
      · rw [List.nil_append, List.cons_append] at h3
        exact hn (by rw [(List.cons.inj h3).1]; simp)
    · rw [List.cons_append] at h3
      rw [(List.cons.inj h3).2, List.count_append, List.count_append] at hq
      omega
  · rcases List.append_eq_append_iff.1 h3 with ⟨j, h4, h5⟩ | ⟨j, h4, h5⟩
    · rw [h1, List.count_append, h4, List.count_append] at hp
      omega
    · rcases j with _ | ⟨y, j⟩
      · rw [List.append_nil] at h4
        rw [h1, List.count_append, ← h4] at hp
        omega
      · rw [List.cons_append] at h5
        exact hn (by rw [h4, ← (List.cons.inj h5).1]; simp)

theorem double_chars {a b c d e f g : RE} (ha : a.isTest = true) (hb : b.isTest = true) (hc : c.isTest = true) (hd : d.isTest = true)
    (he : e.isTest = true) (hf : f.isTest = true) (hg : g.isTest = true) {pre u post : List Char}
    (h : (cat [a, b, c, d, lit "|", some1 (.alt wideSlot openSlot), lit "|", e, f, g]).Takes pre u post) : 'o' ∉ u := by
  obtain ⟨_, _, rfl, h0, h⟩ := takes_cat_cons.1 h
  obtain rfl := isTest_takes ha h0
  obtain ⟨_, _, rfl, h0, h⟩ := takes_cat_cons.1 h
  obtain rfl := isTest_takes hb h0
  obtain ⟨_, _, rfl, h0, h⟩ := takes_cat_cons.1 h
  obtain rfl := isTest_takes hc h0
  obtain ⟨_, _, rfl, h0, h⟩ := takes_cat_cons.1 h
  obtain rfl := isTest_takes hd h0
  obtain ⟨_, _, rfl, h1, h⟩ := takes_cat_cons.1 h
  rw [takes_lit] at h1
  obtain ⟨m, _, rfl, hm, h⟩ := takes_cat_cons.1 h
  have hmc := takes_plus_chars (fun pre u post h => (takes_alt.1 h).elim takes_wideSlot_chars takes_openSlot_chars) hm
  obtain ⟨_, _, rfl, h2, h⟩ := takes_cat_cons.1 h
  rw [takes_lit] at h2
  obtain ⟨_, _, rfl, h0, h⟩ := takes_cat_cons.1 h
  obtain rfl := isTest_takes he h0
  obtain ⟨_, _, rfl, h0, h⟩ := takes_cat_cons.1 h
  obtain rfl := isTest_takes hf h0
  obtain ⟨_, _, rfl, h0, h⟩ := takes_cat_cons.1 h
  obtain rfl := isTest_takes hg h0
  rw [takes_cat_nil] at h
  subst h h1 h2
  simp only [List.mem_append, List.not_mem_nil, not_or, not_false_eq_true, true_and, and_true]
  refine ⟨by decide, fun hm' => ?_, by decide⟩
  rcases hmc 'o' hm' with h | h
  · exact absurd h (by decide)
  · exact absurd h (by decide)

/-- A digit and this character next to each other, if the character comes once and not after a digit. -/
theorem pair_prev_same {r : RE} {f : List Char → List Char} {c y : Char} {p q : List Char}
    (hr : ∀ pre u post, r.Takes pre u post → ∃ d, u = [d, c] ∧ d.isDigit = true) (hy : y.isDigit = false) (hp : c ∉ p ++ [y]) (hq : c ∉ q) :
    r.sub f 0 [] ((p ++ [y]) ++ c :: q) = (p ++ [y]) ++ c :: q := by
  apply sub_none
  intro b1 x b2 e
  rw [run_eq_nil]
  intro u post hu hk
  obtain ⟨d, rfl, hd⟩ := hr _ _ _ hk
  rw [List.append_nil] at hu
  rw [hu] at e
  have e : (p ++ [y]) ++ c :: q = (b1 ++ [d]) ++ c :: post := by simpa using e
  have key : p ++ [y] = b1 ++ [d] := by
    rcases List.append_eq_append_iff.1 e with ⟨k, h1, h2⟩ | ⟨k, h1, h2⟩
    · rcases k with _ | ⟨z, k⟩
      · simpa using h1.symm
      · rw [List.cons_append] at h2
        exact absurd (by rw [(List.cons.inj h2).2]; simp) hq
    · rcases k with _ | ⟨z, k⟩
      · simpa using h1
      · rw [List.cons_append] at h2
        exact absurd (by rw [h1, ← (List.cons.inj h2).1]; simp) hp
  have := congrArg List.getLast? key
  rw [List.getLast?_concat, List.getLast?_concat, Option.some.injEq] at this
  rw [this, hd] at hy
  simp at hy

/-- A digit before `oPs` gets a `*` after it. -/
theorem dig_star {p s : List Char} {k : Char} (hk : k.isDigit = true) (hp : 'o' ∉ p) (hs : 'o' ∉ s) :
    (cat [dig, lit "o"]).sub starLast 0 [] (p ++ k :: 'o' :: s) = p ++ k :: '*' :: 'o' :: s := by
  have hr : ∀ pre u post, (cat [dig, lit "o"]).Takes pre u post → ∃ y, u = [y, 'o'] := by
    intro pre u post h
    simp only [takes_cat_cons, takes_cat_nil, takes_lit, takes_dig] at h
    obtain ⟨_, _, rfl, ⟨d, rfl, -⟩, _, _, rfl, rfl, rfl⟩ := h
    exact ⟨d, rfl⟩
  have hko : k ≠ 'o' := by rintro rfl; exact absurd hk (by decide)
  have hq : (cat [dig, lit "o"]).Quiet [] p (k :: 'o' :: s) := by
    intro b1 x b2 e
    rw [run_eq_nil]
    intro u post hu ht
    obtain ⟨y, rfl⟩ := hr _ _ _ ht
    rw [List.cons_append, List.cons_append, List.nil_append] at hu
    rcases b2 with _ | ⟨z, b2⟩
    · exact hko (List.cons.inj (List.cons.inj hu).2).1
    · rw [List.cons_append] at hu
      exact hp (by rw [e, ← (List.cons.inj (List.cons.inj hu).2).1]; simp)
  have hh : (cat [dig, lit "o"]).Hit (p.reverse ++ []) [k, 'o'] s := by
    refine ⟨by simp, head_unique ?_ ?_⟩
    · exact takes_cat_cons.2 ⟨[k], ['o'], rfl, takes_dig.2 ⟨k, rfl, hk⟩, takes_cat_cons.2 ⟨['o'], [], rfl, takes_lit.2 rfl, takes_cat_nil.2 rfl⟩⟩
    · intro v w e hv
      obtain ⟨y, rfl⟩ := hr _ _ _ hv
      simp only [List.cons_append, List.nil_append, List.cons.injEq] at e
      rw [e.1]
  have hn : Needs (cat [dig, lit "o"]) ['o'] := needs_cat 1 rfl (needs_lit (by decide))
  have h1 := sub_quiet (f := starLast) hq
  have h2 := sub_hit (f := starLast) hh
  have h3 := sub_quiet (f := starLast) (hn.quiet (pre := [k, 'o'].reverse ++ (p.reverse ++ [])) (t := s) (post := [])
    (by rw [List.append_nil]; intro c hc; rw [List.mem_singleton] at hc; rw [hc]; exact hs))
  rw [List.append_nil s] at h3
  rw [h1, show k :: 'o' :: s = [k, 'o'] ++ s from rfl, h2, h3]
  simp [starLast, sub]

/-- C106: `|a|b⟩`, `|a+b|c]`, … are broken up if the last label before the bar has two digits or more: the spinor is taken alone, the bar and the
sum are left. -/
theorem C106_open_begin_wrong {d : ℕ} {ss : List (Bool × ℕ)} (h : 10 ≤ lastLabel d ss) (sq : Bool) (b : ℕ) :
    parseText (openBeginPiece sq d ss b) = ('|' :: signedSum d ss) ++ ("*oPs('".toList ++ openSpinor true sq b ++ "')".toList) := by
  have free : ∀ l, (∀ c ∈ l, c.isDigit = false) → ('+' ∉ l ∧ '-' ∉ l) → '|' ∉ l → (if sq then ']' else '⟩') ∉ l →
      FreeOf l (openBeginPiece sq d ss b) := fun l h1 h2 h3 h4 => openBeginPiece_free h1 h2 h3 h4 d ss b
  have hsp : openSpinor true sq b = '|' :: (pyStr b ++ [if sq then ']' else '⟩']) := by simp [openSpinor]
  have sfree : ∀ l, (∀ c ∈ l, c.isDigit = false) → '|' ∉ l → (if sq then ']' else '⟩') ∉ l → FreeOf l (openSpinor true sq b) :=
    fun l h1 h3 h4 => openSpinor_free true sq b h1 h3 (by simpa using h4)
  have afree : ∀ l, (∀ c ∈ l, c.isDigit = false) → ('+' ∉ l ∧ '-' ∉ l) → '|' ∉ l → FreeOf l ('|' :: signedSum d ss) :=
    fun l h1 h2 h3 => .cons h3 (signedSum_free h1 h2 d ss)
  have wfree : ∀ l, (∀ c ∈ l, c.isDigit = false) → ('+' ∉ l ∧ '-' ∉ l) → '|' ∉ l → (if sq then ']' else '⟩') ∉ l → FreeOf l "oPs('')".toList →
      FreeOf l (('|' :: signedSum d ss) ++ wrap (openSpinor true sq b)) :=
    fun l h1 h2 h3 h4 h5 => (afree l h1 h2 h3).append (wrap_free (sfree l h1 h3 h4) h5)
  have hx : (if sq then ']' else '⟩') ≠ '|' := by cases sq <;> decide
  have hn : '|' ∉ signedSum d ss := signedSum_free (l := ['|']) (by decide) (by decide) d ss '|' (by simp)
  have hb : '|' ∉ pyStr b := not_mem_pyStr (by decide) b
  have hopen : runPasses passesOpen (openBeginPiece sq d ss b) = ('|' :: signedSum d ss) ++ wrap (openSpinor true sq b) := by
    have nAu : Needs eAu ['⟨', '<'] := needs_cat 1 rfl (needs_of (by decide))
    have nAd : Needs eAd ['⟩', '>'] := needs_cat 6 rfl (needs_of (by decide))
    have nSd : Needs eSd ['['] := needs_cat 1 rfl (needs_lit (by decide))
    have nSu : Needs eSu [']'] := needs_cat 6 rfl (needs_lit (by decide))
    have nE : Needs eOpenEnd ['⟨', '<', '['] := needs_cat 1 rfl (needs_of (by decide))
    have gap : ∀ (r : RE) (f : List Char → List Char), TwoBars r → (∀ pre u post, r.Takes pre u post → 'o' ∉ u) →
        r.sub f 0 [] (('|' :: signedSum d ss) ++ wrap (openSpinor true sq b)) = ('|' :: signedSum d ss) ++ wrap (openSpinor true sq b) := by
      intro r f h1 h2
      have e2 : wrap (openSpinor true sq b) = 'o' :: ("Ps('".toList ++ '|' :: (pyStr b ++ [if sq then ']' else '⟩', '\'', ')'])) := by
        rw [hsp]; simp [wrap]
      rw [e2]
      refine gap_same h1 h2 ?_ ?_
      · rw [List.count_cons_self, List.count_eq_zero.2 hn]
      · rw [List.count_append, List.count_cons_self, List.count_append, List.count_eq_zero.2 hb, List.count_cons_of_ne hx]
        decide
    have gB : ∀ f, eOpenBegin.sub f 0 [] (('|' :: signedSum d ss) ++ wrap (openSpinor true sq b)) = _ := fun f =>
      gap eOpenBegin f bars_openBegin fun pre u post h => by
        obtain ⟨v, c, rfl, hv, hc, -⟩ := takes_eOpenBegin h
        simp only [List.mem_cons, List.mem_append, List.not_mem_nil, or_false, not_or]
        refine ⟨by decide, fun h => ?_, ?_⟩
        · rcases hv 'o' h with h | h
          · exact absurd h (by decide)
          · exact absurd h (by decide)
        · rintro rfl
          exact absurd hc (by decide)
    have gD : ∀ f, eDoubleOpen.sub f 0 [] (('|' :: signedSum d ss) ++ wrap (openSpinor true sq b)) = _ := fun f =>
      gap eDoubleOpen f bars_doubleOpen fun pre u post h => double_chars rfl rfl rfl rfl rfl rfl rfl h
    have gDt : ∀ f, eDoubleOpenDot.sub f 0 [] (('|' :: signedSum d ss) ++ wrap (openSpinor true sq b)) = _ := fun f =>
      gap eDoubleOpenDot f bars_doubleOpenDot fun pre u post h => double_chars rfl rfl rfl rfl rfl rfl rfl h
    have hAd : sq = false → eAd.sub wrap 0 [] (openBeginPiece sq d ss b) = ('|' :: signedSum d ss) ++ wrap (openSpinor true sq b) := by
      rintro rfl
      rw [hsp]
      exact right_broken (S := "⟨|<") rfl (by decide) (takes_of_list rfl) (by decide) (by decide) (by decide) (by decide) h b
    have hSu : sq = true → eSu.sub wrap 0 [] (openBeginPiece sq d ss b) = ('|' :: signedSum d ss) ++ wrap (openSpinor true sq b) := by
      rintro rfl
      rw [hsp]
      exact right_broken (S := "[") rfl (by decide) (takes_lit_one rfl) (by decide) (by decide) (by decide) (by decide) h b
    simp only [passesOpen, runPasses, List.foldl_cons, List.foldl_nil]
    cases sq
    · rw [nAu.same (free _ (by decide) (by decide) (by decide) (by decide)), hAd rfl,
        nSd.same (wfree _ (by decide) (by decide) (by decide) (by decide) (by unfold FreeOf; decide)),
        nSu.same (wfree _ (by decide) (by decide) (by decide) (by decide) (by unfold FreeOf; decide)), gB,
        nE.same (wfree _ (by decide) (by decide) (by decide) (by decide) (by unfold FreeOf; decide)), gD, gDt]
    · rw [nAu.same (free _ (by decide) (by decide) (by decide) (by decide)), nAd.same (free _ (by decide) (by decide) (by decide) (by decide)),
        nSd.same (free _ (by decide) (by decide) (by decide) (by decide)), hSu rfl, gB,
        nE.same (wfree _ (by decide) (by decide) (by decide) (by decide) (by unfold FreeOf; decide)), gD, gDt]
  rw [parse_late (free _ (by decide) (by decide) (by decide) (by cases sq <;> decide))
    (.inr (free _ (by decide) (by decide) (by decide) (by cases sq <;> decide))), hopen]
  obtain ⟨s, g, k, hg, hk, hgk⟩ := signedSum_last_two h
  have hS : ∀ (r : RE) (f : List Char → List Char), (∀ pre u post, r.Takes pre u post → ∃ d, u = [d, 's'] ∧ d.isDigit = true) →
      r.sub f 0 [] (('|' :: signedSum d ss) ++ wrap (openSpinor true sq b)) = ('|' :: signedSum d ss) ++ wrap (openSpinor true sq b) := by
    intro r f hr
    have e : ('|' :: signedSum d ss) ++ wrap (openSpinor true sq b) =
        ((('|' :: signedSum d ss) ++ ['o']) ++ ['P']) ++ 's' :: ("('".toList ++ (openSpinor true sq b ++ "')".toList)) := by simp [wrap]
    rw [e]
    refine pair_prev_same hr (by decide) ?_ ?_
    · exact (((afree ['s'] (by decide) (by decide) (by decide)).append (by unfold FreeOf; decide)).append (by unfold FreeOf; decide)) 's' (by simp)
    · exact ((show FreeOf ['s'] "('".toList by unfold FreeOf; decide).append
        ((sfree ['s'] (by decide) (by decide) (by cases sq <;> decide)).append (by unfold FreeOf; decide))) 's' (by simp)
  have hO : (cat [dig, lit "o"]).sub starLast 0 [] (('|' :: signedSum d ss) ++ wrap (openSpinor true sq b)) =
      ('|' :: signedSum d ss) ++ '*' :: wrap (openSpinor true sq b) := by
    have e : ('|' :: signedSum d ss) ++ wrap (openSpinor true sq b) =
        (s ++ [g]) ++ k :: 'o' :: ("Ps('".toList ++ (openSpinor true sq b ++ "')".toList)) := by rw [hgk]; simp [wrap]
    have hf := afree ['o'] (by decide) (by decide) (by decide)
    rw [hgk] at hf
    rw [e, dig_star hk, hgk]
    · simp [wrap]
    · intro hm
      exact hf 'o' (by simp) (by rw [show s ++ [g, k] = (s ++ [g]) ++ [k] by simp]; exact List.mem_append_left _ hm)
    · exact ((show FreeOf ['o'] "Ps('".toList by unfold FreeOf; decide).append
        ((sfree ['o'] (by decide) (by decide) (by cases sq <;> decide)).append (by unfold FreeOf; decide))) 'o' (by simp)
  have hP : ∀ (r : RE) (f : List Char → List Char), (∀ pre u post, r.Takes pre u post → ∃ d, u = [d, '('] ∧ d.isDigit = true) →
      r.sub f 0 [] (('|' :: signedSum d ss) ++ '*' :: wrap (openSpinor true sq b)) = ('|' :: signedSum d ss) ++ '*' :: wrap (openSpinor true sq b) := by
    intro r f hr
    have e : ('|' :: signedSum d ss) ++ '*' :: wrap (openSpinor true sq b) =
        ((('|' :: signedSum d ss) ++ "*oP".toList) ++ ['s']) ++ '(' :: ('\'' :: (openSpinor true sq b ++ "')".toList)) := by simp [wrap]
    rw [e]
    refine pair_prev_same hr (by decide) ?_ ?_
    · exact (((afree ['('] (by decide) (by decide) (by decide)).append (by unfold FreeOf; decide)).append (by unfold FreeOf; decide)) '(' (by simp)
    · exact (FreeOf.cons (by decide) ((sfree ['('] (by decide) (by decide) (by cases sq <;> decide)).append (by unfold FreeOf; decide))) '(' (by simp)
  have last : ∀ (r : RE) (f : List Char → List Char), (∀ pre u post, r.Takes pre u post → ∃ y, u = [')', y]) →
      r.sub f 0 [] (('|' :: signedSum d ss) ++ '*' :: wrap (openSpinor true sq b)) = ('|' :: signedSum d ss) ++ '*' :: wrap (openSpinor true sq b) := by
    intro r f hr
    have e : ('|' :: signedSum d ss) ++ '*' :: wrap (openSpinor true sq b) =
        (('|' :: signedSum d ss) ++ ("*oPs('".toList ++ (openSpinor true sq b ++ ['\'']))) ++ [')'] := by simp [wrap]
    rw [e]
    refine pair_last_same hr ?_
    exact ((afree [')'] (by decide) (by decide) (by decide)).append ((show FreeOf [')'] "*oPs('".toList by unfold FreeOf; decide).append
      ((sfree [')'] (by decide) (by decide) (by cases sq <;> decide)).append (by unfold FreeOf; decide)))) ')' (by simp)
  have fin : ∀ l, (∀ c ∈ l, c.isDigit = false) → ('+' ∉ l ∧ '-' ∉ l) → '|' ∉ l → (if sq then ']' else '⟩') ∉ l → '*' ∉ l → FreeOf l "oPs('')".toList →
      FreeOf l (('|' :: signedSum d ss) ++ '*' :: wrap (openSpinor true sq b)) :=
    fun l h1 h2 h3 h4 h6 h5 => (afree l h1 h2 h3).append (.cons h6 (wrap_free (sfree l h1 h3 h4) h5))
  simp only [passesEnd, replace, runPasses, List.foldl_cons, List.foldl_nil]
  rw [(needs_lit (s := "sqrt") (l := ['q']) (by decide)).same (wfree _ (by decide) (by decide) (by decide) (by cases sq <;> decide) (by unfold FreeOf; decide)),
    hS (cat [dig, lit "s"]) _ ?_, hO, hP (cat [notAfter "tr", dig, lit "("]) _ ?_, last (cat [lit ")", dig]) _ ?_, last (lit ")(") _ ?_,
    last (lit ")o") _ ?_,
    (needs_cat (l := ['/']) 2 rfl (needs_lit (by decide))).same (fin _ (by decide) (by decide) (by decide) (by cases sq <;> decide) (by decide) (by unfold FreeOf; decide)),
    (needs_cat (l := ['b']) 1 rfl (needs_lit (by decide))).same (fin _ (by decide) (by decide) (by decide) (by cases sq <;> decide) (by decide) (by unfold FreeOf; decide))]
  · simp [wrap]
  · intro pre u post h
    rw [takes_lit] at h
    exact ⟨'o', h⟩
  · intro pre u post h
    rw [takes_lit] at h
    exact ⟨'(', h⟩
  · intro pre u post h
    simp only [takes_cat_cons, takes_cat_nil, takes_lit, takes_dig] at h
    obtain ⟨_, _, rfl, rfl, _, _, rfl, ⟨d, rfl, -⟩, rfl⟩ := h
    exact ⟨d, rfl⟩
  · intro pre u post h
    simp only [takes_cat_cons, takes_cat_nil, takes_lit, takes_dig, notAfter, takes_notBehind] at h
    obtain ⟨_, _, rfl, ⟨rfl, -⟩, _, _, rfl, ⟨d, rfl, hd⟩, _, _, rfl, rfl, rfl⟩ := h
    exact ⟨d, rfl, hd⟩
  · intro pre u post h
    simp only [takes_cat_cons, takes_cat_nil, takes_lit, takes_dig] at h
    obtain ⟨_, _, rfl, ⟨d, rfl, hd⟩, _, _, rfl, rfl, rfl⟩ := h
    exact ⟨d, rfl, hd⟩

/-- C106: a piece open at the left is found as one name exactly if the last label before the bar has one digit. -/
theorem C106_open_begin_iff (sq : Bool) (d : ℕ) (ss : List (Bool × ℕ)) (b : ℕ) :
    parseText (openBeginPiece sq d ss b) = "oPs('".toList ++ openBeginPiece sq d ss b ++ "')".toList ↔ lastLabel d ss < 10 := by
  refine ⟨fun h => ?_, fun h => C106_open_begin h sq b⟩
  by_contra hd
  rw [C106_open_begin_wrong (by omega)] at h
  have h : '|' :: _ = 'o' :: _ := h
  exact absurd (List.cons.inj h).1 (by decide)

example : openBeginPiece false 12 [] 3 = "|12|3⟩".toList ∧ parseText "|12|3⟩".toList = "|12*oPs('|3⟩')".toList := by decide +kernel

end Lips

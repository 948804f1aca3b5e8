import Verif.Props.OpenText

/-!
Property C94 for names of internal masses: in an expression `mt`, `m_H`, `mt2`, … are put in `oPs('..')` once (particles_eval.py:39, 137), but
not `ms2`, in which the end is taken for a Mandelstam invariant.
-/

namespace Lips

open RE

/-- ASCII letters without `k`, `q`, `r`, `P`, of which `block`, `sqrt`, `tr` and `oPs` have one each. -/
def massLetters : List Char := "abcdefghijlmnopstuvwxyzABCDEFGHIJKLMNOQRSTUVWXYZ".toList

/-- There are no digits, or the letter before them is none that names of invariants of particles begin with. -/
def MassEnd (ws ds : List Char) : Prop := ds = [] ∨ ∀ c ∈ ['s', 'S', 'm', 'M'], ws.getLast? ≠ some c

/-- `m`, `M` or `μ`, an underscore or not, letters, digits. -/
def massText (x : Char) (us : Bool) (ws ds : List Char) : List Char := x :: ((if us then ['_'] else []) ++ (ws ++ ds))

theorem Needs.quiet {r : RE} {l t pre post : List Char} (h : Needs r l) (ht : FreeOf l (t ++ post)) : r.Quiet pre t post := by
  intro b1 x b2 e
  rw [run_eq_nil]
  intro u post' hu hk
  obtain ⟨c, hc, hm⟩ := h _ _ _ hk
  refine ht c hc ?_
  rw [e, List.append_assoc, List.cons_append, hu]
  simp [hm]

/-- Open indices need a bar. -/
theorem open_none {t : List Char} (h : FreeOf ['|'] t) : runPasses passesOpen t = t := by
  have key : ∀ (r : RE) (f : List Char → List Char), Needs r ['|'] → r.sub f 0 [] t = t := fun r f hn => hn.same h
  simp only [passesOpen, runPasses, List.foldl_cons, List.foldl_nil]
  rw [key eAu _ (needs_cat 3 rfl (needs_lit (by decide))), key eAd _ (needs_cat 4 rfl (needs_lit (by decide))),
    key eSd _ (needs_cat 3 rfl (needs_lit (by decide))), key eSu _ (needs_cat 4 rfl (needs_lit (by decide))),
    key eOpenBegin _ (needs_cat 2 rfl (needs_lit (by decide))), key eOpenEnd _ (needs_cat 3 rfl (needs_lit (by decide))),
    key eDoubleOpen _ (needs_cat 4 rfl (needs_lit (by decide))), key eDoubleOpenDot _ (needs_cat 4 rfl (needs_lit (by decide)))]

section Mass
variable {x : Char} {us : Bool} {ws ds : List Char}

theorem massText_free {l : List Char} (hx : x ∈ ['m', 'M', 'μ']) (hw : ∀ c ∈ ws, c ∈ massLetters) (hd : ∀ c ∈ ds, c.isDigit = true)
    (h1 : FreeOf l ['m', 'M', 'μ', '_']) (h2 : FreeOf l massLetters) (h3 : ∀ c ∈ l, c.isDigit = false) : FreeOf l (massText x us ws ds) := by
  refine .cons (fun hxl => h1 x hxl ((by decide : ['m', 'M', 'μ'] ⊆ ['m', 'M', 'μ', '_']) hx)) (.append ?_ (.append ?_ ?_))
  · intro c hc hm
    refine h1 c hc ?_
    cases us <;> simp at hm
    simp [hm]
  · exact fun c hc hm => h2 c hc (hw c hm)
  · intro c hc hm
    have := hd c hm
    rw [h3 c hc] at this
    simp at this

theorem mass_no_digit (hx : x ∈ ['m', 'M', 'μ']) (hw : ∀ c ∈ ws, c ∈ massLetters) : ∀ c ∈ massText x us ws [], c.isDigit = false := by
  have hf : FreeOf "0123456789".toList (massText x us ws []) := by
    refine .cons ?_ (.append ?_ (.append ?_ ?_))
    · intro h
      exact (by decide : ∀ c ∈ ['m', 'M', 'μ'], c ∉ "0123456789".toList) x hx h
    · cases us <;> unfold FreeOf <;> decide
    · exact fun c hc hm => (by decide +kernel : ∀ c ∈ massLetters, c ∉ "0123456789".toList) c (hw c hm) hc
    · exact fun _ _ h => absurd h (by simp)
  intro c hc
  by_contra hdg
  rw [Bool.not_eq_false] at hdg
  exact hf c (digit_mem hdg) hc

/-- What is before the first digit. -/
theorem last_before {a b z ds : List Char} {y d : Char} (ha : ∀ c ∈ a, c.isDigit = false) (hds : ∀ c ∈ ds, c.isDigit = true)
    (hy : y.isDigit = false) (hd : d.isDigit = true) (e : a ++ ds = b ++ y :: d :: z) : a.getLast? = some y ∧ ds ≠ [] := by
  rcases List.append_eq_append_iff.1 e with ⟨q, h1, h2⟩ | ⟨q, h1, h2⟩
  · have := hds y (by rw [h2]; simp)
    rw [hy] at this
    simp at this
  · rcases q with _ | ⟨y', _ | ⟨d', q⟩⟩
    · have := hds y (by rw [List.nil_append] at h2; rw [← h2]; simp)
      rw [hy] at this
      simp at this
    · simp only [List.cons_append, List.nil_append, List.cons.injEq] at h2
      refine ⟨by rw [h1, ← h2.1]; simp, by rw [← h2.2]; simp⟩
    · simp only [List.cons_append, List.cons.injEq] at h2
      have := ha d' (by rw [h1]; simp)
      rw [← h2.2.1, hd] at this
      simp at this

/-- Invariants of particles, `s_12` and `m_1`, are not found in it. -/
theorem mass_not_particle {r : RE} {f : List Char → List Char}
    (hr : ∀ pre u post, r.Takes pre u post → ∃ c ∈ ['s', 'S', 'm', 'M'], ∃ d z, d.isDigit = true ∧ (u = c :: d :: z ∨ u = c :: '_' :: d :: z))
    (hx : x ∈ ['m', 'M', 'μ']) (hws : ws ≠ []) (hw : ∀ c ∈ ws, c ∈ massLetters) (hd : ∀ c ∈ ds, c.isDigit = true) (he : MassEnd ws ds) :
    r.sub f 0 [] (massText x us ws ds) = massText x us ws ds := by
  apply sub_none
  intro b1 y b2 e
  rw [run_eq_nil]
  intro u post hu hk
  obtain ⟨c, hc, d, z, hdd, hz⟩ := hr _ _ _ hk
  rw [List.append_nil] at hu
  rw [hu] at e
  have e0 : massText x us ws ds = massText x us ws [] ++ ds := by simp [massText]
  rw [e0] at e
  have hl : (massText x us ws []).getLast? = ws.getLast? := by
    obtain ⟨w, v, rfl⟩ := List.eq_nil_or_concat ws |>.resolve_left hws
    have : massText x us (w ++ [v]) [] = (x :: ((if us then ['_'] else []) ++ w)) ++ [v] := by simp [massText]
    rw [List.concat_eq_append, this, List.getLast?_concat, List.getLast?_concat]
  have hcd : c.isDigit = false := by
    clear hz; revert c; decide
  rcases hz with rfl | rfl
  · obtain ⟨h1, h2⟩ := last_before (mass_no_digit hx hw) hd hcd hdd (b := b1) (z := z ++ post) (by simpa using e)
    rcases he with he | he
    · exact h2 he
    · exact he c hc (by rw [← hl, h1])
  · obtain ⟨h1, -⟩ := last_before (mass_no_digit hx hw) hd (y := '_') (by decide) hdd (b := b1 ++ [c]) (z := z ++ post) (by simpa using e)
    rw [hl] at h1
    exact absurd (hw _ (List.mem_of_getLast? h1)) (by decide)

theorem takes_sijk (pre u post : List Char) (h : eSijk.Takes pre u post) :
    ∃ c ∈ ['s', 'S', 'm', 'M'], ∃ d z, d.isDigit = true ∧ (u = c :: d :: z ∨ u = c :: '_' :: d :: z) := by
  simp only [eSijk, takes_cat_cons, takes_cat_nil, takes_of, takes_plus_dig, takes_opt, takes_lit] at h
  obtain ⟨_, _, rfl, ⟨c, hc, rfl⟩, v, _, rfl, hv, ds, _, rfl, ⟨h1, h2⟩, rfl⟩ := h
  obtain ⟨d, z, rfl⟩ := List.exists_cons_of_ne_nil h1
  refine ⟨c, (by decide : "sS".toList ⊆ ['s', 'S', 'm', 'M']) hc, d, z, h2 d (by simp), ?_⟩
  rcases hv with rfl | rfl
  · exact .inr (by simp)
  · exact .inl (by simp)

theorem takes_mi (pre u post : List Char) (h : eMi.Takes pre u post) :
    ∃ c ∈ ['s', 'S', 'm', 'M'], ∃ d z, d.isDigit = true ∧ (u = c :: d :: z ∨ u = c :: '_' :: d :: z) := by
  simp only [eMi, takes_cat_cons, takes_cat_nil, takes_of, takes_dig, takes_opt, takes_lit] at h
  obtain ⟨_, _, rfl, ⟨c, hc, rfl⟩, v, _, rfl, hv, _, _, rfl, ⟨d, rfl, hd⟩, rfl⟩ := h
  refine ⟨c, (by decide : "mM".toList ⊆ ['s', 'S', 'm', 'M']) hc, d, [], hd, ?_⟩
  rcases hv with rfl | rfl
  · exact .inr (by simp)
  · exact .inl (by simp)

theorem mass_hit (hx : x ∈ ['m', 'M', 'μ']) (hws : ws ≠ []) (hw : ∀ c ∈ ws, c ∈ massLetters) (hd : ∀ c ∈ ds, c.isDigit = true) :
    eMVar.Hit [] (massText x us ws ds) [] := by
  have hl : ∀ c ∈ ws, asciiLetter c = true := fun c hc => (by decide +kernel : ∀ c ∈ massLetters, asciiLetter c = true) c (hw c hc)
  have hdl : ∀ c, ds.head? = some c → asciiLetter c = false := by
    intro c hc
    exact (by decide +kernel : ∀ c ∈ "0123456789".toList, asciiLetter c = false) c (digit_mem (hd c (List.mem_of_head? hc)))
  refine ⟨by simp [massText], ?_⟩
  have e : massText x us ws ds ++ [] = x :: ((if us then ['_'] else []) ++ (ws ++ (ds ++ []))) := by simp [massText]
  rw [e]
  refine head_cat_cons (y := ([], _)) rfl ?_
  refine head_cat_cons (y := ([x], _)) (head_cls (decide_eq_true ((by decide : ['m', 'M', 'μ'] ⊆ "mMμ".toList) hx))) ?_
  have h3 : ∀ pre, ((cat [star (cls asciiLetter), star dig]).run (pre, ws ++ (ds ++ []))).head? = some (ds.reverse ++ (ws.reverse ++ pre), []) := by
    intro pre
    refine head_cat_cons (head_star_cls hl (by simpa using hdl)) (head_cat_cons (head_star_cls hd (by simp)) head_cat_nil)
  cases us
  · have h4 : ((opt1 (lit "_")).run ([x], ws ++ (ds ++ []))).head? = some ([x], ws ++ (ds ++ [])) := by
      rw [opt1, head_alt_right]
      · rfl
      · rw [run_eq_nil]
        intro u post hu ht
        rw [takes_lit] at ht
        obtain ⟨y, ws', rfl⟩ := List.exists_cons_of_ne_nil hws
        have hy := (by decide +kernel : ∀ c ∈ massLetters, c ≠ '_') y (hw y (by simp))
        subst ht
        exact hy (List.cons.inj hu).1
    have := head_cat_cons h4 (h3 [x])
    simpa [massText] using this
  · have h4 : ((opt1 (lit "_")).run ([x], '_' :: (ws ++ (ds ++ [])))).head? = some (['_', x], ws ++ (ds ++ [])) :=
      head_alt_left (head_lit (t := "_") (pre := [x]) (post := ws ++ (ds ++ [])))
    have := head_cat_cons h4 (h3 ['_', x])
    simpa [massText] using this

/-- C94: the name of an internal mass, `m`, `M` or `μ` with letters and digits after it, is put in `oPs('..')` once, if it has none of the letters
`k`, `q`, `r`, `P` and the letter before the digits is not `s`, `S`, `m` or `M`. -/
theorem C94_mass_name (hx : x ∈ ['m', 'M', 'μ']) (hws : ws ≠ []) (hw : ∀ c ∈ ws, c ∈ massLetters) (hd : ∀ c ∈ ds, c.isDigit = true)
    (he : MassEnd ws ds) : parseText (massText x us ws ds) = "oPs('".toList ++ massText x us ws ds ++ "')".toList := by
  have free : ∀ l, FreeOf l ['m', 'M', 'μ', '_'] → FreeOf l massLetters → (∀ c ∈ l, c.isDigit = false) → FreeOf l (massText x us ws ds) :=
    fun l h1 h2 h3 => massText_free hx hw hd h1 h2 h3
  have fr : ∀ l, FreeOf l (['m', 'M', 'μ', '_'] ++ massLetters ++ "0123456789".toList) → FreeOf l (massText x us ws ds) := by
    intro l h
    refine free l (fun c hc hm => h c hc (by simp only [List.mem_append]; exact .inl (.inl hm)))
      (fun c hc hm => h c hc (by simp only [List.mem_append]; exact .inl (.inr hm))) ?_
    intro c hc
    by_contra hdg
    rw [Bool.not_eq_false] at hdg
    refine h c hc ?_
    simp only [List.mem_append]
    right
    exact digit_mem hdg
  have w : ∀ l, FreeOf l (['m', 'M', 'μ', '_'] ++ massLetters ++ "0123456789".toList) → FreeOf l "oPs('')".toList →
      FreeOf l (wrap (massText x us ws ds)) := by
    intro l h h2
    refine .append (.append ?_ (fr l h)) ?_
    · exact fun c hc hm => h2 c hc ((by decide : "oPs('".toList ⊆ "oPs('')".toList) hm)
    · exact fun c hc hm => h2 c hc ((by decide : "')".toList ⊆ "oPs('')".toList) hm)
  have raw : ∀ (r : RE) (l : List Char) (f : List Char → List Char), Needs r l →
      FreeOf l (['m', 'M', 'μ', '_'] ++ massLetters ++ "0123456789".toList) → r.sub f 0 [] (massText x us ws ds) = massText x us ws ds :=
    fun r l f hn h => hn.same (fr l h)
  have wr : ∀ (r : RE) (l : List Char) (f : List Char → List Char), Needs r l →
      FreeOf l (['m', 'M', 'μ', '_'] ++ massLetters ++ "0123456789".toList) → FreeOf l "oPs('')".toList →
      r.sub f 0 [] (wrap (massText x us ws ds)) = wrap (massText x us ws ds) := fun r l f hn h h2 => hn.same (w l h h2)
  have h1 : runPasses passesTidy (massText x us ws ds) = massText x us ws ds :=
    tidy_same (fr _ (by unfold FreeOf; decide +kernel)) (hatOk_free (fr ['^'] (by unfold FreeOf; decide +kernel) _ (by simp)))
  have h2 : runPasses passesMassive (massText x us ws ds) = massText x us ws ds := by
    simp only [passesMassive, runPasses, replace, List.foldl_cons, List.foldl_nil]
    rw [raw eMassiveAu ['|'] _ (needs_cat 3 rfl (needs_lit (by decide))) (by unfold FreeOf; decide +kernel),
      raw eMassiveAd ['|'] _ (needs_cat 0 rfl (needs_lit (by decide))) (by unfold FreeOf; decide +kernel),
      raw eMassiveBd ['|'] _ (needs_cat 3 rfl (needs_lit (by decide))) (by unfold FreeOf; decide +kernel),
      raw eMassiveBu ['|'] _ (needs_cat 0 rfl (needs_lit (by decide))) (by unfold FreeOf; decide +kernel),
      raw (lit "@|@") ['|'] _ (needs_lit (by decide)) (by unfold FreeOf; decide +kernel)]
  have h3 : runPasses passesNames (massText x us ws ds) = wrap (massText x us ws ds) := by
    simp only [passesNames, runPasses, List.foldl_cons, List.foldl_nil]
    rw [raw eA2bis ['⟨'] _ (needs_cat 0 rfl (needs_lit (by decide))) (by unfold FreeOf; decide +kernel),
      raw eA2 ['⟨'] _ (needs_cat 0 rfl (needs_lit (by decide))) (by unfold FreeOf; decide +kernel),
      raw eS2bis ['['] _ (needs_cat 0 rfl (needs_lit (by decide))) (by unfold FreeOf; decide +kernel),
      raw eS2 ['['] _ (needs_cat 0 rfl (needs_lit (by decide))) (by unfold FreeOf; decide +kernel),
      mass_not_particle takes_sijk hx hws hw hd he, mass_not_particle takes_mi hx hws hw hd he,
      raw _ ['P'] _ (needs_cat 1 rfl (needs_lit (by decide))) (by unfold FreeOf; decide +kernel),
      sub_hit_all (mass_hit hx hws hw hd),
      wr eOijk ['Ω'] _ (needs_cat 0 rfl (needs_lit (by decide))) (by unfold FreeOf; decide +kernel) (by unfold FreeOf; decide),
      wr ePijk ['Π'] _ (needs_cat 0 rfl (needs_lit (by decide))) (by unfold FreeOf; decide +kernel) (by unfold FreeOf; decide),
      wr etr5 ['r'] _ (needs_cat 0 rfl (needs_lit (by decide))) (by unfold FreeOf; decide +kernel) (by unfold FreeOf; decide),
      wr etr ['r'] _ (needs_cat 0 rfl (needs_lit (by decide))) (by unfold FreeOf; decide +kernel) (by unfold FreeOf; decide),
      wr eDadj ['Δ'] _ (needs_cat 0 rfl (needs_lit (by decide))) (by unfold FreeOf; decide +kernel) (by unfold FreeOf; decide),
      wr eDnon ['Δ'] _ (needs_cat 0 rfl (needs_lit (by decide))) (by unfold FreeOf; decide +kernel) (by unfold FreeOf; decide),
      wr eNB ['|'] _ (needs_cat 2 rfl (needs_lit (by decide))) (by unfold FreeOf; decide +kernel) (by unfold FreeOf; decide)]
  have h4 : runPasses passesOpen (wrap (massText x us ws ds)) = wrap (massText x us ws ds) :=
    open_none (w ['|'] (by unfold FreeOf; decide +kernel) (by unfold FreeOf; decide))
  have h5 : runPasses passesEnd (wrap (massText x us ws ds)) = wrap (massText x us ws ds) := by
    have e1 : wrap (massText x us ws ds) = ("oPs('".toList ++ massText x us ws []) ++ (ds ++ "')".toList) := by simp [wrap, massText]
    have e2 : wrap (massText x us ws ds) = ("oPs('".toList ++ massText x us ws ds ++ ['\'']) ++ [')'] := by simp [wrap]
    have hnd : ∀ c ∈ "oPs('".toList ++ massText x us ws [], c.isDigit = false := by
      intro c hc
      rcases List.mem_append.1 hc with hc | hc
      · exact (by decide : ∀ c ∈ "oPs('".toList, c.isDigit = false) c hc
      · exact mass_no_digit hx hw c hc
    have left : ∀ (r : RE) (c : Char) (f : List Char → List Char), c ∈ ['s', 'o', '('] →
        (∀ pre u post, r.Takes pre u post → ∃ d, u = [d, c] ∧ d.isDigit = true) →
        r.sub f 0 [] (wrap (massText x us ws ds)) = wrap (massText x us ws ds) := by
      intro r c f hc hr
      rw [e1]
      refine pair_left_same hr hnd ?_
      have h3 : c ∉ ds := by
        intro hm
        have := hd c hm
        rw [(by decide : ∀ c ∈ ['s', 'o', '('], c.isDigit = false) c hc] at this
        simp at this
      have h4 : c ∉ "')".toList := by clear hr h3; revert c; decide
      simp only [List.mem_append, not_or]
      exact ⟨h3, h4⟩
    have last : ∀ (r : RE) (f : List Char → List Char), (∀ pre u post, r.Takes pre u post → ∃ y, u = [')', y]) →
        r.sub f 0 [] (wrap (massText x us ws ds)) = wrap (massText x us ws ds) := by
      intro r f hr
      rw [e2]
      refine pair_last_same hr ?_
      simp only [List.mem_append, not_or]
      exact ⟨⟨by decide, fr [')'] (by unfold FreeOf; decide +kernel) _ (by simp)⟩, by decide⟩
    simp only [passesEnd, replace, runPasses, List.foldl_cons, List.foldl_nil]
    rw [wr (lit "sqrt") ['q'] _ (needs_lit (by decide)) (by unfold FreeOf; decide +kernel) (by unfold FreeOf; decide),
      left (cat [dig, lit "s"]) 's' _ (by decide) ?_, left (cat [dig, lit "o"]) 'o' _ (by decide) ?_,
      left (cat [notAfter "tr", dig, lit "("]) '(' _ (by decide) ?_, last (cat [lit ")", dig]) _ ?_, last (lit ")(") _ ?_, last (lit ")o") _ ?_,
      wr _ ['/'] _ (needs_cat 2 rfl (needs_lit (by decide))) (by unfold FreeOf; decide +kernel) (by unfold FreeOf; decide),
      wr _ ['k'] _ (needs_cat 1 rfl (needs_lit (by decide))) (by unfold FreeOf; decide +kernel) (by unfold FreeOf; decide)]
    · intro pre u post h
      rw [takes_lit] at h
      exact ⟨'o', h⟩
    · intro pre u post h
      rw [takes_lit] at h
      exact ⟨'(', h⟩
    · intro pre u post h
      simp only [takes_cat_cons, takes_cat_nil, takes_lit, takes_dig] at h
      obtain ⟨_, _, rfl, rfl, _, _, rfl, ⟨d, rfl, -⟩, rfl⟩ := h
      exact ⟨d, rfl⟩
    · intro pre u post h
      simp only [takes_cat_cons, takes_cat_nil, takes_lit, takes_dig, notAfter, takes_notBehind] at h
      obtain ⟨_, _, rfl, ⟨rfl, -⟩, _, _, rfl, ⟨d, rfl, hd⟩, _, _, rfl, rfl, rfl⟩ := h
      exact ⟨d, rfl, hd⟩
    · intro pre u post h
      simp only [takes_cat_cons, takes_cat_nil, takes_lit, takes_dig] at h
      obtain ⟨_, _, rfl, ⟨d, rfl, hd⟩, _, _, rfl, rfl, rfl⟩ := h
      exact ⟨d, rfl, hd⟩
    · intro pre u post h
      simp only [takes_cat_cons, takes_cat_nil, takes_lit, takes_dig] at h
      obtain ⟨_, _, rfl, ⟨d, rfl, hd⟩, _, _, rfl, rfl, rfl⟩ := h
      exact ⟨d, rfl, hd⟩
  have app : ∀ (p q : List Pass) (t : List Char), runPasses (p ++ q) t = runPasses q (runPasses p t) := fun p q t => List.foldl_append
  rw [parseText, app, app, app, app, h1, h2, h3, h4, h5, wrap]

end Mass

/-- Non-trivial cases: `m_H`, `μt12`, `mass`. -/
example : parseText "m_H".toList = "oPs('m_H')".toList ∧ parseText "μt12".toList = "oPs('μt12')".toList ∧
    parseText "mass".toList = "oPs('mass')".toList :=
  ⟨C94_mass_name (x := 'm') (us := true) (ws := ['H']) (ds := []) (by decide) (by decide) (by decide) (by decide) (.inl rfl),
    C94_mass_name (x := 'μ') (us := false) (ws := ['t']) (ds := ['1', '2']) (by decide) (by decide) (by decide) (by decide) (.inr (by decide)),
    C94_mass_name (x := 'm') (us := false) (ws := "ass".toList) (ds := []) (by decide) (by decide) (by decide) (by decide) (.inl rfl)⟩

/-- C94 fails for other names: alone `ms2` is an internal mass, in an expression it is the product of `m` and `s_2`. -/
theorem C94_mass_name_wrong :
    classify "ms2".toList = .internalMass "ms2".toList ∧ parseText "ms2+1".toList = "oPs('m')*oPs('s_2')+1".toList ∧
      parseText "mt2+1".toList = "oPs('mt2')+1".toList := by
  decide +kernel

end Lips

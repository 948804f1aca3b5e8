import Verif.Lemmas.RelabelRead
import Verif.Props.Dispatch
import Verif.Model.NodeText

/-!
Property C126: on the image of a point a name with its labels renamed has the value that the name has on the point.
-/

namespace Lips

variable {K : Type*} [Field K] {n : ℕ}

/-! ### Which texts give which forms -/

theorem prefix_head {c : Char} {pre t : List Char} (h : (c :: pre).isPrefixOf t = true) : t.head? = some c := by
  obtain ⟨r, rfl⟩ := List.isPrefixOf_iff_prefix.1 h
  rfl

theorem afterDigits_head {c : Char} {pre t ds : List Char} (h : afterDigits (c :: pre) t = some ds) : t.head? = some c := by
  unfold afterDigits at h
  split at h
  · rename_i hh; exact prefix_head hh.1
  · cases h

theorem splitOn_single {t x : List Char} (h : t.splitOn '|' = [x]) : '|' ∉ t := by
  intro hm
  obtain ⟨a, b, rfl⟩ := List.append_of_mem hm
  have hlen : ∀ a b : List Char, 2 ≤ ((a ++ '|' :: b).splitOn '|').length := by
    intro a b
    induction a with
    | nil =>
      simp only [List.nil_append, List.splitOn, List.splitOnP_cons_eq_if_modifyHead, beq_self_eq_true, if_true, List.length_cons]
      have : 0 < (b.splitOnP (· == '|')).length := List.length_pos_iff.2 (List.splitOnP_ne_nil _ _)
      omega
    | cons c a ih =>
      simp only [List.cons_append, List.splitOn, List.splitOnP_cons_eq_if_modifyHead] at ih ⊢
      split
      · rw [List.length_cons]; omega
      · rw [List.length_modifyHead]; exact ih
  have := hlen a b
  rw [h] at this
  simp at this

/-- A name that is no shorthand and no internal mass gives a form whose labels stand for themselves. -/
theorem classify_form {t : List Char} (h1 : ¬ Shorthand t) (h2 : isMassName t = true → particleMass t = true) : (classify t).Plain := by
  have hmi : matchMi t = particleMass t := by
    rcases t with _ | ⟨a, _ | ⟨b, _ | ⟨c, _ | ⟨d, r⟩⟩⟩⟩ <;> simp only [matchMi, particleMass]
    · by_cases e : b = '_'
      · subst e; simp
      · simp [e]
  unfold classify
  split
  · trivial
  split
  · trivial
  split
  · rename_i h; exact h1 (.inl (afterDigits_head h))
  split
  · rename_i h; exact h1 (.inr (.inl (afterDigits_head h)))
  split
  · rename_i cs h
    unfold matchDelta at h
    split at h
    · rename_i hh
      obtain ⟨rfl⟩ := Option.some.inj h
      rcases hs : (t.drop 2).splitOn '|' with _ | ⟨x, _ | ⟨y, l⟩⟩
      · trivial
      · refine h1 (.inr (.inr (.inr ⟨prefix_head hh.1, ?_⟩)))
        obtain ⟨r, rfl⟩ := List.isPrefixOf_iff_prefix.1 hh.1
        have := splitOn_single hs
        simpa using this
      · trivial
    · cases h
  split
  · rename_i h; exact h1 (.inr (.inr (.inl (by rw [h]; rfl))))
  split
  · trivial
  rename_i hm
  split
  · trivial
  unfold classifyBracket
  iterate 10 (split; · trivial)
  split
  · rename_i hh
    exact hm (hmi.trans (h2 hh))
  · trivial

theorem classify_internal {t : List Char} (h1 : isMassName t = true) (h2 : particleMass t = false) : classify t = .internalMass t := by
  have hmi : matchMi t = false := by
    rw [← h2]
    rcases t with _ | ⟨a, _ | ⟨b, _ | ⟨c, _ | ⟨d, r⟩⟩⟩⟩ <;> simp only [matchMi, particleMass]
    · by_cases e : b = '_'
      · subst e; simp
      · simp [e]
  rcases t with _ | ⟨c, r⟩
  · cases h1
  have hc : c = 'm' ∨ c = 'M' ∨ c = 'μ' := by
    simp only [isMassName, Bool.and_eq_true, Bool.or_eq_true, decide_eq_true_eq] at h1
    rcases h1.1 with (h | h) | h
    · exact .inl h
    · exact .inr (.inl h)
    · exact .inr (.inr h)
  have two : ∀ os cs, c ∉ os → matchTwo os cs (c :: r) = none := by
    intro os cs h
    unfold matchTwo
    simp only []
    split
    · rw [if_neg fun hh => h hh.1]
    · rfl
  have one : ∀ os cs, c ∉ os → matchOne os cs (c :: r) = none := by
    intro os cs h
    unfold matchOne
    simp only []
    split
    · rw [if_neg fun hh => h hh.1]
    · rfl
  have pre : ∀ a l, a ≠ c → List.isPrefixOf (a :: l) (c :: r) = false := by
    intro a l h
    rw [List.isPrefixOf_cons_cons, beq_eq_false_iff_ne.2 h, Bool.false_and]
  have nb : matchNB (c :: r) = none := by
    unfold matchNB
    simp only []
    split
    · split
      · rw [if_neg]
        rintro ⟨hh, -⟩
        rcases hc with rfl | rfl | rfl <;> revert hh <;> decide
      · rfl
    · rfl
  have oe : matchOpenEnd (c :: r) = none := by
    unfold matchOpenEnd
    simp only []
    split
    · rw [if_neg]
      rintro ⟨hh, -⟩
      rcases hc with rfl | rfl | rfl <;> revert hh <;> decide
    · rfl
  have ob : matchOpenBegin (c :: r) = none := by
    have : c ≠ '|' := by rcases hc with rfl | rfl | rfl <;> decide
    unfold matchOpenBegin
    split
    · rename_i h; exact absurd (List.cons.inj h).1 this
    · rfl
  have ms : matchS (c :: r) = none := by
    rw [DigitMap.matchS_eq, if_neg]
    rcases hc with rfl | rfl | rfl <;> simp
  have ne : ∀ a, a ∉ ['m', 'M', 'μ'] → a ≠ c := by
    rintro a h rfl
    exact h (by simpa using hc)
  have nm : ∀ l : List Char, (∀ a ∈ l, a ∉ ['m', 'M', 'μ']) → c ∉ l := fun l h hm => h c hm (by simpa using hc)
  have af : ∀ a l, a ≠ c → afterDigits (a :: l) (c :: r) = none := by
    intro a l h
    rw [afterDigits, pre a l h]; simp
  have be : ∀ a l e, a ≠ c → between (a :: l) e (c :: r) = none := by
    intro a l e h
    rw [between, pre a l h]; simp
  have t5 : matchTr5 (c :: r) = none := by
    unfold matchTr5
    rw [show afterDigits "tr5_".toList (c :: r) = none from af 't' _ (ne _ (by decide)),
      show between "tr5(".toList ')' (c :: r) = none from be 't' _ _ (ne _ (by decide))]
  have tr : matchTr (c :: r) = none := by
    unfold matchTr
    rw [show between "tr(".toList ')' (c :: r) = none from be 't' _ _ (ne _ (by decide))]
  have de : matchDelta (c :: r) = none := by
    unfold matchDelta
    rw [show "Δ_".toList.isPrefixOf (c :: r) = false from pre 'Δ' _ (ne _ (by decide))]; simp
  have d5 : c :: r ≠ "δ5".toList := fun h => ne 'δ' (by decide) (List.cons.inj h).1.symm
  have dob : matchDoubleOpen (c :: r) = none := by
    unfold matchDoubleOpen
    rw [be '|' [] '|' (ne _ (by decide))]
  unfold classify
  rw [t5, tr, show afterDigits "Ω_".toList (c :: r) = none from af 'Ω' _ (ne _ (by decide)),
    show afterDigits "Π_".toList (c :: r) = none from af 'Π' _ (ne _ (by decide)), de, if_neg d5, hmi, ms]
  simp only [Bool.false_eq_true, if_false]
  unfold classifyBracket
  rw [two _ _ (nm _ (by decide)), two _ _ (nm _ (by decide)), one _ _ (nm _ (by decide)), one _ _ (nm _ (by decide)), one _ _ (nm _ (by decide)),
    one _ _ (nm _ (by decide)), nb, ob, oe, dob]
  simp only []
  rw [if_pos h1]

/-- After `tr` and a digit there is only `tr5`. -/
theorem classify_trDigit {x : Char} (hx : x.isDigit = true) (r : List Char) :
    classify ('t' :: 'r' :: x :: r) = match matchTr5 ('t' :: 'r' :: x :: r) with
      | some m => .tr5 m
      | none => .expression := by
  have two : ∀ os cs, 't' ∉ os → matchTwo os cs ('t' :: 'r' :: x :: r) = none := by
    intro os cs h
    unfold matchTwo
    simp only []
    split
    · rw [if_neg fun hh => h hh.1]
    · rfl
  have one : ∀ os cs, 't' ∉ os → matchOne os cs ('t' :: 'r' :: x :: r) = none := by
    intro os cs h
    unfold matchOne
    simp only []
    split
    · rw [if_neg fun hh => h hh.1]
    · rfl
  have pre : ∀ a l, a ≠ 't' → List.isPrefixOf (a :: l) ('t' :: 'r' :: x :: r) = false := by
    intro a l h
    rw [List.isPrefixOf_cons_cons, beq_eq_false_iff_ne.2 h, Bool.false_and]
  have nb : matchNB ('t' :: 'r' :: x :: r) = none := by
    unfold matchNB
    simp only []
    split
    · split
      · rw [if_neg]
        rintro ⟨hh, -⟩
        revert hh; decide
      · rfl
    · rfl
  have oe : matchOpenEnd ('t' :: 'r' :: x :: r) = none := by
    unfold matchOpenEnd
    simp only []
    split
    · rw [if_neg]
      rintro ⟨hh, -⟩
      revert hh; decide
    · rfl
  have ob : matchOpenBegin ('t' :: 'r' :: x :: r) = none := by
    unfold matchOpenBegin
    split
    · rename_i h; exact absurd (List.cons.inj h).1 (by decide)
    · rfl
  have ms : matchS ('t' :: 'r' :: x :: r) = none := by
    rw [DigitMap.matchS_eq, if_neg]
    simp
  have mi : matchMi ('t' :: 'r' :: x :: r) = false := by
    rcases r with _ | ⟨y, r⟩ <;> simp [matchMi]
  have mn : isMassName ('t' :: 'r' :: x :: r) = false := by
    simp [isMassName]
  have af : ∀ a l, a ≠ 't' → afterDigits (a :: l) ('t' :: 'r' :: x :: r) = none := by
    intro a l h
    rw [afterDigits, pre a l h]; simp
  have tr : matchTr ('t' :: 'r' :: x :: r) = none := by
    have : "tr(".toList.isPrefixOf ('t' :: 'r' :: x :: r) = false := by
      have hx' : '(' ≠ x := by rintro rfl; revert hx; decide
      simp [List.isPrefixOf, hx']
    unfold matchTr between
    rw [this]; simp
  have de : matchDelta ('t' :: 'r' :: x :: r) = none := by
    unfold matchDelta
    rw [show "Δ_".toList.isPrefixOf ('t' :: 'r' :: x :: r) = false from pre 'Δ' _ (by decide)]; simp
  have d5 : 't' :: 'r' :: x :: r ≠ "δ5".toList := fun h => absurd (List.cons.inj h).1 (by decide)
  have dob : matchDoubleOpen ('t' :: 'r' :: x :: r) = none := by
    unfold matchDoubleOpen between
    rw [pre '|' [] (by decide)]; simp
  unfold classify
  rw [tr, show afterDigits "Ω_".toList ('t' :: 'r' :: x :: r) = none from af 'Ω' _ (by decide),
    show afterDigits "Π_".toList ('t' :: 'r' :: x :: r) = none from af 'Π' _ (by decide), de, if_neg d5, mi, ms]
  have hb : classifyBracket ('t' :: 'r' :: x :: r) = .expression := by
    unfold classifyBracket
    rw [two _ _ (by decide), two _ _ (by decide), one _ _ (by decide), one _ _ (by decide), one _ _ (by decide), one _ _ (by decide), nb, ob, oe, dob, mn]
    rfl
  rw [hb]
  rfl

theorem matchTr5_tail {m : Char → Char} (h : DigitMap m) (x : Char) (r : List Char) :
    matchTr5 ('t' :: 'r' :: x :: r.map m) = (matchTr5 ('t' :: 'r' :: x :: r)).map (List.map m) := by
  by_cases hx : x = '5'
  · subst hx
    have a : ∀ s, afterDigits "tr5_".toList ('t' :: 'r' :: '5' :: s) = afterDigits ['_'] s := fun s => by
      simp [afterDigits, List.isPrefixOf]
    have b : ∀ s, between "tr5(".toList ')' ('t' :: 'r' :: '5' :: s) = between ['('] ')' s := fun s => by
      simp [between, List.isPrefixOf]
    unfold matchTr5
    rw [a, a, b, b, h.afterDigits (by decide), h.between (by decide) (by decide)]
    rcases afterDigits ['_'] r with _ | ds
    · rcases between ['('] ')' r with _ | u
      · rfl
      · simp only [Option.map_none, Option.map_some, ne_eq, List.map_eq_nil_iff, List.all_map, Function.comp_def, h.isDigit, h.isOp]
        split <;> rfl
    · rfl
  · have p : ∀ l s, ('t' :: 'r' :: '5' :: l).isPrefixOf ('t' :: 'r' :: x :: s) = false := fun l s => by
      have : '5' ≠ x := fun e => hx e.symm
      simp [List.isPrefixOf, this]
    have q : ∀ s, matchTr5 ('t' :: 'r' :: x :: s) = none := fun s => by
      unfold matchTr5 afterDigits between
      rw [show "tr5_".toList.isPrefixOf ('t' :: 'r' :: x :: s) = false from p ['_'] s,
        show "tr5(".toList.isPrefixOf ('t' :: 'r' :: x :: s) = false from p ['('] s]
      simp
    rw [q, q]; rfl

/-- What a renamed name is taken for. -/
theorem classify_relabelName (hn : n ≤ 9) (σ : Equiv.Perm (Fin n)) {t : List Char} (hs : ¬ Shorthand t) :
    (classify t = .internalMass t ∧ classify (relabelName σ t) = .internalMass t) ∨
    ((classify t).Plain ∧ classify (relabelName σ t) = (classify t).mapLabels (relabelChar σ)) := by
  have h := relabelChar_map hn σ
  have hd : t.head? ≠ some 'δ' := fun e => hs (.inr (.inr (.inl e)))
  unfold relabelName
  by_cases hp : "tr".toList.isPrefixOf t = true
  · right
    rw [if_pos hp]
    obtain ⟨r, rfl⟩ := List.isPrefixOf_iff_prefix.1 hp
    refine ⟨classify_form hs fun hm => by simp [isMassName] at hm, ?_⟩
    rcases r with _ | ⟨x, r⟩
    · have e : ("tr".toList ++ []).take 3 ++ (("tr".toList ++ []).drop 3).map (relabelChar σ) = ("tr".toList ++ []).map (relabelChar σ) := by
        simp [h.fix (x := 't') (by decide), h.fix (x := 'r') (by decide)]
      rw [e]
      exact h.classify (by rintro ⟨-, c, hc, -⟩; simp at hc) hd
    · have e : ("tr".toList ++ x :: r).take 3 ++ (("tr".toList ++ x :: r).drop 3).map (relabelChar σ) = 't' :: 'r' :: x :: r.map (relabelChar σ) := by
        simp
      have e' : "tr".toList ++ x :: r = 't' :: 'r' :: x :: r := rfl
      rw [e, e']
      cases hx : x.isDigit
      · have em : 't' :: 'r' :: x :: r.map (relabelChar σ) = ('t' :: 'r' :: x :: r).map (relabelChar σ) := by
          simp only [List.map_cons, h.fix hx, h.fix (x := 't') (by decide), h.fix (x := 'r') (by decide)]
        have ht : NoTrDigit ('t' :: 'r' :: x :: r) := by
          rintro ⟨-, c, hc, hcd⟩
          have : x = c := by simpa using hc
          rw [← this, hx] at hcd; cases hcd
        rw [em, h.classify ht hd]
      · rw [classify_trDigit hx, classify_trDigit hx, matchTr5_tail h]
        rcases matchTr5 ('t' :: 'r' :: x :: r) with _ | u <;> rfl
  · rw [if_neg hp]
    have ht : NoTrDigit t := fun q => hp q.1
    by_cases hm : (isMassName t && !particleMass t) = true
    · rw [if_pos hm]
      rw [Bool.and_eq_true, Bool.not_eq_true'] at hm
      exact .inl ⟨classify_internal hm.1 hm.2, classify_internal hm.1 hm.2⟩
    · rw [if_neg hm, h.classify ht hd]
      refine .inr ⟨classify_form hs fun hmn => ?_, rfl⟩
      rw [hmn, Bool.true_and, Bool.not_eq_true, Bool.not_eq_false'] at hm
      exact hm

theorem relabelName_plain (hn : n ≤ 9) (σ : Equiv.Perm (Fin n)) {t : List Char} (hb : ∀ c ∈ t, c ∉ boldChars) : ∀ c ∈ relabelName σ t, c ∉ boldChars := by
  have h := relabelChar_map hn σ
  intro c hc
  have hmap : ∀ u : List Char, (∀ c ∈ u, c ∈ t) → c ∈ u.map (relabelChar σ) → c ∉ boldChars := by
    intro u hu hcu
    obtain ⟨d, hd, rfl⟩ := List.mem_map.1 hcu
    cases hdd : d.isDigit
    · rw [h.other d hdd]; exact hb d (hu d hd)
    · exact digit_not_bold (h.digit d hdd)
  unfold relabelName at hc
  split at hc
  · rcases List.mem_append.1 hc with hc | hc
    · exact hb c (List.mem_of_mem_take hc)
    · exact hmap _ (fun c => List.mem_of_mem_drop) hc
  · split at hc
    · exact hb c hc
    · exact hmap t (fun c hc => hc) hc

/-- C126: on the image of a point under a permutation of at most nine labels a name with its labels renamed is computed to what the name is computed
to on the point: the same number, spinor or matrix, or the same exception. The names may be any texts; only `Ω`, `Π`, `Δ` with three labels and `δ5`
are excepted. -/
theorem C126_names (hn : n ≤ 9) (ps : Point K n) (σ : Equiv.Perm (Fin n)) (fuel : ℕ) (t : List Char) (hb : ∀ c ∈ t, c ∉ boldChars) (hs : ¬ Shorthand t) :
    computeText (moved ps σ) fuel (relabelName σ t) = computeText ps fuel t := by
  rw [computeText_plain _ _ _ hb, computeText_plain _ _ _ (relabelName_plain hn σ hb)]
  rcases classify_relabelName hn σ hs with ⟨h1, h2⟩ | ⟨h1, h2⟩
  · rw [h1, h2]; rfl
  · rw [h2]; exact evalForm_relabel hn ps σ fuel _ h1

omit [Field K] in
theorem shaped_relabel (m : Char → Char) (f : Form) (v : Val K) : shaped (f.mapLabels m) v = shaped f v := by
  rcases v with x | (_ | _) | v | M | t <;> cases f <;> rfl

theorem leafArr_relabel (hn : n ≤ 9) (ps : Point K n) (σ : Equiv.Perm (Fin n)) (fuel : ℕ) (t : List Char) (hb : ∀ c ∈ t, c ∉ boldChars)
    (hs : ¬ Shorthand t) : leafArr (moved ps σ) fuel (relabelName σ t) = leafArr ps fuel t := by
  unfold leafArr
  rw [rsubs_plain t hb, rsubs_plain _ (relabelName_plain hn σ hb)]
  rcases classify_relabelName hn σ hs with ⟨h1, h2⟩ | ⟨h1, h2⟩
  · simp only [h1, h2]; rfl
  · simp only [h2, evalForm_relabel hn ps σ fuel _ h1, shaped_relabel]

mutual

theorem evalArr_rename {leaf leaf' : List Char → Except Err (PVal K)} {f : List Char → List Char} :
    ∀ a : Node, (∀ t ∈ a.names, leaf' (f t) = leaf t) → evalArr leaf' (a.rename f) = evalArr leaf a
  | .num _, _ => by simp only [Node.rename, evalArr]
  | .bin o a b, h => by
    simp only [Node.names, List.mem_append] at h
    simp only [Node.rename, evalArr]
    rw [evalArr_rename a fun t ht => h t (.inl ht), evalArr_rename b fun t ht => h t (.inr ht)]
  | .neg a, h => by simp only [Node.names] at h; simp only [Node.rename, evalArr]; rw [evalArr_rename a h]
  | .pos a, h => by simp only [Node.names] at h; simp only [Node.rename, evalArr]; rw [evalArr_rename a h]
  | .list es, h => by simp only [Node.names] at h; simp only [Node.rename, evalArr]; rw [evalArrs_rename es h]
  | .oPs t, h => by simp only [Node.rename, evalArr]; exact h t (by simp [Node.names])
  | .fraction _ _, _ => by simp only [Node.rename, evalArr]
  | .block a, h => by simp only [Node.names] at h; simp only [Node.rename, evalArr]; rw [evalArr_rename a h]
  | .transpose a, h => by simp only [Node.names] at h; simp only [Node.rename, evalArr]; rw [evalArr_rename a h]
  | .call _ _, _ => by simp only [Node.rename, evalArr]
  | .name _, _ => by simp only [Node.rename, evalArr]
  | .subscript a ix, h => by simp only [Node.names] at h; simp only [Node.rename, evalArr]; rw [evalArr_rename a h]

theorem evalArrs_rename {leaf leaf' : List Char → Except Err (PVal K)} {f : List Char → List Char} :
    ∀ es : List Node, (∀ t ∈ Node.namesAll es, leaf' (f t) = leaf t) → evalArrs leaf' (Node.renameAll f es) = evalArrs leaf es
  | [], _ => by simp only [Node.renameAll, evalArrs]
  | a :: es, h => by
    simp only [Node.namesAll, List.mem_append] at h
    simp only [Node.renameAll, evalArrs]
    rw [evalArr_rename a fun t ht => h t (.inl ht), evalArrs_rename es fun t ht => h t (.inr ht)]

end

/-- C126: expressions with their labels renamed have on the image of a point the value that they have on the point, or raise the same. -/
theorem C126_expression (hn : n ≤ 9) (ps : Point K n) (σ : Equiv.Perm (Fin n)) (fuel : ℕ) (a : Node)
    (ha : ∀ t ∈ a.names, (∀ c ∈ t, c ∉ boldChars) ∧ ¬ Shorthand t) :
    computeNode (moved ps σ) fuel (a.rename (relabelName σ)) = computeNode ps fuel a := by
  unfold computeNode
  rw [evalArr_rename a fun t ht => leafArr_relabel hn ps σ fuel t (ha t ht).1 (ha t ht).2]

/-- C126: the same for texts. -/
theorem C126_text (hn : n ≤ 9) (ps : Point K n) (σ : Equiv.Perm (Fin n)) (fuel : ℕ) {t t' : List Char} {a : Node} (h : nodeOf (parseText t) = some a)
    (h' : nodeOf (parseText t') = some (a.rename (relabelName σ))) (ha : ∀ t ∈ a.names, (∀ c ∈ t, c ∉ boldChars) ∧ ¬ Shorthand t) :
    computeArr (moved ps σ) fuel t' = computeArr ps fuel t := by
  unfold computeArr
  rw [h, h', Option.map_some, Option.map_some, C126_expression hn ps σ fuel a ha]

/-- C126: `image` of a point gives such a point, whatever the particles are as long as no two are equal. -/
theorem C126_image (hn : n ≤ 9) (h0 : 0 < n) (eq : Particle K → Particle K → Bool) (hr : ∀ x, eq x x = true) (ps : Point K n)
    (hd : ∀ i j, i ≠ j → eq (ps i) (ps j) = false) (σ : Equiv.Perm (Fin n)) :
    ∃ ps' : Point K n, imageStr eq (List.ofFn ps) (permString σ) = .ok (List.ofFn ps') ∧
      ∀ (fuel : ℕ) (a : Node), (∀ t ∈ a.names, (∀ c ∈ t, c ∉ boldChars) ∧ ¬ Shorthand t) →
        computeNode ps' fuel (a.rename (relabelName σ)) = computeNode ps fuel a :=
  ⟨moved ps σ, C32_image_moves hn h0 eq hr ps hd σ, fun fuel a ha => C126_expression hn ps σ fuel a ha⟩

end Lips

import Verif.Props.SetPairSteps

/-! Property C71: `_set_pair_inner` stops. -/

namespace Lips

variable {V : Type*} {n : ℕ}

/-- The calls stop within `k` steps. -/
def Stops (k : ℕ) (z : Req n V × Req n V) : Prop := pairIter k z = none

theorem stops_of_none {z : Req n V × Req n V} (h : pairStep z = none) (k : ℕ) : Stops (k + 1) z := by
  simp [Stops, pairIter, h]

theorem stops_of_some {z z' : Req n V × Req n V} {k : ℕ} (h : pairStep z = some z') (h' : Stops k z') : Stops (k + 1) z := by
  rw [Stops, pairIter, h]; exact h'

theorem Stops.succ {z : Req n V × Req n V} {k : ℕ} (h : Stops k z) : Stops (k + 1) z := by
  induction k generalizing z with
  | zero => simp [Stops, pairIter] at h
  | succ k ih =>
    rcases hz : pairStep z with _ | z'
    · exact stops_of_none hz _
    · refine stops_of_some hz (ih ?_)
      rw [Stops, pairIter, hz] at h; exact h

theorem Stops.mono {z : Req n V × Req n V} {k m : ℕ} (h : Stops k z) (hkm : k ≤ m) : Stops m z := by
  induction m, hkm using Nat.le_induction with
  | base => exact h
  | succ m _ ih => exact ih.succ

theorem pairStep_blank {z : Req n V × Req n V} (h : (z.1.1.blank || z.2.1.blank) = true) : pairStep z = none := by
  rw [pairStep, if_pos h]

theorem pairStep_cases (x y : Req n V) : pairStep (x, y) = none ∨ pairStep (x, y) = dispatchPair x y := by
  unfold pairStep; split
  · exact Or.inl rfl
  · exact Or.inr rfl

/-! ### Two Mandelstam strings -/

theorem length_free (L : List (Fin n)) : (freeLabels L).length + L.toFinset.card = n := by
  have nd : (freeLabels L).Nodup := nodup_free L
  have e : (freeLabels L).toFinset = L.toFinsetᶜ := by ext k; simp [mem_freeLabels]
  rw [← List.toFinset_card_of_nodup nd, e, Finset.card_compl, Fintype.card_fin]
  have := Finset.card_le_univ L.toFinset
  rw [Fintype.card_fin] at this
  omega

/-- The numbers of labels in the parts into which two lists cut all labels. -/
theorem parts (A B : List (Fin n)) :
    ∃ both onlyA onlyB none : ℕ, both + onlyA + onlyB + none = n ∧
      A.toFinset.card = both + onlyA ∧ B.toFinset.card = both + onlyB ∧
      (freeLabels (A ++ B)).length = none ∧ (freeLabels (A ++ freeLabels B)).length = onlyB ∧
      (freeLabels (freeLabels B ++ freeLabels A)).length = both ∧ (freeLabels B).length = onlyA + none := by
  have f1 := length_free (A ++ B)
  have f2 := length_free (A ++ freeLabels B)
  have f3 := length_free (freeLabels B ++ freeLabels A)
  have f4 := length_free B
  have e1 : (A ++ B).toFinset = A.toFinset ∪ B.toFinset := List.toFinset_append
  have e2 : (A ++ freeLabels B).toFinset = (B.toFinset \ A.toFinset)ᶜ := by ext k; simp [mem_freeLabels]; tauto
  have e3 : (freeLabels B ++ freeLabels A).toFinset = (A.toFinset ∩ B.toFinset)ᶜ := by ext k; simp [mem_freeLabels]; tauto
  rw [e1] at f1
  rw [e2, Finset.card_compl, Fintype.card_fin] at f2
  rw [e3, Finset.card_compl, Fintype.card_fin] at f3
  have g1 := Finset.card_union_add_card_inter A.toFinset B.toFinset
  have g2 := Finset.card_sdiff_add_card_inter B.toFinset A.toFinset
  have g3 := Finset.card_sdiff_add_card_inter A.toFinset B.toFinset
  rw [Finset.inter_comm] at g2
  have k1 := Finset.card_le_univ (B.toFinset \ A.toFinset)
  have k2 := Finset.card_le_univ (A.toFinset ∩ B.toFinset)
  rw [Fintype.card_fin] at k1 k2
  exact ⟨(A.toFinset ∩ B.toFinset).card, (A.toFinset \ B.toFinset).card, (B.toFinset \ A.toFinset).card,
    (freeLabels (A ++ B)).length, by omega, by omega, by omega, rfl, by omega, by omega, by omega⟩

theorem exists_two {L : List (Fin n)} (h : 2 ≤ (freeLabels L).length) : ∃ p q, FirstTwoFree L p q := by
  match hL : freeLabels L, h with
  | p :: q :: rest, _ => exact ⟨p, q, firstTwo_of_freeLabels hL⟩

theorem pairStep_set {A B : List (Fin n)} (h : 2 ≤ (freeLabels (A ++ B)).length) (v w : V) :
    pairStep ((.mandel A, v), (.mandel B, w)) = none := by
  obtain ⟨p, q, hpq⟩ := exists_two h
  rcases pairStep_cases (Inv.mandel A, v) (Inv.mandel B, w) with e | e
  · exact e
  · rw [e]; simp only [dispatchPair, stepSS_set hpq]

theorem stops_second (hn : 5 ≤ n) {A B : List (Fin n)} (hA : A.Nodup) (hB : B.Nodup) (hl : A.length ≤ B.length)
    (hf : (freeLabels (A ++ B)).length < 2) (v w : V) : Stops 2 ((Inv.mandel A, v), (Inv.mandel (freeLabels B), w)) := by
  rcases le_or_gt 2 (freeLabels (A ++ freeLabels B)).length with h | h
  · exact stops_of_none (pairStep_set h v w) 1
  · rcases pairStep_cases (Inv.mandel A, v) (Inv.mandel (freeLabels B), w) with e | e
    · exact stops_of_none e 1
    · obtain ⟨bo, oa, ob, no, p1, p2, p3, p4, p5, p6, p7⟩ := parts A B
      rw [List.toFinset_card_of_nodup hA] at p2
      rw [List.toFinset_card_of_nodup hB] at p3
      have hs : (freeLabels B).length < A.length := by omega
      refine stops_of_some (e.trans ?_) (stops_of_none (pairStep_set (A := freeLabels B) (B := freeLabels A) ?_ v w) 0)
      · simp only [dispatchPair, stepSS_again h, if_pos hs]
      · omega

/-- Two Mandelstam strings: at most two further calls, from five particles on. -/
theorem stops_mandel (hn : 5 ≤ n) {A B : List (Fin n)} (hA : A.Nodup) (hB : B.Nodup) (v w : V) :
    Stops 3 ((Inv.mandel A, v), (Inv.mandel B, w)) := by
  rcases le_or_gt 2 (freeLabels (A ++ B)).length with h | h
  · exact stops_of_none (pairStep_set h v w) 2
  · rcases pairStep_cases (Inv.mandel A, v) (Inv.mandel B, w) with e | e
    · exact stops_of_none e 2
    · simp only [dispatchPair, stepSS_again h] at e
      by_cases hl : B.length < A.length
      · rw [if_pos hl] at e
        refine stops_of_some e (stops_second hn hB hA hl.le ?_ v w)
        rw [freeLabels_congr (ys := A ++ B) (fun k => by simp only [List.mem_append]; tauto)]; exact h
      · rw [if_neg hl] at e
        exact stops_of_some e (stops_second hn hA hB (not_lt.mp hl) h v w)

/-! ### The other pairs -/

theorem stops_two_mandel (ang : Bool) (a b : Fin n) (ls : List (Fin n)) (v w : V) :
    Stops 2 ((Inv.two ang a b, v), (Inv.mandel ls, w)) := by
  rcases pairStep_cases (Inv.two ang a b, v) (Inv.mandel ls, w) with e | e
  · exact stops_of_none e 1
  · simp only [dispatchPair, step2S] at e
    split_ifs at e with h
    · refine stops_of_some e (stops_of_none ?_ 0)
      rcases pairStep_cases (Inv.two ang a b, v) (Inv.mandel (freeLabels ls), w) with e' | e'
      · exact e'
      · rw [e']
        simp only [dispatchPair, step2S]
        rw [if_neg fun h' => h'.1 ((mem_freeLabels ls a).mpr h.1)]
    · exact stops_of_none e 1

/-- A three-bracket and a Mandelstam string with two labels free. -/
theorem stops_three_mandel_free {t : T3 n} {ls : List (Fin n)} (h : 2 ≤ (freeLabels (ls ++ t.labels)).length) (v w : V) :
    Stops 2 ((Inv.three t, v), (Inv.mandel ls, w)) := by
  rcases pairStep_cases (Inv.three t, v) (Inv.mandel ls, w) with e | e
  · exact stops_of_none e 1
  · simp only [dispatchPair, step3S, if_pos (Or.inl h)] at e
    split_ifs at e with hc
    · split at e
      · rename_i j k rest hm
        refine stops_of_some e (stops_of_none ?_ 0)
        rcases pairStep_cases (Inv.two true j k, w) (Inv.mandel ls, v) with e' | e'
        · exact e'
        · rw [e']
          simp only [dispatchPair, step2S]
          rw [if_neg fun h' => h'.1 (hc.2.2 j (by rw [hm]; simp))]
      · exact stops_of_none e 1
    · exact stops_of_none e 1

theorem stops_mandel_three_free {t : T3 n} {ls : List (Fin n)} (h : 2 ≤ (freeLabels (ls ++ t.labels)).length) (v w : V) :
    Stops 3 ((Inv.mandel ls, w), (Inv.three t, v)) := by
  rcases pairStep_cases (Inv.mandel ls, w) (Inv.three t, v) with e | e
  · exact stops_of_none e 2
  · exact stops_of_some e (stops_three_mandel_free h v w)

theorem stops_three_mandel (t : T3 n) (ls : List (Fin n)) (v w : V) : Stops 4 ((Inv.three t, v), (Inv.mandel ls, w)) := by
  rcases pairStep_cases (Inv.three t, v) (Inv.mandel ls, w) with e | e
  · exact stops_of_none e 3
  · simp only [dispatchPair, step3S] at e
    split_ifs at e with h1 h2 h3
    · split at e
      · rename_i j k rest hm
        exact stops_of_some e ((stops_two_mandel _ _ _ _ _ _).mono (by omega))
      · exact stops_of_none e 3
    · exact stops_of_none e 3
    · refine stops_of_some e (stops_mandel_three_free ?_ v w)
      rw [freeLabels_congr (ys := t.labels ++ freeLabels ls) (fun k => by simp only [List.mem_append]; tauto)]; exact h3
    · refine stops_of_some e (stops_mandel_three_free ?_ v w)
      have h4 : 2 ≤ (freeLabels (ls ++ [t.s, t.e] ++ freeLabels t.labels)).length := by
        rw [not_or] at h1
        by_contra hc
        exact h1.2 ⟨by omega, by omega⟩
      rw [freeLabels_congr (ys := ls ++ [t.s, t.e] ++ freeLabels t.labels)]
      · exact h4
      · intro k
        simp only [List.mem_append, mem_t3, T3.flip, List.mem_cons, List.not_mem_nil, or_false]
        tauto

/-! ### Two three-brackets -/

theorem free33_comm (t u : T3 n) : free33 t u = free33 u t := by
  unfold free33
  rw [freeLabels_congr (ys := u.labels ++ t.labels) fun k => by simp only [List.mem_append]; exact or_comm]

theorem labels_flip_flip (t : T3 n) (k : Fin n) : k ∈ t.flip.flip.labels ↔ k ∈ t.labels := by
  simp only [mem_t3, T3.flip, mem_freeLabels]
  tauto

theorem free33_flip_flip (t u : T3 n) : free33 t.flip.flip u = free33 t u := by
  unfold free33
  rw [freeLabels_congr (ys := t.labels ++ u.labels) fun k => by simp only [List.mem_append, labels_flip_flip t k]]

theorem fix33_some_of_free {t u : T3 n} (h : 2 ≤ free33 t u) : (fix33 t u).isSome := by
  unfold fix33
  unfold free33 at h
  split
  · rfl
  · rename_i f e; rw [e] at h; simp at h
  · rename_i e; rw [e] at h; simp at h

theorem or_comm4 (a b c d : Prop) : (a ∨ b ∨ c ∨ d) ↔ (c ∨ d ∨ a ∨ b) := by tauto

theorem isSome_ite {α : Type*} (c : Prop) [Decidable c] (a : α) (o : Option α) :
    (if c then some a else o).isSome = true ↔ c ∨ o.isSome = true := by
  split_ifs with h <;> simp [h]

/-- Whether momentum conservation can be restored does not depend on the order. -/
theorem fix33_comm (t u : T3 n) : (fix33 t u).isSome = (fix33 u t).isSome := by
  have hc : freeLabels (t.labels ++ u.labels) = freeLabels (u.labels ++ t.labels) :=
    freeLabels_congr fun k => by simp only [List.mem_append]; exact or_comm
  unfold fix33
  rw [hc]
  generalize freeLabels (u.labels ++ t.labels) = F
  rw [Bool.eq_iff_iff]
  rcases F with _ | ⟨f, _ | ⟨g, F⟩⟩
  · simp only [isSome_ite]
    cases t.ang <;> cases u.ang <;> simp <;> tauto
  · simp only [isSome_ite]
    cases t.ang <;> cases u.ang <;> simp
    all_goals exact or_comm4 _ _ _ _
  · rfl

/-- Strings that the two rewritings leave as they are. -/
def Settled (t u : T3 n) : Prop := norm33 t u = (t, u)

theorem norm_settled (t u : T3 n) : Settled (norm33 t u).2 (norm33 t u).1 := by
  have big : ∀ a b : T3 n, 2 ≤ free33 a b → Settled b a := by
    intro a b h
    have h1 : norm33a b a = (b, a) := by unfold norm33a; rw [if_pos (by rw [free33_comm]; exact h)]
    unfold Settled norm33
    rw [h1]
    unfold norm33b
    rw [if_pos (fix33_some_of_free (by rw [free33_comm]; exact h))]
  have big' : ∀ a b : T3 n, 2 ≤ free33 a b → norm33b a b = (a, b) := by
    intro a b h; unfold norm33b; rw [if_pos (fix33_some_of_free h)]
  by_cases h1 : 2 ≤ free33 t u
  · have e : norm33 t u = (t, u) := by unfold norm33 norm33a; simp only [if_pos h1]; exact big' _ _ h1
    rw [e]; exact big _ _ h1
  by_cases h2 : 2 ≤ free33 t.flip u
  · have e : norm33 t u = (t.flip, u) := by unfold norm33 norm33a; simp only [if_neg h1, if_pos h2]; exact big' _ _ h2
    rw [e]; exact big _ _ h2
  by_cases h3 : 2 ≤ free33 t u.flip
  · have e : norm33 t u = (t, u.flip) := by unfold norm33 norm33a; simp only [if_neg h1, if_neg h2, if_pos h3]; exact big' _ _ h3
    rw [e]; exact big _ _ h3
  by_cases h4 : 2 ≤ free33 t.flip u.flip
  · have e : norm33 t u = (t.flip, u.flip) := by
      unfold norm33 norm33a; simp only [if_neg h1, if_neg h2, if_neg h3, if_pos h4]; exact big' _ _ h4
    rw [e]; exact big _ _ h4
  have e : norm33 t u = norm33b t u := by unfold norm33 norm33a; simp only [if_neg h1, if_neg h2, if_neg h3, if_neg h4]
  rw [e]
  have small : ∀ a b : T3 n, ¬2 ≤ free33 a b → ¬2 ≤ free33 a.flip b → ¬2 ≤ free33 a b.flip → ¬2 ≤ free33 a.flip b.flip →
      norm33b b a = (b, a) → Settled b a := by
    intro a b k1 k2 k3 k4 hb
    unfold Settled norm33 norm33a
    rw [free33_comm] at k1 k2 k3 k4
    simp only [if_neg k1, if_neg k2, if_neg k3, if_neg k4]
    exact hb
  have c := @free33_comm n
  have ff := @free33_flip_flip n
  unfold norm33b
  split_ifs with f1 f2 f3 f4
  · exact small _ _ h1 h2 h3 h4 (by unfold norm33b; rw [if_pos (by rw [fix33_comm]; exact f1)])
  · refine small _ _ h2 ?_ h4 ?_ (by unfold norm33b; rw [if_pos (by rw [fix33_comm]; exact f2)])
    · rw [ff]; exact h1
    · rw [ff]; exact h3
  · refine small _ _ h3 h4 ?_ ?_ (by unfold norm33b; rw [if_pos (by rw [fix33_comm]; exact f3)])
    · rw [c, ff, c]; exact h1
    · rw [c, ff, c]; exact h2
  · refine small _ _ h4 ?_ ?_ ?_ (by unfold norm33b; rw [if_pos (by rw [fix33_comm]; exact f4)])
    · rw [ff]; exact h3
    · rw [c, ff, c]; exact h2
    · rw [ff, c, ff, c]; exact h1
  · refine small _ _ h1 h2 h3 h4 ?_
    unfold norm33b
    rw [if_neg (by rw [fix33_comm]; exact f1), if_neg (by rw [fix33_comm]; exact f3),
      if_neg (by rw [fix33_comm]; exact f2), if_neg (by rw [fix33_comm]; exact f4)]

theorem stops_three_three (t u : T3 n) (v w : V) : Stops 2 ((Inv.three t, v), (Inv.three u, w)) := by
  rcases pairStep_cases (Inv.three t, v) (Inv.three u, w) with e | e
  · exact stops_of_none e 1
  · simp only [dispatchPair, step33] at e
    split_ifs at e with h
    · refine stops_of_some e (stops_of_none ?_ 0)
      rcases pairStep_cases (Inv.three (norm33 t u).2, w) (Inv.three (norm33 t u).1, v) with e' | e'
      · exact e'
      · rw [e']
        have hs : norm33 (norm33 t u).2 (norm33 t u).1 = ((norm33 t u).2, (norm33 t u).1) := norm_settled t u
        simp only [dispatchPair, step33]
        rw [hs]
        rw [if_neg]
        intro h'
        exact h'.2.1 h.2.2
    · exact stops_of_none e 1

/-! ### C71 -/

/-- C71: from five particles on, `_set_pair_inner` calls itself, directly and through the methods, at most four
times, for all kinds and labels (no label twice in a Mandelstam string). -/
theorem C71_stops (hn : 5 ≤ n) (x y : Req n V) (hx : ∀ ls, x.1 = .mandel ls → ls.Nodup)
    (hy : ∀ ls, y.1 = .mandel ls → ls.Nodup) : pairIter 5 (x, y) = none := by
  obtain ⟨xi, v⟩ := x
  obtain ⟨yi, w⟩ := y
  have one : ∀ {a b : Req n V}, dispatchPair a b = none → Stops 5 (a, b) := by
    intro a b h
    rcases pairStep_cases a b with e | e
    · exact stops_of_none e 4
    · exact stops_of_none (e.trans h) 4
  have swap : ∀ {a b : Req n V}, dispatchPair a b = some (b, a) → Stops 4 (b, a) → Stops 5 (a, b) := by
    intro a b h h'
    rcases pairStep_cases a b with e | e
    · exact stops_of_none e 4
    · exact stops_of_some (e.trans h) h'
  have one' : ∀ {a b : Req n V}, dispatchPair a b = none → Stops 4 (a, b) := by
    intro a b h
    rcases pairStep_cases a b with e | e
    · exact stops_of_none e 3
    · exact stops_of_none (e.trans h) 3
  show Stops 5 _
  rcases xi with ⟨ang, a, b⟩ | t | t | A | d | _ <;> rcases yi with ⟨ang', a', b'⟩ | u | u | B | d' | _ <;>
    try exact one rfl
  · exact (stops_two_mandel _ _ _ _ _ _).mono (by omega)
  · exact swap rfl (one' rfl)
  · exact (stops_three_three _ _ _ _).mono (by omega)
  · exact (stops_three_mandel _ _ _ _).mono (by omega)
  · exact swap rfl (one' rfl)
  · exact swap rfl ((stops_two_mandel _ _ _ _ _ _).mono (by omega))
  · exact swap rfl (stops_three_mandel _ _ _ _)
  · exact (stops_mandel hn (hx A rfl) (hy B rfl) _ _).mono (by omega)
  · exact swap rfl (one' rfl)
  · exact swap rfl (one' rfl)
  · exact swap rfl (one' rfl)

/-- C71 fails for four particles: `s_12` and `s_23` are rewritten for ever. -/
theorem C71_loops_at_four (v w : V) (k : ℕ) :
    pairIter k (((Inv.mandel [0, 1], v), (Inv.mandel [1, 2], w)) : Req 4 V × Req 4 V) ≠ none := by
  have s1 : pairStep (((Inv.mandel [0, 1], v), (Inv.mandel [1, 2], w)) : Req 4 V × Req 4 V) =
      some ((.mandel [0, 1], v), (.mandel [0, 3], w)) := by
    simp only [pairStep, Inv.blank, dispatchPair, stepSS_again (show (freeLabels ([0, 1] ++ [1, 2] : List (Fin 4))).length < 2 by decide)]
    rfl
  have s2 : pairStep (((Inv.mandel [0, 1], v), (Inv.mandel [0, 3], w)) : Req 4 V × Req 4 V) =
      some ((.mandel [0, 1], v), (.mandel [1, 2], w)) := by
    simp only [pairStep, Inv.blank, dispatchPair, stepSS_again (show (freeLabels ([0, 1] ++ [0, 3] : List (Fin 4))).length < 2 by decide)]
    rfl
  have both : ∀ k, pairIter k (((Inv.mandel [0, 1], v), (Inv.mandel [1, 2], w)) : Req 4 V × Req 4 V) ≠ none ∧
      pairIter k (((Inv.mandel [0, 1], v), (Inv.mandel [0, 3], w)) : Req 4 V × Req 4 V) ≠ none := by
    intro k
    induction k with
    | zero => simp [pairIter]
    | succ k ih =>
      refine ⟨?_, ?_⟩
      · rw [pairIter, s1]; exact ih.2
      · rw [pairIter, s2]; exact ih.1
  exact (both k).1

end Lips

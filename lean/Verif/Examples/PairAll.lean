import Verif.Props.PairAll
import Verif.Props.PairMandelFlip
import Verif.Examples.PairSD
import Verif.Examples.Pair3S

/-! Concrete cases meeting the hypotheses of the theorems on `_set_pair` as a whole. -/

namespace Lips

noncomputable def env13 : PairEnv F13 ℕ := ⟨f13 .symmetric, T13, (f13 .symmetric).sqrt, false, 100⟩

/-- C101: `_set_pair("⟨1|2⟩", 7, "⟨3|4⟩", 5)` returns. -/
example (rest : Point F13 6 → Except Err F13) : ∃ ps', setPair env13 rest 5 "⟨1|2⟩" "⟨3|4⟩" (.two true 0 1, 7) (.two true 2 3, 5) pt6 = some (.ok ps') ∧
    twoVal true 0 1 ps' = .ok 7 ∧ twoVal true 2 3 ps' = .ok 5 := by
  obtain ⟨ps', h1, h2, h3, h4, -⟩ := C87_separate (f13 .symmetric) T13 T13_zero pt6 r6 l6 pt6_massless true true 0 1 2 3 (by decide) (by decide)
    (Or.inr (by decide)) 4 5 (by decide) 7 5 (by unfold HeadOk; decide) (by unfold HeadOk; decide) (by decide)
  refine ⟨ps', ?_, h2, h3⟩
  refine C101_returns env13 T13_zero (by decide) rest 5 _ _ _ _ pt6 ps' ?_ h4 7 5 h2 h3 (.inl rfl) (.inl rfl)
  simp only [pairInner, Inv.blank, env13, h1, Except.map, Bool.false_eq_true, Bool.or_self, if_false]

/-- Setting a two-bracket and a Mandelstam invariant of six particles, as it is used below. -/
theorem pair2S_six : ∃ ps', pair2S (f13 .symmetric) T13 (spinPoint (f13 .symmetric) spin6') true 0 1 7 [0, 1, 2] 5 = .ok ps' ∧
    twoVal true 0 1 ps' = .ok 7 ∧ computeS ps' [0, 1, 2] = 5 ∧ GoodPoint (f13 .symmetric) ps' := by
  obtain ⟨ps', h1, h2, h3, h4, -⟩ := C88_two_free (f13 .symmetric) T13 T13_zero (spinPoint (f13 .symmetric) spin6') (fun k => (spin6' k).1)
    (fun k => (spin6' k).2) (spinPoint_isMassless _ _) true 0 1 (by decide) [0, 1, 2]
    (by decide) (by decide) (by decide) 3 4 (by decide) 7 5 (by unfold HeadOk; decide) (by
      intro qs i rest e hir
      have hs : (split2S (0 : Fin 6) 1 [0, 1, 2]).1 ++ (split2S 0 1 [0, 1, 2]).2 = [2, 0, 1] := by decide
      rw [hs] at hir
      injection hir with hi hr
      subst hi hr
      exact secondOk_two (k := 0) (by decide) (by decide) e (by decide) (by decide) (by decide) (by decide) _ (by decide)) (by decide)
  exact ⟨ps', h1, h2, h3, h4⟩

/-- C101 (finding): `_set_pair("s_123", 7, "⟨3|1+2|3]", 5)` returns with `s_123 = 5`. -/
example (rest : Point F13 6 → Except Err F13) : ∃ ps', setPair env13 rest 5 "s_123" "⟨3|1+2|3]" (.mandel [0, 1, 2], 7)
      (.three ⟨true, 2, [0, 1], 2⟩, 5) (spinPoint (f13 .symmetric) spin6') = some (.ok ps') ∧ computeS ps' [0, 1, 2] = 5 ∧
    setPair env13 rest 5 "⟨3|1+2|3]" "s_123" (.three ⟨true, 2, [0, 1], 2⟩, 5) (.mandel [0, 1, 2], 7) (spinPoint (f13 .symmetric) spin6') =
      some (.error .exception) := by
  obtain ⟨ps', h1, h2, h3, h4⟩ := pair2S_six
  obtain ⟨e1, e2⟩ := C101_exchanged_partial env13 T13_zero (fun z hz => by
      have : z.val = 0 := Nat.le_zero.mp hz
      exact (ZMod.val_eq_zero z).mp this) (by decide) rest 3 "⟨3|1+2|3]" "s_123" (n := 6) ⟨true, 2, [0, 1], 2⟩ 5 7 [0, 1, 2] _ ps' (by decide)
    (by decide) 0 1 [] rfl h1 h4 h2 h3
  exact ⟨ps', e1, h3, by rw [e2, if_neg (by decide)]⟩

/-- C101: two Gram determinants are not implemented, a two-bracket and a three-bracket are. -/
example (ps : Point F13 6) (v w : F13) :
    pairInner env13 ps 2 "Δ_135" "Δ_246" (.delta [[0, 1], [2, 3], [4, 5]], v) (.delta [[1, 2], [3, 4], [5, 0]], w) =
      some (.ok .notImplemented) ∧
    pairInner env13 ps 2 "⟨1|2⟩" "⟨1|2+3|4]" (.two true 0 1, v) (.three ⟨true, 0, [1, 2], 3⟩, w) ≠ some (.ok .notImplemented) :=
  ⟨(C101_not_implemented env13 ps 0 _ _ _ _).mpr ⟨rfl, trivial⟩, fun h => ((C101_not_implemented env13 ps 0 _ _ _ _).mp h).2⟩

example (ps : Point F13 6) (v w : F13) (rest : Point F13 6 → Except Err F13) :
    setPair env13 rest 2 "Δ_135" "Δ_246" (.delta [[0, 1], [2, 3], [4, 5]], v) (.delta [[1, 2], [3, 4], [5, 0]], w) ps =
      some (.error .exception) := C101_refuses env13 rest ps 0 _ _ _ _ ⟨rfl, trivial⟩

/-! ### C89 with fewer than two free labels -/

/-- C89: `_set_pair("s_123", 7, "s_345", 5)` at six points: only label 6 is in neither. -/
example (rest : Point F13 6 → Except Err F13) : ∃ ps', setPair env13 rest 2 "s_123" "s_345" (.mandel [0, 1, 2], 7) (.mandel [2, 3, 4], 5) pt6 =
    some (.ok ps') ∧ computeS ps' [0, 1, 2] = 7 ∧ computeS ps' [2, 3, 4] = 5 := by
  have g1 : SecondOk pt6 2 [0, 1] ']' := of_headOk (by decide +kernel)
  obtain ⟨ps', h1, h2, h3, -⟩ := C89_one_free env13 T13_zero rest 0 "s_123" "s_345" pt6 r6 l6 pt6_massless [0, 1, 2] [2, 3, 4] (by decide) (by decide)
    (by decide) (by decide) (by decide) (by decide) 5 [] (by decide) 3 4 (by decide) 7 5 2 [0, 1] (by decide) g1 (by
      intro qs e
      obtain ⟨v, hv, hv0⟩ := g1
      obtain ⟨ps', r', l', e', -, -, o, -⟩ := setMandel_spec T13_zero (c := f13 .symmetric) (r := r6) (l := l6) pt6_massless (i := 2) (rest := [0, 1])
        (by decide) (by decide) (mode := 1) (Or.inl rfl) 7 hv hv0
      have e : setMandel (f13 .symmetric) T13 [2, 0, 1] 1 7 pt6 = .ok qs := e
      rw [e] at e'
      injection e' with e'
      rw [e']
      exact SecondOk.congr (ps := pt6) (of_headOk (by decide +kernel)) (fun k hk => (o k (by revert k; decide)).1)) (by decide)
  exact ⟨ps', h1, h2, h3⟩

/-- C89, exception: `s_12345` to 7 and `s_567` to 5 at eight points: `s_12345` is 5 in the end. -/
example : ∃ ps', pairInner env13 pt8 2 "s_12345" "s_567" (.mandel [0, 1, 2, 3, 4], 7) (.mandel [4, 5, 6], 5) =
    some (.ok (.set ps')) ∧ computeS ps' [0, 1, 2, 3, 4] = 5 ∧ computeS ps' [4, 5, 6] = 7 := by
  have g1 : SecondOk pt8 4 [5, 6] ']' := of_headOk (by decide +kernel)
  obtain ⟨ps', h1, h2, h3, -⟩ := C89_exchanged_partial env13 T13_zero 0 "s_12345" "s_567" pt8 r8 l8 spin_pt8 [0, 1, 2, 3, 4] [4, 5, 6] (by decide)
    (by decide) (by decide) (by decide) (by decide) (by decide) 7 [] (by decide) 0 1 (by decide) 7 5 4 [5, 6] (by decide) g1 (by
      intro qs e
      obtain ⟨v, hv, hv0⟩ := g1
      obtain ⟨ps', r', l', e', -, -, o, -⟩ := setMandel_spec T13_zero (c := f13 .symmetric) (r := r8) (l := l8) spin_pt8 (i := 4) (rest := [5, 6])
        (by decide) (by decide) (mode := 1) (Or.inl rfl) 7 hv hv0
      have e : setMandel (f13 .symmetric) T13 [4, 5, 6] 1 7 pt8 = .ok qs := e
      rw [e] at e'
      injection e' with e'
      rw [e']
      exact SecondOk.congr (ps := pt8) (of_headOk (by decide +kernel)) (fun k hk => (o k (by revert k; decide)).1)) (by decide)
  exact ⟨ps', h1, h2, h3⟩

/-- Spinors of eight particles, the first two without first component. -/
def spinZero8 (k : Fin 8) : V2 F13 × V2 F13 := (if k.val < 2 then ![0, k.val + 1] else ![k.val + 1, k.val ^ 2 + 2], ![k.val ^ 2 + 1, 3 * k.val + 2])

/-- C89, exception: `s_1234` and `s_15678` at eight points: every label is in one of them, and setting the second moves the first. -/
example : ∃ ps', pairInner env13 (spinPoint (f13 .symmetric) spinZero8) 2 "s_1234" "s_15678" (.mandel [0, 1, 2, 3], 7) (.mandel [0, 4, 5, 6, 7], 5) =
    some (.ok (.set ps')) ∧ computeS ps' [0, 1, 2, 3] = 7 + (5 - computeS (spinPoint (f13 .symmetric) spinZero8) [1, 2, 3]) ∧
    computeS ps' [0, 4, 5, 6, 7] = 5 ∧ computeS (spinPoint (f13 .symmetric) spinZero8) [1, 2, 3] ≠ 5 := by
  have g1 : SecondOk (spinPoint (f13 .symmetric) spinZero8) 0 [1, 2, 3] ']' := of_headOk (by decide +kernel)
  obtain ⟨ps', h1, h2, h3, -⟩ := C89_no_free_partial env13 T13_zero 0 "s_1234" "s_15678" (spinPoint (f13 .symmetric) spinZero8)
    (fun k => (spinZero8 k).1) (fun k => (spinZero8 k).2) (spinPoint_isMassless _ _) 0 1 [2, 3] [0, 4, 5, 6, 7] (by decide) (by decide) (by decide)
    (by decide) (by decide) 4 5 (by decide) 7 5 g1 (by
      intro qs e
      obtain ⟨v, hv, hv0⟩ := g1
      obtain ⟨ps', r', l', e', -, -, o, -⟩ := setMandel_spec T13_zero (c := f13 .symmetric) (r := fun k => (spinZero8 k).1) (l := fun k => (spinZero8 k).2)
        (spinPoint_isMassless (f13 .symmetric) spinZero8) (i := 0) (rest := [1, 2, 3])
        (by decide) (by decide) (mode := 1) (Or.inl rfl) 7 hv hv0
      have e : setMandel (f13 .symmetric) T13 [0, 1, 2, 3] 1 7 (spinPoint (f13 .symmetric) spinZero8) = .ok qs := e
      rw [e] at e'
      injection e' with e'
      rw [e']
      exact SecondOk.congr (ps := spinPoint (f13 .symmetric) spinZero8) (of_headOk (by decide +kernel)) (fun k hk => (o k (by revert k; decide)).1))
    (by decide) (by decide) (by decide)
  exact ⟨ps', h1, h2, h3, by decide +kernel⟩

end Lips

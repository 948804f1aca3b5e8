import Verif.Props.PairTwo
import Verif.Props.PairMandel
import Verif.Props.Pair33Ends
import Verif.Examples.Set

/-! Concrete cases meeting the hypotheses of the theorems on setting two invariants. -/

namespace Lips

open Matrix

/-- Exact comparison. -/
def T13 : Tol F13 ℕ := ⟨fun x => x.val, 0⟩

theorem T13_zero : T13.abs 0 ≤ T13.tol := by decide

/-- The condition of the second step only concerns the particles it uses. -/
theorem SecondOk.congr {K : Type*} [Field K] {n : ℕ} {ps qs : Point K n} {i : Fin n} {rest : List (Fin n)} {last : Char}
    (h : SecondOk ps i rest last) (ho : ∀ k ∈ i :: rest, qs k = ps k) : SecondOk qs i rest last := by
  obtain ⟨u, hu, hu0⟩ := h
  refine ⟨u, ?_, hu0⟩
  rw [← hu]
  unfold computeOpenBegin
  have hc : ∀ b, chain qs b [plusOf rest] = chain ps b [plusOf rest] := fun b => chain_congr' (fun k hk => ho k ?_) b
  · simp only [ho i (by simp), hc]
  obtain ⟨s, hs, b, hb⟩ := hk
  simp only [List.mem_singleton] at hs
  subst hs
  simp only [plusOf, List.mem_map, Prod.mk.injEq] at hb
  obtain ⟨x, hx, -, rfl⟩ := hb
  exact List.mem_cons_of_mem _ hx

/-- What setting a two-bracket leaves as it was. -/
theorem setTwo_others {n : ℕ} {c : Ctx F13} {ps qs : Point F13 n} {r l : Fin n → V2 F13} (h : Spin c ps r l) {ang : Bool} {a b : Fin n}
    (hab : a ≠ b) {X : F13} (hh : HeadOk ang (r a) (l a)) (e : setTwo c T13 ang a b X ps = .ok qs) (k : Fin n) (hk : k ≠ b) : qs k = ps k := by
  obtain ⟨ps', r', l', e', -, -, o, -⟩ := setTwo_spec T13_zero h (ang := ang) hab X hh
  rw [e] at e'
  injection e' with e'
  rw [e']
  exact (o k hk).1

/-- C87: `⟨1|2⟩` to 7 and `⟨3|4⟩` to 5. -/
example : ∃ ps', pair22 (f13 .symmetric) T13 pt6 true 0 1 7 true 2 3 5 = .ok ps' ∧ twoVal true 0 1 ps' = .ok 7 ∧
    twoVal true 2 3 ps' = .ok 5 := by
  obtain ⟨ps', h1, h2, h3, -⟩ := C87_separate (f13 .symmetric) T13 T13_zero pt6 r6 l6 pt6_massless true true 0 1 2 3 (by decide) (by decide)
    (Or.inr (by decide)) 4 5 (by decide) 7 5 (by unfold HeadOk; decide) (by unfold HeadOk; decide) (by decide)
  exact ⟨ps', h1, h2, h3⟩

/-- C87: `⟨1|2⟩` to 7 and `⟨3|1⟩` to 5. -/
example : ∃ ps', pair22 (f13 .symmetric) T13 pt6 true 0 1 7 true 2 0 5 = .ok ps' ∧ twoVal true 0 1 ps' = .ok 7 ∧
    twoVal true 2 0 ps' = .ok 5 := by
  obtain ⟨ps', h1, h2, h3, -⟩ := C87_shared (f13 .symmetric) T13 T13_zero pt6 r6 l6 pt6_massless true 0 1 2 0 0 1 2 (by decide) (by decide) (by decide)
    (by decide) (by decide) 3 4 (by decide) 7 5 (by unfold HeadOk; decide) (by decide)
  exact ⟨ps', h1, h2, h3⟩

/-- C87: at five points `⟨1|2⟩` to 7 and `[3|4]` to 5. -/
example : ∃ ps', pair22 (f13 .symmetric) T13 pt5 true 0 1 7 false 2 3 5 = .ok ps' ∧ twoVal true 0 1 ps' = .ok 7 ∧
    twoVal false 2 3 ps' = .ok 5 := by
  obtain ⟨ps', h1, h2, h3, -⟩ := C87_one_free (f13 .symmetric) T13 T13_zero pt5 r5 l5 pt5_massless true false 0 1 2 3 (by decide) (by decide)
    (Or.inl (by decide)) (by decide) 4 (by decide) 7 5 (by unfold HeadOk; decide) (by unfold HeadOk; decide) (by simp only [if_true]; decide)
  exact ⟨ps', h1, h2, h3⟩

/-- C87 (finding): at four points, `⟨1|2⟩` to 7 and `[3|1]` to any value: `[3|1]` ends at one value. -/
example : ∃ z, ∀ w, ∃ ps', pair22 (f13 .symmetric) T13 (spinPoint (f13 .symmetric) ![spin5 0, spin5 1, spin5 2, spin5 4]) true 0 1 7 false 2 0 w = .ok ps' ∧
    twoVal false 2 0 ps' = .ok z := by
  obtain ⟨z, hz⟩ := C87_shared_head_partial (f13 .symmetric) T13 T13_zero (spinPoint (f13 .symmetric) ![spin5 0, spin5 1, spin5 2, spin5 4])
    (fun k => (![spin5 0, spin5 1, spin5 2, spin5 4] k).1) (fun k => (![spin5 0, spin5 1, spin5 2, spin5 4] k).2)
    (fun k => spinPoint_isMassless _ _ _) true 0 1 2 3 (by decide) (by decide) (by decide)
    (by decide) 7 (by unfold HeadOk; decide) (by unfold HeadOk; decide) (by simp only [if_true]; decide)
  exact ⟨z, fun w => by obtain ⟨ps', h1, -, h2, -⟩ := hz w; exact ⟨ps', h1, h2⟩⟩

/-- C87: at four points `[1|2]` to 7 and `⟨3|4⟩` to 5. -/
example : ∃ ps', pair22 (f13 .symmetric) T13 (spinPoint (f13 .symmetric) ![spin5 0, spin5 1, spin5 2, spin5 4]) false 0 1 7 true 2 3 5 = .ok ps' ∧
    twoVal false 0 1 ps' = .ok 7 ∧ twoVal true 2 3 ps' = .ok 5 := by
  obtain ⟨ps', h1, h2, h3, -⟩ := C87_none_free_square (f13 .symmetric) T13 T13_zero (spinPoint (f13 .symmetric) ![spin5 0, spin5 1, spin5 2, spin5 4])
    (fun k => (![spin5 0, spin5 1, spin5 2, spin5 4] k).1) (fun k => (![spin5 0, spin5 1, spin5 2, spin5 4] k).2)
    (fun k => spinPoint_isMassless _ _ _) true 0 1 2 3 (by decide) (by decide) (by decide) (by decide) (by decide) 7 5 (by decide) (by decide)
    (by unfold HeadOk; decide)
  exact ⟨ps', h1, h2, h3⟩

/-- C88: `⟨1|2⟩` to 7 and `s_134` to 5. -/
example : ∃ ps', pair2S (f13 .symmetric) T13 pt6 true 0 1 7 [0, 2, 3] 5 = .ok ps' ∧ twoVal true 0 1 ps' = .ok 7 ∧
    computeS ps' [0, 2, 3] = 5 := by
  obtain ⟨ps', h1, h2, h3, -⟩ := C88_two_free (f13 .symmetric) T13 T13_zero pt6 r6 l6 pt6_massless true 0 1 (by decide) [0, 2, 3]
    (by decide) (by decide) (by decide) 4 5 (by decide) 7 5 (by unfold HeadOk; decide) (by
      intro qs i rest e hir
      have hs : (split2S (0 : Fin 6) 1 [0, 2, 3]).1 ++ (split2S 0 1 [0, 2, 3]).2 = [2, 3, 0] := by decide
      rw [hs] at hir
      injection hir with hi hr
      subst hi hr
      exact SecondOk.congr (ps := pt6) (of_headOk (by decide +kernel)) (fun k hk => setTwo_others (c := f13 .symmetric) (r := r6) (l := l6) pt6_massless (by decide) (by unfold HeadOk; decide) e k (by
        revert k; decide))) (by decide)
  exact ⟨ps', h1, h2, h3⟩

/-- The spinors of `spin6`, with another left spinor of particle two. -/
def spin6' : Fin 6 → V2 F13 × V2 F13 := Function.update spin6 1 (![6, 8], ![1, 0])
/-- The spinors of `spin5`, with another left spinor of particle two. -/
def spin5' : Fin 5 → V2 F13 × V2 F13 := Function.update (Function.update spin5 1 (![12, 12], ![1, 0])) 3 (![2, 7], ![1, 1])

/-- The condition of the second step when the changed particle does not contribute to it. -/
theorem secondOk_two {n : ℕ} {s : Fin n → V2 F13 × V2 F13} {qs : Point F13 n} {a b i k : Fin n} {X : F13} (hab : a ≠ b)
    (hh : (s a).1 1 ≠ 0) (e : setTwo (f13 .symmetric) T13 true a b X (spinPoint (f13 .symmetric) s) = .ok qs)
    (hib : i ≠ b) (hkb : k ≠ b) (hb : (s b).2 1 = 0) (hk : (s k).2 1 * SpecAngle (s k).1 (s i).1 ≠ 0) (m : List (Fin n)) (hm : m.Perm [k, b]) :
    SecondOk qs i m '⟩' := by
  obtain ⟨ps', r', l', e', h', -, o, kk⟩ := setTwo_spec T13_zero (c := f13 .symmetric) (r := fun k => (s k).1) (l := fun k => (s k).2)
    (spinPoint_isMassless (f13 .symmetric) s) (ang := true) hab X (by unfold HeadOk; exact hh)
  rw [e] at e'
  injection e' with e'
  subst e'
  simp only [if_true] at kk
  subst kk
  refine headGuard_of_slope h' (t := ⟨false, i, m, i⟩) ?_
  unfold T3.slope
  rw [(hm.map _).sum_eq]
  simp only [Bool.false_eq_true, if_false, List.map_cons, List.map_nil, List.sum_cons, List.sum_nil, hb, zero_mul, add_zero,
    (o k hkb).2.1, (o i hib).2.1]
  exact hk

/-- C88: at six points `⟨1|2⟩` to 7 and `s_456`, which is `s_123`, to 5. -/
example : ∃ ps', pair2S (f13 .symmetric) T13 (spinPoint (f13 .symmetric) spin6') true 0 1 7 [3, 4, 5] 5 = .ok ps' ∧ twoVal true 0 1 ps' = .ok 7 ∧
    computeS ps' [3, 4, 5] = 5 := by
  obtain ⟨ps', h1, h2, h3, -⟩ := C88_six_disjoint (f13 .symmetric) T13 T13_zero (spinPoint (f13 .symmetric) spin6') (fun k => (spin6' k).1) (fun k => (spin6' k).2)
    (spinPoint_isMassless _ _) true 0 1 (by decide) [3, 4, 5]
    (by decide) (by decide) (by decide) (by decide) 3 4 (by decide) 7 5 (by unfold HeadOk; decide) (by
      intro qs i rest e hir
      have hs : (split2S (0 : Fin 6) 1 (freeLabels [3, 4, 5])).1 ++ (split2S 0 1 (freeLabels [3, 4, 5])).2 = [2, 0, 1] := by decide
      rw [hs] at hir
      injection hir with hi hr
      subst hi hr
      exact secondOk_two (k := 0) (by decide) (by decide) e (by decide) (by decide) (by decide) (by decide) _ (by decide)) (by decide)
  exact ⟨ps', h1, h2, h3⟩

/-- C88: at five points `⟨1|2⟩` to 7 and `s_234` to 5. -/
example : ∃ ps', pair2S (f13 .symmetric) T13 (spinPoint (f13 .symmetric) spin5') true 0 1 7 [1, 2, 3] 5 = .ok ps' ∧ twoVal true 0 1 ps' = .ok 7 ∧
    computeS ps' [1, 2, 3] = 5 := by
  obtain ⟨ps', h1, h2, h3, -⟩ := C88_one_free (f13 .symmetric) T13 T13_zero (spinPoint (f13 .symmetric) spin5') (fun k => (spin5' k).1) (fun k => (spin5' k).2)
    (spinPoint_isMassless _ _) true 0 1 (by decide) [1, 2, 3]
    (by decide) (by decide) (by decide) (by decide) 4 (by decide) 7 5 (by unfold HeadOk; decide) (by
      intro qs i rest e hir
      have hs : (split2S (0 : Fin 5) 1 [1, 2, 3]).1 ++ (split2S 0 1 [1, 2, 3]).2 = [2, 3, 1] := by decide
      rw [hs] at hir
      injection hir with hi hr
      subst hi hr
      exact secondOk_two (k := 3) (by decide) (by decide) e (by decide) (by decide) (by decide) (by decide) _ (by decide)) (by simp only [if_true]; decide)
  exact ⟨ps', h1, h2, h3⟩

/-- C89: `s_123` to 7 and `s_234` to 5. -/
example : ∃ ps', pairSS (f13 .symmetric) T13 pt6 [0, 1, 2] 7 [1, 2, 3] 5 = some (.ok ps') ∧ computeS ps' [0, 1, 2] = 7 ∧
    computeS ps' [1, 2, 3] = 5 := by
  have g1 : SecondOk pt6 0 [1, 2] ']' := of_headOk (by decide +kernel)
  obtain ⟨ps', h1, h2, h3, -⟩ := C89_two_free (f13 .symmetric) T13 T13_zero pt6 r6 l6 pt6_massless [0, 1, 2] [1, 2, 3] (by decide) (by decide)
    (by decide) (by decide) 3 [] (by decide) 4 5 (by decide) 7 5 0 [1, 2] (by decide) g1 (by
      intro qs e
      obtain ⟨v, hv, hv0⟩ := g1
      obtain ⟨ps', r', l', e', -, -, o, -⟩ := setMandel_spec T13_zero (c := f13 .symmetric) (r := r6) (l := l6) pt6_massless (i := 0) (rest := [1, 2])
        (by decide) (by decide) (mode := 1) (Or.inl rfl) 7 hv hv0
      rw [e] at e'
      injection e' with e'
      rw [e']
      exact SecondOk.congr (ps := pt6) (of_headOk (by decide +kernel)) (fun k hk => (o k (by revert k; decide)).1)) (by decide)
  exact ⟨ps', h1, h2, h3⟩

/-- Spinors of five particles, the first and third with `⟨1|3⟩` zero. -/
def spinCol (k : Fin 5) : V2 F13 × V2 F13 := (if k = 2 then ![2, 4] else ![k.val + 1, k.val ^ 2 + 2], ![k.val ^ 2 + 1, 3 * k.val + 2])

/-- C88, exception: `⟨1|2⟩` and `s_134` with `⟨1|3⟩` zero: where `s_134` ends does not depend on the value asked for. -/
example : ∃ z : F13, ∀ w, ∃ ps', pair2S (f13 .symmetric) T13 (spinPoint (f13 .symmetric) spinCol) true 0 1 7 [0, 2, 3] w = .ok ps' ∧
    computeS ps' [0, 2, 3] = z := by
  obtain ⟨z, h⟩ := C88_shared_head_partial (f13 .symmetric) T13 T13_zero (spinPoint (f13 .symmetric) spinCol) (fun k => (spinCol k).1)
    (fun k => (spinCol k).2) (spinPoint_isMassless _ _) 0 1 (by decide) [0, 2, 3] (by decide) (by decide) (by decide) (by decide) 4 (by decide) 7
    (by decide) (by
      intro qs i rest e hir
      have hs : (split2S (0 : Fin 5) 1 [0, 2, 3]).1 ++ (split2S 0 1 [0, 2, 3]).2 = [2, 3, 0] := by decide
      rw [hs] at hir
      injection hir with hi hr
      subst hi hr
      obtain ⟨ps', r', l', e', h', -, o, kk⟩ := setTwo_spec T13_zero (c := f13 .symmetric) (r := fun k => (spinCol k).1) (l := fun k => (spinCol k).2)
        (spinPoint_isMassless (f13 .symmetric) spinCol) (ang := true) (a := 0) (b := 1) (by decide) 7 (by unfold HeadOk; decide)
      rw [e] at e'
      injection e' with e'
      subst e'
      exact SecondOk.congr (ps := spinPoint (f13 .symmetric) spinCol) (of_headOk (by decide +kernel)) (fun k hk => (o k (by revert k; decide)).1))
    (by intro i hi; revert i; decide) (by decide)
  exact ⟨z, fun w => by obtain ⟨ps', h1, -, h2, -⟩ := h w; exact ⟨ps', h1, h2⟩⟩

/-- Spinors of six particles, the first two with first right component zero. -/
def spinZero (k : Fin 6) : V2 F13 × V2 F13 := (if k.val < 2 then ![0, k.val + 1] else ![k.val + 1, k.val ^ 2 + 2], ![k.val ^ 2 + 1, 3 * k.val + 2])

/-- C89, exception: `s_1234` and `s_234`: setting the second moves the first. -/
example : ∃ ps', pairSS (f13 .symmetric) T13 (spinPoint (f13 .symmetric) spinZero) [0, 1, 2, 3] 7 [1, 2, 3] 5 = some (.ok ps') ∧
    computeS ps' [0, 1, 2, 3] = 7 + (5 - computeS (spinPoint (f13 .symmetric) spinZero) [1, 2, 3]) ∧ computeS ps' [1, 2, 3] = 5 ∧
    computeS (spinPoint (f13 .symmetric) spinZero) [1, 2, 3] ≠ 5 := by
  have g1 : SecondOk (spinPoint (f13 .symmetric) spinZero) 0 [1, 2, 3] ']' := of_headOk (by decide +kernel)
  obtain ⟨ps', h1, h2, h3, -⟩ := C89_contained_partial (f13 .symmetric) T13 T13_zero (spinPoint (f13 .symmetric) spinZero) (fun k => (spinZero k).1)
    (fun k => (spinZero k).2) (spinPoint_isMassless _ _) 0 1 [2, 3] (by decide) (by decide) 4 5 (by decide) 7 5 g1 (by
      intro qs e
      obtain ⟨v, hv, hv0⟩ := g1
      obtain ⟨ps', r', l', e', -, -, o, -⟩ := setMandel_spec T13_zero (c := f13 .symmetric) (r := fun k => (spinZero k).1) (l := fun k => (spinZero k).2)
        (spinPoint_isMassless (f13 .symmetric) spinZero) (i := 0) (rest := [1, 2, 3])
        (by decide) (by decide) (mode := 1) (Or.inl rfl) 7 hv hv0
      rw [e] at e'
      injection e' with e'
      rw [e']
      exact SecondOk.congr (ps := spinPoint (f13 .symmetric) spinZero) (of_headOk (by decide +kernel)) (fun k hk => (o k (by revert k; decide)).1))
    (by decide) (by decide) (by decide)
  exact ⟨ps', h1, h2, h3, by decide +kernel⟩

/-- Spinors of eight particles. -/
def spin8 (k : Fin 8) : V2 F13 × V2 F13 := (![k.val + 1, k.val ^ 2 + 2], ![k.val ^ 2 + 1, 3 * k.val + 2])
/-- Spinors of six particles. -/
def spin6'' (k : Fin 6) : V2 F13 × V2 F13 := (![k.val + 1, k.val ^ 2 + 2], ![k.val ^ 2 + 1, 3 * k.val + 2])
def pt8 : Point F13 8 := spinPoint (f13 .symmetric) spin8
def r8 (k : Fin 8) : V2 F13 := (spin8 k).1
def l8 (k : Fin 8) : V2 F13 := (spin8 k).2
theorem spin_pt8 : Spin (f13 .symmetric) pt8 r8 l8 := spinPoint_isMassless (f13 .symmetric) spin8

instance (t u : T3 n) : Decidable (SameThree t u) := by unfold SameThree; infer_instance

/-- C90: `⟨1|2|3]` to 7 and `⟨1|(4+2)|3]` to 5. -/
example (longer : Bool) : ∃ ps', pair33 (f13 .symmetric) T13 longer pt8 ⟨true, 0, [1], 2⟩ 7 ⟨true, 0, [3, 1], 2⟩ 5 = some (.ok ps') ∧
    (⟨true, 0, [1], 2⟩ : T3 8).str.value ps' = .ok 7 ∧ (⟨true, 0, [3, 1], 2⟩ : T3 8).str.value ps' = .ok 5 := by
  obtain ⟨ps', h1, -, h2, h3, -⟩ := C90_middle T13_zero spin_pt8 longer (t := ⟨true, 0, [1], 2⟩) (u := ⟨true, 0, [3, 1], 2⟩) (p := 4) (q := 5)
    (by decide) (by decide) (by decide) (x := 3) (xs := []) (by decide) (by decide) (by decide) (by decide) (by decide) (by decide)
    (t₁ := ⟨true, 0, [1], 2⟩) (u₁ := ⟨true, 0, [3, 1], 2⟩) (by decide) (by decide) (by decide) 7 5 (by decide) (by decide) (by decide)
  exact ⟨ps', h1, h2, h3⟩

/-- C90: the label only in the second is the start of the first, `⟨1|2|3]` and `⟨4|(2+1)|5]`. -/
example (longer : Bool) : ∃ ps', pair33 (f13 .symmetric) T13 longer pt8 ⟨true, 0, [1], 2⟩ 7 ⟨true, 3, [1, 0], 4⟩ 5 = some (.ok ps') ∧
    (⟨true, 0, [1], 2⟩ : T3 8).str.value ps' = .ok 7 ∧ (⟨true, 3, [1, 0], 4⟩ : T3 8).str.value ps' = .ok 5 := by
  obtain ⟨ps', h1, -, h2, h3, -⟩ := C90_middle T13_zero spin_pt8 longer (t := ⟨true, 0, [1], 2⟩) (u := ⟨true, 3, [1, 0], 4⟩) (p := 5) (q := 6)
    (by decide) (by decide) (by decide) (x := 0) (xs := []) (by decide) (by decide) (by decide) (by decide) (by decide) (by decide)
    (t₁ := ⟨false, 2, [1], 0⟩) (u₁ := ⟨false, 4, [0, 1], 3⟩) (by decide) (by decide) (by decide) 7 5 (by decide) (by decide) (by decide)
  exact ⟨ps', h1, h2, h3⟩

/-- C90: `⟨1|(2+3)|4]` to 7 and `⟨1|5|4]` to 5. -/
example (longer : Bool) : ∃ ps', pair33 (f13 .symmetric) T13 longer pt8 ⟨true, 0, [1, 2], 3⟩ 7 ⟨true, 0, [4], 3⟩ 5 = some (.ok ps') ∧
    (⟨true, 0, [1, 2], 3⟩ : T3 8).str.value ps' = .ok 7 ∧ (⟨true, 0, [4], 3⟩ : T3 8).str.value ps' = .ok 5 := by
  obtain ⟨ps', h1, -, h2, h3⟩ := C90_longer T13_zero spin_pt8 longer (t := ⟨true, 0, [1, 2], 3⟩) (u := ⟨true, 0, [4], 3⟩) (p := 5) (q := 6)
    (by decide) (by decide) (by decide) (x := 4) (xs := []) (by decide) (by decide) (by decide)
    (t₁ := ⟨true, 0, [1, 2], 3⟩) (u₁ := ⟨true, 0, [4], 3⟩) (by decide) (by decide) (by decide) (y := 1)
    ⟨⟨[], [2], rfl, by decide, by decide, by decide⟩, by decide, by decide⟩ (by decide) (by decide) 7 5 (by decide) (by decide) (by decide)
  exact ⟨ps', h1, h2, h3⟩

/-- C90, exception: `⟨1|(2+3+4)|6]` and `⟨1|(2+5)|6]`. -/
example (longer : Bool) : ∃ v₀ k : F13, k ≠ 0 ∧ ∀ v, ∃ ps',
    pair33 (f13 .symmetric) T13 longer pt8 ⟨true, 0, [1, 2, 3], 5⟩ v ⟨true, 0, [1, 4], 5⟩ 5 = some (.ok ps') ∧
    (⟨true, 0, [1, 2, 3], 5⟩ : T3 8).str.value ps' = .ok v ∧ (⟨true, 0, [1, 4], 5⟩ : T3 8).str.value ps' = .ok (5 + k * (v - v₀)) := by
  obtain ⟨v₀, k, hk, h⟩ := C90_longer_partial T13_zero spin_pt8 longer (t := ⟨true, 0, [1, 2, 3], 5⟩) (u := ⟨true, 0, [1, 4], 5⟩) (p := 6) (q := 7)
    (by decide) (by decide) (by decide) (x := 4) (xs := []) (by decide) (by decide) rfl rfl rfl (by decide) (by decide) (by decide) (y := 1)
    ⟨⟨[], [2, 3], rfl, by decide, by decide, by decide⟩, by decide, by decide⟩ (by decide) 5 (by decide) (by decide) (by decide) (by decide)
  refine ⟨v₀, k, hk, fun v => ?_⟩
  obtain ⟨ps', h1, -, h2, h3⟩ := h v
  exact ⟨ps', h1, h2, h3⟩

/-- C90, exception: `[1|3|2⟩` and `⟨2|(3+1)|4]`. -/
example : ∃ w₀ k : F13, k ≠ 0 ∧ ∀ w, ∃ ps',
    pair33 (f13 .symmetric) T13 false pt8 ⟨false, 0, [2], 1⟩ 7 ⟨true, 1, [2, 0], 3⟩ w = some (.ok ps') ∧
    (⟨true, 1, [2, 0], 3⟩ : T3 8).str.value ps' = .ok w ∧ (⟨false, 0, [2], 1⟩ : T3 8).str.value ps' = .ok (7 + k * (w - w₀)) := by
  obtain ⟨v₀, k, hk, h⟩ := C90_square_partial T13_zero spin_pt8 (t := ⟨false, 0, [2], 1⟩) (u := ⟨true, 1, [2, 0], 3⟩) (p := 4) (q := 5)
    (by decide) (by decide) (by decide) (xs := []) (by decide) (by decide) rfl rfl rfl (by decide) (by decide) (y := 2)
    ⟨⟨[], [0], rfl, by decide, by decide, by decide⟩, by decide, by decide⟩ (by decide) 7 (by decide) (by decide) (by decide) (by decide)
  refine ⟨v₀, k, hk, fun v => ?_⟩
  obtain ⟨ps', h1, -, h2, h3⟩ := h v
  exact ⟨ps', h1, h2, h3⟩

/-- C90: `⟨1|2|3]` to 7 and `⟨4|2|5]` to 5. -/
example (longer : Bool) : ∃ ps', pair33 (f13 .symmetric) T13 longer pt8 ⟨true, 0, [1], 2⟩ 7 ⟨true, 3, [1], 4⟩ 5 = some (.ok ps') ∧
    (⟨true, 0, [1], 2⟩ : T3 8).str.value ps' = .ok 7 ∧ (⟨true, 3, [1], 4⟩ : T3 8).str.value ps' = .ok 5 := by
  obtain ⟨ps', h1, -, h2, h3, -⟩ := C90_ends T13_zero spin_pt8 longer (t := ⟨true, 0, [1], 2⟩) (u := ⟨true, 3, [1], 4⟩)
    (t₁ := ⟨true, 0, [1], 2⟩) (by decide) (by decide) (by decide) (by decide) (by decide) (by decide) (by decide) (p := 5) (q := 6)
    (by decide) (by decide) 7 5 (by decide) (by decide)
  exact ⟨ps', h1, h2, h3⟩

/-- C90: `⟨1|2|3]` to 7 and `⟨1|2|5]` to 5. -/
example (longer : Bool) : ∃ ps', pair33 (f13 .symmetric) T13 longer pt8 ⟨true, 0, [1], 2⟩ 7 ⟨true, 0, [1], 4⟩ 5 = some (.ok ps') ∧
    (⟨true, 0, [1], 2⟩ : T3 8).str.value ps' = .ok 7 ∧ (⟨true, 0, [1], 4⟩ : T3 8).str.value ps' = .ok 5 := by
  obtain ⟨ps', h1, -, h2, h3, -⟩ := C90_ends_back T13_zero spin_pt8 longer (t := ⟨true, 0, [1], 2⟩) (u := ⟨true, 0, [1], 4⟩)
    (t₁ := ⟨false, 2, [1], 0⟩) (by decide) (by decide) (by decide) (by decide) (by decide) (by decide) (by decide) (by decide) (p := 3) (q := 5)
    (by decide) (by decide) 7 5 (by decide) (by decide)
  exact ⟨ps', h1, h2, h3⟩

/-- C90, exception: `⟨1|2|3]` and `[3|2|5⟩`. -/
example : ∃ w₀ k : F13, k ≠ 0 ∧ ∀ w, ∃ ps',
    pair33 (f13 .symmetric) T13 false pt8 ⟨true, 0, [1], 2⟩ 7 ⟨false, 2, [1], 4⟩ w = some (.ok ps') ∧
    (⟨false, 2, [1], 4⟩ : T3 8).str.value ps' = .ok w ∧ (⟨true, 0, [1], 2⟩ : T3 8).str.value ps' = .ok (7 + k * (w - w₀)) := by
  obtain ⟨v₀, k, hk, h⟩ := C90_stale_partial T13_zero spin_pt8 (t := ⟨true, 0, [1], 2⟩) (u := ⟨false, 2, [1], 4⟩)
    (by decide) (by decide) (by decide) (by decide) (by decide) (by decide) (p := 3) (q := 5) (by decide) (by decide) 7 (by decide) (by decide)
  refine ⟨v₀, k, hk, fun v => ?_⟩
  obtain ⟨ps', h1, -, h2, h3⟩ := h v
  exact ⟨ps', h1, h2, h3⟩

/-- C90, exception: `⟨1|(2+4)|3]` and `[1|(2+4)|3⟩`. -/
example : pair33 (f13 .symmetric) T13 false pt8 ⟨true, 0, [1, 3], 2⟩ 7 ⟨false, 0, [1, 3], 2⟩ 5 = some (.error .exception) :=
  C90_refused _ _ _ _ (by decide) (by decide) (by decide) (by decide) (p := 4) (q := 5) (by decide) 7 5

/-- C90: `⟨1|(2+3)|1]` to 7 and `[2|(3+1)|2⟩` to 5. -/
example (longer : Bool) : ∃ ps', pair33 (f13 .symmetric) T13 longer pt8 ⟨true, 0, [1, 2], 0⟩ 7 ⟨false, 1, [2, 0], 1⟩ 5 = some (.ok ps') ∧
    (⟨true, 0, [1, 2], 0⟩ : T3 8).str.value ps' = .ok 7 ∧ (⟨false, 1, [2, 0], 1⟩ : T3 8).str.value ps' = .ok 5 := by
  obtain ⟨ps', h1, -, h2, h3, -⟩ := C90_custom (T := T13) spin_pt8 longer (t := ⟨true, 0, [1, 2], 0⟩) (u := ⟨false, 1, [2, 0], 1⟩) (A := 0) (B := 1) (C := 2)
    (by decide) (by decide) (by decide) rfl rfl (Or.inl rfl) rfl rfl (Or.inr rfl) (p := 3) (q := 4) (by decide) (by decide) 7 5
    (by decide) (by decide) (by decide)
  exact ⟨ps', h1, h2, h3⟩

/-- C90, exception: `⟨1|2|3]` and `⟨2|1|3]`. -/
example (v : F13) := C90_custom_partial (T := T13) spin_pt8 false (A := 0) (B := 1) (C := 2)
    (by decide) (by decide) (by decide) (p := 3) (q := 4) (by decide) (by decide) 5
    (by decide) (by decide) (by decide) v

/-- C90, exception: at six points `⟨1|5|4]` to 7 and `⟨1|(2+3)|4]` to 5, which ends at -5. -/
example (longer : Bool) : ∃ ps', pair33 (f13 .symmetric) T13 longer (spinPoint (f13 .symmetric) spin6'') ⟨true, 0, [4], 3⟩ 7 ⟨true, 0, [1, 2], 3⟩ 5 = some (.ok ps') ∧
    (⟨true, 0, [4], 3⟩ : T3 6).str.value ps' = .ok 7 ∧ (⟨true, 0, [1, 2], 3⟩ : T3 6).str.value ps' = .ok (-5) := by
  obtain ⟨ps', h1, -, h2, h3⟩ := C90_flipped_partial T13_zero (spinPoint_isMassless (f13 .symmetric) spin6'') longer
    (t := ⟨true, 0, [4], 3⟩) (u := ⟨true, 0, [1, 2], 3⟩) (by decide) (by decide) (p := 1) (q := 2)
    (by decide) (by decide) (by decide) (x := 5) (xs := []) (by decide) (by decide) (by decide) (u₁ := ⟨true, 0, [5, 4], 3⟩) (by decide) (by decide) 7 5
    (by decide) (by decide) (by decide)
  exact ⟨ps', h1, h2, h3⟩

end Lips

import Verif.Props.Pair2NUnfix
import Verif.Examples.Pair

/-! Concrete cases meeting the hypotheses of the theorems on setting a two-bracket and a spinor string. -/

namespace Lips

/-- C98: at eight points `⟨1|2⟩` to 3 and `[3|4+5|1⟩` to 7; the string shares a label with the bracket. -/
example : ∃ ps', pair2N (f13 .symmetric) T13 pt8 true 0 1 3 (⟨false, 2, [3, 4], 0⟩ : T3 8).str 7 = .ok ps' ∧ GoodPoint (f13 .symmetric) ps' ∧
    twoVal true 0 1 ps' = .ok 3 ∧ (⟨false, 2, [3, 4], 0⟩ : T3 8).str.value ps' = .ok 7 := by
  have hh : HeadOk true (r8 0) (l8 0) := by unfold HeadOk; decide
  obtain ⟨ps', h1, h2, h3, h4, -⟩ := C98_three_returns (f13 .symmetric) T13 T13_zero pt8 r8 l8 spin_pt8 true 0 1 (by decide) 3
    ⟨false, 2, [3, 4], 0⟩ (by decide) 5 6 (by decide) (by decide : (2 : Fin 8) ∉ [3, 4]) 7 hh
    (fun qs e => by
      have o := setTwo_others spin_pt8 (by decide) hh e
      obtain ⟨ps', r', l', e', s', -, o', k'⟩ := setTwo_spec T13_zero spin_pt8 (ang := true) (a := 0) (b := 1) (by decide) 3 hh
      rw [e] at e'
      injection e' with e'
      subst e'
      refine headGuard_of_slope s' ?_
      rw [T3.slope_congr (r := r8) (l := l8) (fun k hk => (o' k (by rintro rfl; revert hk; decide)).2) (by simp [(o' 0 (by decide)).2])]
      decide +kernel) (by decide)
  exact ⟨ps', h1, h2, h3, h4⟩

/-- The string `[3|(4)|(5)|6]` at eight points, of the other kind than `⟨1|2⟩`. -/
def str8 : Str 8 := ⟨'[', 2, [[3], [4]], 5, ']'⟩

/-- C98: `⟨1|2⟩` and `[3|(4)|(5)|6]`: both ends are of the other kind, and the method returns. -/
example : ∃ ps', pair2N (f13 .symmetric) T13 pt8 true 0 1 3 str8 7 = .ok ps' ∧ GoodPoint (f13 .symmetric) ps' ∧
    twoVal true 0 1 ps' = .ok 3 ∧ str8.value ps' = .ok 7 := by
  have hh : HeadOk true (r8 0) (l8 0) := by unfold HeadOk; decide
  have w : str8.Wf := .inr (by decide)
  obtain ⟨ps', h1, h2, h3, h4, -⟩ := C98_returns (f13 .symmetric) T13 T13_zero pt8 r8 l8 spin_pt8 true 0 1 (by decide) 3
    str8 str8 w (by rfl) (by decide) (.inr (by decide)) (.inl (by decide)) 6 7 false (by rfl) 7 hh
    (fun qs e => by
      have o := setTwo_others spin_pt8 (by decide) hh e
      obtain ⟨ps', r', l', e', s', -, o', k'⟩ := setTwo_spec T13_zero spin_pt8 (ang := true) (a := 0) (b := 1) (by decide) 3 hh
      rw [e] at e'
      injection e' with e'
      subst e'
      refine ⟨_, openBegin_eq s' w, ?_⟩
      rw [chain_congr' (ps := pt8) (fun k hk => o k (by rintro rfl; exact absurd (occurs_plus hk) (by decide)))]
      have : tailSp r' l' str8 = tailSp r8 l8 str8 := tailSp_congr (o' 5 (by decide)).2.1 (o' 5 (by decide)).2.2
      rw [this]
      decide +kernel)
    (fun ps2 r2 l2 e s => by
      obtain ⟨ps1, e1, e2⟩ := andThen_inv e
      obtain ⟨ps', r', l', e', s', -, o', k'⟩ := setTwo_spec T13_zero spin_pt8 (ang := true) (a := 0) (b := 1) (by decide) 3 hh
      rw [e1] at e'
      injection e' with e'
      subst e'
      obtain ⟨e2, -⟩ := setThen_inv e2
      obtain ⟨r3, l3, o3⟩ := setNB_only s' w e2
      have hm : (str8.moved 1).1 = 2 := by decide
      rw [hm] at o3
      have el : ∀ k, k ≠ 1 → k ≠ 2 → l2 k = l8 k := fun k a1 a2 => by
        have := (s k).l_d
        rw [(o3.rest k a2).1, (o' k a1).1, (spin_pt8 k).l_d] at this
        injection this with this
        exact this.symm
      simp only [Bool.false_eq_true, if_false]
      rw [el 6 (by decide) (by decide), el 7 (by decide) (by decide)]
      decide)
  exact ⟨ps', h1, h2, h3, h4⟩

/-- The string `⟨3|(4)|(5)|6⟩`, of the same kind. -/
def str8s : Str 8 := ⟨'⟨', 2, [[3], [4]], 5, '⟩'⟩

/-- C98: `⟨1|2⟩` and `⟨3|(4)|(5)|6⟩`: the head is not in the two-bracket. -/
example : ∃ ps', pair2N (f13 .symmetric) T13 pt8 true 0 1 3 str8s 7 = .ok ps' ∧ (∃ x, str8s.value ps' = .ok x ∧ T13.abs (x - 7) ≤ T13.tol) ∧
    ∃ y, twoVal true 0 1 ps' = .ok y ∧ T13.abs (y - 3) ≤ T13.tol := by
  have hh : HeadOk true (r8 0) (l8 0) := by unfold HeadOk; decide
  have w : str8s.Wf := .inl (by decide)
  obtain ⟨ps', h1, -⟩ := C98_returns (f13 .symmetric) T13 T13_zero pt8 r8 l8 spin_pt8 true 0 1 (by decide) 3
    str8s str8s w (by rfl) (by decide) (.inr (by decide)) (.inr (by decide)) 6 7 false (by rfl) 7 hh
    (fun qs e => by
      have o := setTwo_others spin_pt8 (by decide) hh e
      obtain ⟨ps', r', l', e', s', -, o', k'⟩ := setTwo_spec T13_zero spin_pt8 (ang := true) (a := 0) (b := 1) (by decide) 3 hh
      rw [e] at e'
      injection e' with e'
      subst e'
      refine ⟨_, openBegin_eq s' w, ?_⟩
      rw [chain_congr' (ps := pt8) (fun k hk => o k (by rintro rfl; exact absurd (occurs_plus hk) (by decide)))]
      have : tailSp r' l' str8s = tailSp r8 l8 str8s := tailSp_congr (o' 5 (by decide)).2.1 (o' 5 (by decide)).2.2
      rw [this]
      decide +kernel)
    (fun ps2 r2 l2 e s => by
      obtain ⟨ps1, e1, e2⟩ := andThen_inv e
      obtain ⟨ps', r', l', e', s', -, o', k'⟩ := setTwo_spec T13_zero spin_pt8 (ang := true) (a := 0) (b := 1) (by decide) 3 hh
      rw [e1] at e'
      injection e' with e'
      subst e'
      obtain ⟨e2, -⟩ := setThen_inv e2
      obtain ⟨r3, l3, o3⟩ := setNB_only s' w e2
      have hm : (str8s.moved 1).1 = 2 := by decide
      rw [hm] at o3
      have el : ∀ k, k ≠ 1 → k ≠ 2 → l2 k = l8 k := fun k a1 a2 => by
        have := (s k).l_d
        rw [(o3.rest k a2).1, (o' k a1).1, (spin_pt8 k).l_d] at this
        injection this with this
        exact this.symm
      simp only [Bool.false_eq_true, if_false]
      rw [el 6 (by decide) (by decide), el 7 (by decide) (by decide)]
      decide)
  obtain ⟨-, hx, hy⟩ := C98_same_kind (f13 .symmetric) T13 pt8 r8 l8 spin_pt8 true 0 1 3 str8s w rfl rfl 6 7 (by decide) (by decide) 7 ps' h1
  exact ⟨ps', h1, hx, hy⟩

/-- The string `⟨1|(4)|(5)|6⟩`, with the first label of the two-bracket at its head. -/
def str8t : Str 8 := ⟨'⟨', 0, [[3], [4]], 5, '⟩'⟩

/-- C98 (finding): `⟨1|2⟩` and `⟨1|(4)|(5)|6⟩`: the string is turned round, and gets the opposite value. -/
example : ∃ ps', pair2N (f13 .symmetric) T13 pt8 true 0 1 3 str8t 7 = .ok ps' ∧ (∃ x, str8t.value ps' = .ok x ∧ T13.abs (-x - 7) ≤ T13.tol) ∧
    ∃ y, twoVal true 0 1 ps' = .ok y ∧ T13.abs (y - 3) ≤ T13.tol := by
  have hh : HeadOk true (r8 0) (l8 0) := by unfold HeadOk; decide
  have w : str8t.reverse.Wf := .inl (by decide)
  obtain ⟨ps', h1, -⟩ := C98_returns (f13 .symmetric) T13 T13_zero pt8 r8 l8 spin_pt8 true 0 1 (by decide) 3
    str8t str8t.reverse w (by rfl) (by decide) (.inr (by decide)) (.inr (by decide)) 2 6 false (by rfl) 7 hh
    (fun qs e => by
      have o := setTwo_others spin_pt8 (by decide) hh e
      obtain ⟨ps', r', l', e', s', -, o', k'⟩ := setTwo_spec T13_zero spin_pt8 (ang := true) (a := 0) (b := 1) (by decide) 3 hh
      rw [e] at e'
      injection e' with e'
      subst e'
      refine ⟨_, openBegin_eq s' w, ?_⟩
      rw [chain_congr' (ps := pt8) (fun k hk => o k (by rintro rfl; exact absurd (occurs_plus hk) (by decide)))]
      have : tailSp r' l' str8t.reverse = tailSp r8 l8 str8t.reverse := tailSp_congr (o' 0 (by decide)).2.1 (o' 0 (by decide)).2.2
      rw [this]
      decide +kernel)
    (fun ps2 r2 l2 e s => by
      obtain ⟨ps1, e1, e2⟩ := andThen_inv e
      obtain ⟨ps', r', l', e', s', -, o', k'⟩ := setTwo_spec T13_zero spin_pt8 (ang := true) (a := 0) (b := 1) (by decide) 3 hh
      rw [e1] at e'
      injection e' with e'
      subst e'
      obtain ⟨e2, -⟩ := setThen_inv e2
      obtain ⟨r3, l3, o3⟩ := setNB_only s' w e2
      have hm : (str8t.reverse.moved 1).1 = 5 := by decide
      rw [hm] at o3
      have el : ∀ k, k ≠ 1 → k ≠ 5 → l2 k = l8 k := fun k a1 a2 => by
        have := (s k).l_d
        rw [(o3.rest k a2).1, (o' k a1).1, (spin_pt8 k).l_d] at this
        injection this with this
        exact this.symm
      simp only [Bool.false_eq_true, if_false]
      rw [el 2 (by decide) (by decide), el 6 (by decide) (by decide)]
      decide)
  obtain ⟨-, hx, hy⟩ := C98_turned_partial (f13 .symmetric) T13 pt8 r8 l8 spin_pt8 true 0 1 3 str8t (.inl (by decide)) rfl rfl 2 6 (by decide) rfl (by decide) 7 ps' h1
  exact ⟨ps', h1, hx, hy⟩

/-- The string `⟨1|(3)|(4)|1⟩`. -/
def str8m : Str 8 := ⟨'⟨', 0, [[2], [3]], 0, '⟩'⟩

/-- C98: `⟨1|2⟩` and `⟨1|(3)|(4)|1⟩`: the third particle is changed. -/
example : ∃ ps', pair2N (f13 .symmetric) T13 pt8 true 0 1 3 str8m 7 = .ok ps' ∧ (∃ x, str8m.value ps' = .ok x ∧ T13.abs (x - 7) ≤ T13.tol) ∧
    ∃ y, twoVal true 0 1 ps' = .ok y ∧ T13.abs (y - 3) ≤ T13.tol := by
  have hh : HeadOk true (r8 0) (l8 0) := by unfold HeadOk; decide
  have w : str8m.Wf := .inl (by decide)
  obtain ⟨ps1, r1, l1, e1, h1, v1, o1, k1⟩ := setTwo_spec T13_zero spin_pt8 (ang := true) (a := 0) (b := 1) (by decide) 3 hh
  simp only [if_true] at k1
  have y1 : endOfPart ps1 '⟨' 2 [[3]] 0 '⟩' = endOfPart pt8 '⟨' 2 [[3]] 0 '⟩' :=
    Str.value_congr (t := ⟨'[', 2, [[3]], 0, '⟩'⟩) fun k hk => (o1 k (by rintro rfl; revert hk; decide)).1
  obtain ⟨y, hy, hy0⟩ : ∃ y, endOfPart pt8 '⟨' 2 [[3]] 0 '⟩' = .ok y ∧ y ≠ 0 := ⟨_, Str.value_eq (t := ⟨'[', 2, [[3]], 0, '⟩'⟩) spin_pt8 (.inr (by decide)), by decide +kernel⟩
  obtain ⟨ps2, r2, l2, e2, h2, v2, o2, k2, -⟩ := setMiddle_kept h1 (t := str8m) (u := str8m) (i := 0) (j := 0) rfl w rfl (b := 2) (zs := [])
    (rest := [[3]]) rfl (by decide) (by decide) (by decide) (by decide) 7 (y1.trans hy) hy0 (fun _ => by rw [show str8m.s = 0 from rfl, (o1 0 (by decide)).2.1]; decide) (fun e => absurd e (by decide))
  have run : setNB (f13 .symmetric) 3 ps1 str8m 7 false 2 = .ok ps2 := by
    have hm : str8m.uniqueMiddle = some (0, 0) := by decide
    simp only [setNB, Bool.false_eq_true, and_false, if_false, Option.getD_none, Option.isSome_none]
    rw [if_neg (by rw [hm]; simp), hm]
    simp only [e2]
  have hplan : plan2N true 0 1 str8m = .ok (str8m, 2) := by rfl
  have hcan : canFix true 0 1 str8m = some (4, 5, false) := by rfl
  obtain ⟨ps3, r3, l3, e3, -, -⟩ := fixPair_only (f13 .symmetric) ps2 r2 l2 h2 (by decide : (4 : Fin 8) ≠ 5) false (by
    rw [if_neg (by decide), (o2 4 (by decide)).2.2, (o2 5 (by decide)).2.2, k1]; decide)
  have hr : pair2N (f13 .symmetric) T13 pt8 true 0 1 3 str8m 7 = .ok ps3 := by
    unfold pair2N
    rw [hplan]
    have : setStr (f13 .symmetric) T13 str8m 2 7 ps1 = .ok ps2 := by unfold setStr; rw [run]; exact setThen_ok T13_zero v2
    simp only [andThen, e1, this, fixStr, hcan]
    exact e3
  obtain ⟨-, hx, hy⟩ := C98_middle (f13 .symmetric) T13 pt8 r8 l8 spin_pt8 true 0 1 3 str8m w rfl rfl 4 5 (by decide) (.inr ⟨rfl, rfl⟩) 2
    (by unfold Str.freeInFirst; decide) (by unfold Str.freeInFirst; decide) 7 ps3 hr
  exact ⟨ps3, hr, hx, hy⟩

/-- `C98_plan`: at six points `⟨1|(2)|(4)|5⟩` is turned round for `⟨1|2⟩`; `[3|4+5|6⟩` becomes `[3|1+2|6⟩`, for which two
labels are free; and for `[1|2+3+4+5|6⟩` the method raises, the rewritten slot being empty. -/
example : plan2N (n := 6) true 0 1 ⟨'⟨', 0, [[1], [3]], 4, '⟩'⟩ = .ok (⟨'⟨', 4, [[3], [1]], 0, '⟩'⟩, 1) ∧
    plan2N (n := 6) true 0 1 ⟨'[', 2, [[3, 4]], 5, '⟩'⟩ = .ok (⟨'[', 2, [[0, 1]], 5, '⟩'⟩, 1) ∧
    plan2N (n := 6) true 0 1 ⟨'[', 0, [[1, 2, 3, 4]], 5, '⟩'⟩ = .error .typeError := by
  refine ⟨by rfl, by rfl, by rfl⟩

example : Fixable (n := 6) true 0 1 ⟨'[', 2, [[3, 4]], 5, '⟩'⟩ ∧ canFix (n := 6) true 0 1 ⟨'[', 2, [[3, 4]], 5, '⟩'⟩ = none := by
  refine ⟨.inr ⟨0, by decide, by decide⟩, by decide⟩

/-- C98 (finding): `⟨1|2⟩` and `⟨1|3+4|3]` at seven points: the spinor changed by setting the string is one of the
two-bracket. -/
example : Disturbs (n := 7) true 0 1 ((⟨false, 2, [2, 3], 0⟩ : T3 7).str.moved 1) := by unfold Disturbs; decide

/-- The string `[3|3+4|1⟩`. -/
def t8 : T3 8 := ⟨false, 2, [2, 3], 0⟩

/-- The spinors of `spin8`, with another right spinor of the first particle. -/
def spin8d : Fin 8 → V2 F13 × V2 F13 := Function.update spin8 0 (![0, 1], ![1, 2])
def pt8d : Point F13 8 := spinPoint (f13 .symmetric) spin8d
def r8d (k : Fin 8) : V2 F13 := (spin8d k).1
def l8d (k : Fin 8) : V2 F13 := (spin8d k).2
theorem spin_pt8d : Spin (f13 .symmetric) pt8d r8d l8d := spinPoint_isMassless (f13 .symmetric) spin8d

/-- C98 (finding): at eight points `⟨1|2⟩` to 3 and `[3|3+4|1⟩` to 7: the method returns, with another value of the
two-bracket. -/
example : ∃ ps', pair2N (f13 .symmetric) T13 pt8d true 0 1 3 t8.str 7 = .ok ps' ∧ twoVal true 0 1 ps' ≠ .ok 3 := by
  have hh : HeadOk true (r8d 0) (l8d 0) := by unfold HeadOk; decide
  have hpq : FirstTwoFree ([0, 1] ++ t8.labels) 4 5 := by decide
  obtain ⟨hcan, hplan⟩ := plan_three (ang := true) (by decide : t8.ang ≠ true) hpq (.inl rfl : t8 = t8 ∨ t8 = t8.rev)
  rw [if_pos rfl] at hplan
  have hplan' : plan2N true 0 1 t8.str = .ok (t8.str, 1) := hplan
  obtain ⟨ps1, r1, l1, e1, h1, v1, o1, k1⟩ := setTwo_spec T13_zero spin_pt8d (ang := true) (a := 0) (b := 1) (by decide) 3 hh
  simp only [if_true] at k1
  have wr : t8.str.reverse.Wf := Str.reverse_wf t8.wf
  have slots : ∀ k, Occurs k (t8.str.reverse.ms.map plusOf) → ps1 k = pt8d k := fun k hk =>
    (o1 k (by rintro rfl; exact absurd (occurs_plus hk) (by decide))).1
  obtain ⟨ps2, r2, l2, e2, h2, v2, o2, -, -, o2'⟩ := setHead_linear h1 wr (by decide) (.inl rfl) 7 (by
    rw [chain_congr' slots, show tailSp r1 l1 t8.str.reverse = tailSp r8d l8d t8.str.reverse from
      tailSp_congr (o1 2 (by decide)).2.1 (o1 2 (by decide)).2.2]
    decide +kernel)
  have v2' : t8.str.value ps2 = .ok 7 := by have := Str.reverse_value h2 t8.wf v2; rw [if_neg (by decide)] at this; exact this
  have run : setNB (f13 .symmetric) 3 ps1 t8.str 7 false 1 = .ok ps2 := by
    rw [setNB]
    simp only [Bool.false_eq_true, and_false, if_false, Option.getD_none, Option.isSome_none]
    rw [if_pos (.inl (by decide)), if_pos (by decide), setNB]
    simp only [Bool.false_eq_true, and_false, if_false, Option.getD_none, Option.isSome_none]
    rw [if_pos (.inl (by decide)), if_neg (by decide), e2]
  obtain ⟨ps3, r3, l3, e3, -, -⟩ := fixPair_only (f13 .symmetric) ps2 r2 l2 h2 (by decide : (4 : Fin 8) ≠ 5) false (by
    rw [if_neg (by decide), (o2' 4 (by decide)).2, (o2' 5 (by decide)).2, k1]; decide)
  have hr : pair2N (f13 .symmetric) T13 pt8d true 0 1 3 t8.str 7 = .ok ps3 := by
    unfold pair2N
    rw [hplan']
    have : setStr (f13 .symmetric) T13 t8.str 1 7 ps1 = .ok ps2 := by unfold setStr; rw [run]; exact setThen_ok T13_zero v2'
    simp only [andThen, e1, this, fixStr, hcan]
    exact e3
  refine ⟨ps3, hr, C98_disturbed_partial (f13 .symmetric) T13 (by decide) pt8d r8d l8d spin_pt8d true 0 1 (by decide) 3 t8 (by decide) 4 5 hpq
    (by decide) (by decide) rfl 7 (fun qs r' l' e s => ?_) ps3 hr⟩
  rw [e] at e1
  injection e1 with e1
  subst e1
  have er : r' = r1 := funext fun k => by
    have a := (s k).r_d
    rw [(h1 k).r_d] at a
    injection a with a
    exact a.symm
  subst er
  refine ⟨?_, ?_⟩
  · rw [Str.value_congr (ps := pt8d) (fun k hk => (o1 k (by rintro rfl; revert hk; decide)).1)]
    decide +kernel
  · rw [if_pos rfl]
    rw [twoVal_eq s] at v1
    simp only [if_true] at v1
    injection v1 with v1
    have e0 := (o1 0 (by decide)).2.1
    intro h0
    simp only [SpecAngle, h0, e0] at v1
    revert v1
    generalize r' 1 1 = y
    revert y
    decide +kernel

/-- Four massless particles over `F13` that conserve momentum. -/
def spin4u : Fin 4 → V2 F13 × V2 F13 := ![(![1, 2], ![1, 3]), (![3, 1], ![2, 5]), (![2, 3], ![3, 12]), (![1, 7], ![0, 10])]
def pt4u : Point F13 4 := spinPoint (f13 .symmetric) spin4u
def r4u (k : Fin 4) : V2 F13 := (spin4u k).1
def l4u (k : Fin 4) : V2 F13 := (spin4u k).2
theorem spin_pt4u : Spin (f13 .symmetric) pt4u r4u l4u := spinPoint_isMassless (f13 .symmetric) spin4u

/-- `⟨3|(1+2)|3]` at four points, and as it is turned round. -/
def t4u : T3 4 := ⟨true, 2, [0, 1], 2⟩
def u4u : T3 4 := ⟨false, 2, [1, 0], 2⟩

/-- C98: `⟨1|2⟩` to 3 and `⟨3|(1+2)|3]` to 7 at four points: the method returns, and momentum is not conserved. -/
example : ∃ ps', pair2N (f13 .symmetric) T13 pt4u true 0 1 3 t4u.str 7 = .ok ps' ∧ ¬Conserves ps' := by
  have hh : HeadOk true (r4u 0) (l4u 0) := by unfold HeadOk; decide
  have hp : plan2N true 0 1 t4u.str = .ok (u4u.str, 1) := by rfl
  have hret : ∃ ps', pair2N (f13 .symmetric) T13 pt4u true 0 1 3 t4u.str 7 = .ok ps' := by
    obtain ⟨ps1, -, -, e1, -, v1, -, -⟩ := setTwo_spec T13_zero spin_pt4u (ang := true) (a := 0) (b := 1) (by decide) 3 hh
    obtain ⟨r1, l1, o1, c1⟩ := setTwo_component spin_pt4u e1
    have k1 : l1 = l4u := by simpa using o1.kept
    have r0 : r1 0 = r4u 0 := (o1.rest 0 (by decide)).2.1
    have r2 : r1 2 = r4u 2 := (o1.rest 2 (by decide)).2.1
    have rb : r1 1 = ![2, 1] := by
      rw [twoVal_eq o1.after] at v1
      simp only [if_true, Except.ok.injEq] at v1 c1
      have : r4u 1 1 = 1 := by decide
      rw [this] at c1
      have h0 : r4u 0 = ![1, 2] := by decide
      rw [SpecAngle, r0, h0, c1] at v1
      simp only [Matrix.cons_val_zero, Matrix.cons_val_one] at v1
      have : r1 1 0 = 2 := by
        have h7 : (7 * 2 : F13) = 1 := by decide
        have h8 : (7 * 4 : F13) = 2 := by decide
        calc r1 1 0 = 7 * 2 * r1 1 0 := by rw [h7, one_mul]
          _ = 7 * (2 * r1 1 0 - 1 * 1 + 1) := by ring
          _ = 7 * (3 + 1) := by rw [v1]
          _ = 2 := by decide
      ext i; fin_cases i
      · exact this
      · exact c1
    have g : HeadGuard ps1 u4u := by
      refine headGuard_of_slope o1.after ?_
      simp only [T3.slope, u4u, List.map_cons, List.map_nil, r0, r2, rb, k1]
      decide
    obtain ⟨ps2, -, -, e2, -⟩ := setThree_head T13_zero o1.after (t := u4u) (by decide) 7 g
    have e2' : setStr (f13 .symmetric) T13 u4u.str 1 7 ps1 = .ok ps2 := e2
    have hcan : canFix true 0 1 u4u.str = none := by decide
    exact ⟨ps2, by simp only [pair2N, hp, e1, andThen, e2', fixStr, hcan]⟩
  obtain ⟨ps', hr⟩ := hret
  refine ⟨ps', hr, C98_unfixable_partial (f13 .symmetric) T13 (fun x hx => by simpa [T13] using hx) pt4u r4u l4u spin_pt4u
    (spinPoint_conserves _ _ (by decide)) true 0 1 (by decide) 3 ?_ t4u.str t4u.wf (by decide) ?_ 7 u4u.str 1 hp (by decide) ?_ ps' hr⟩
  · rw [twoVal_eq spin_pt4u]
    decide
  · rintro (h | ⟨i, hi, h⟩)
    · revert h; decide
    · have : i = 0 := by simpa [t4u, T3.str] using hi
      subst this; revert h; decide
  · unfold SpinorsApart; decide

end Lips

import Verif.Props.LeftStays
import Verif.Examples.History

/-! Concrete cases meeting the hypotheses of the theorems on what setters leave behind. -/

namespace Lips

/-- Three particles whose square brackets vanish. -/
def r3 : Fin 3 → V2 F13 := ![![1, 1], ![2, 3], ![-3, -4]]

def l3 : Fin 3 → V2 F13 := fun _ => ![1, 2]

noncomputable def pt3 : Point F13 3 := fun k => (ofSpinors env13.c (r3 k) (l3 k)).st

theorem pt3_massless (k : Fin 3) : IsMassless env13.c (pt3 k) (r3 k) (l3 k) := ofSpinors_isMassless _ _ _

theorem pt3_conserves : Conserves pt3 := by
  intro i j
  simp only [(pt3_massless _).r2, outer_apply, Fin.sum_univ_three]
  revert i j
  decide

/-- C124: ⟨1|2⟩ of three particles is set to 5, then an IndexError is raised, and momentum is not conserved. -/
theorem pt3_raises : setText env13.T.abs env13.T.tol env13.c pt3 env13.fuel (twoText '⟨' 1 2 '⟩') 5 true 1 = some (.error .indexError) ∧
    ∃ qs, leftText env13.c pt3 env13.fuel (twoText '⟨' 1 2 '⟩') 5 true 1 = some qs ∧ angle (qs 0) (qs 1) = .ok 5 ∧ (∀ k, k ≠ 1 → qs k = pt3 k) ∧ ¬Conserves qs := by
  obtain ⟨h1, qs, h2, h3, h4, h5⟩ := C124_angle_raises env13.c env13.T pt3 r3 l3 pt3_massless '⟨' '⟩' (by simp) (by simp) 0 1 (by decide) 5 (by decide)
    .indexError (.inl ⟨by decide, rfl⟩) env13.fuel 1
  exact ⟨h1, qs, h2, h3, h4, h5 pt3_conserves (by decide) (by decide)⟩

/-- C124: with four particles of which the third and fourth have proportional spinors. -/
example (T : Tol F13 ℕ) (c : Ctx F13) (l : Fin 4 → V2 F13) : ∃ ps : Point F13 4,
    setText T.abs T.tol c ps 4 (twoText '<' 1 2 '>') 5 true 1 = some (.error .zeroDivision) ∧
    ∃ qs, leftText c ps 4 (twoText '<' 1 2 '>') 5 true 1 = some qs ∧ angle (qs 0) (qs 1) = .ok 5 := by
  let r : Fin 4 → V2 F13 := ![![1, 1], ![2, 3], ![1, 5], ![2, 10]]
  refine ⟨fun k => (ofSpinors c (r k) (l k)).st, ?_⟩
  obtain ⟨h1, qs, h2, h3, -⟩ := C124_angle_raises c T (fun k => (ofSpinors c (r k) (l k)).st) r l (fun k => ofSpinors_isMassless _ _ _) '<' '>'
    (by simp) (by simp) 0 1 (by decide) 5 (by decide) .zeroDivision
    (.inr ⟨2, 3, ⟨by decide, by decide, by decide, by decide⟩, by decide, rfl⟩) 4 1
  exact ⟨h1, qs, h2, h3⟩

/-- C124: afterwards `fix_mom_cons(1, 3, axis=2)` returns and the point is good again. -/
example : ∃ zs qs, afterAll env13 (fun _ => .ok 0) 5 (fun _ _ => true) [.set (twoText '⟨' 1 2 '⟩') 5 true 1] pt3 = some zs ∧ ¬Conserves zs ∧
    fixMomCons env13.c zs 1 3 false 2 (1, 2) = .ok qs ∧ GoodPoint env13.c qs := by
  obtain ⟨-, zs, h2, -, h4, h5⟩ := pt3_raises
  have ha : afterAll env13 (fun _ => .ok 0) 5 (fun _ _ => true) [.set (twoText '⟨' 1 2 '⟩') 5 true 1] pt3 = some zs := by
    simp only [afterAll, Command.after, h2]
  have sh : OnShell env13.c pt3 := ⟨r3, l3, pt3_massless⟩
  obtain ⟨r, l, hs⟩ := C124_history env13 _ _ _ _ _ _ sh ha
  have e0 : r 0 = r3 0 := by
    have := (hs 0).r_d
    rw [h4 0 (by decide), (pt3_massless 0).r_d] at this
    exact (Option.some.inj this).symm
  have e2 : r 2 = r3 2 := by
    have := (hs 2).r_d
    rw [h4 2 (by decide), (pt3_massless 2).r_d] at this
    exact (Option.some.inj this).symm
  obtain ⟨qs, l', hq, -, -⟩ := fixAxis2_spin (a := 0) (b := 2) hs (by decide) (by rw [e0, e2]; decide)
  have hf : fixMomCons env13.c zs 1 3 false 2 (1, 2) = .ok qs := by
    simp only [fixMomCons]
    exact hq
  exact ⟨zs, qs, ha, h5, hf, C124_recover env13 _ _ _ _ pt3 zs qs sh ha 1 3 2 (by decide) (by decide) _ hf⟩

/-- C124: a label that does not exist raises and nothing is changed. -/
example (X : F13) : setInner env13.c pt6 3 "⟨1|9⟩".toList X false 1 = some (.error .indexError) ∧
    leftText env13.c pt6 3 "⟨1|9⟩".toList X false 1 = some pt6 := by
  have h : setInner env13.c pt6 3 "⟨1|9⟩".toList X false 1 = some (.error .indexError) := by
    have hr : SetReads "⟨1|9⟩".toList (.angle ['1'] ['9']) := by
      refine .form (g := .angle ['1'] ['9']) ?_ rfl
      exact ReadsAs.angle (o := '⟨') (c := '⟩') (by simp) (by simp) (digits_pyStr 1) (digits_pyStr 9)
    rw [setInner_of (by decide) (by simp) hr]
    simp only [setForm]
    rfl
  exact ⟨h, C124_untouched env13.c pt6 pt6_good.2 3 _ (by decide) (by decide) X 1 _ h⟩

/-- C124: momentum is conserved after ⟨1|2⟩ is set with momentum fixing, whatever the checks say of it. -/
example : ∃ qs, leftText env13.c pt6 3 (twoText '⟨' 1 2 '⟩') 7 true 1 = some qs ∧ GoodPoint env13.c qs ∧
    ∃ s : List (Fin 6), s.length ≤ 3 ∧ ∀ i, i ∉ s → qs i = pt6 i := by
  obtain ⟨qs, e, -⟩ := C61_set_angle env13.c pt6 r6 l6 pt6_massless 0 1 2 3 (by decide) ⟨by decide, by decide, by decide, by decide⟩ 7 (by decide) (by decide)
  have hi : setInner env13.c pt6 3 (twoText '⟨' 1 2 '⟩') 7 true 1 = some (.ok qs) := by
    have hr : SetReads (twoText '⟨' 1 2 '⟩') (.angle (pyStr 1) (pyStr 2)) := by
      refine .form (g := .angle (pyStr 1) (pyStr 2)) ?_ rfl
      have := ReadsAs.angle (o := '⟨') (c := '⟩') (by simp) (by simp) (digits_pyStr 1) (digits_pyStr 2)
      simpa [twoText] using this
    rw [setInner_of (plain_two (by decide) (by decide) _ _) (by simp) hr]
    have h0 : readLabel 6 (pyStr 1) = .ok 0 := readLabel_ok (n := 6) 0
    have h1 : readLabel 6 (pyStr 2) = .ok 1 := readLabel_ok (n := 6) 1
    simp only [setForm, h0, h1, e]
  obtain ⟨h1, h2⟩ := C124_momentum env13.c pt6 qs pt6_good.2 pt6_conserves 3 _ 7 1 hi
  obtain ⟨s, hs, -, hf⟩ := C124_frame env13.c pt6 qs 3 _ (by simp) 7 true 1 h1
  exact ⟨qs, h1, h2, s, hs, hf⟩

/-- Six particles: six-point spinors with the right spinor of the third along the first axis, and the last two fixed. -/
def r6z : Fin 6 → V2 F13 := ![![1, 1], ![2, 3], ![1, 0], ![1, 5], ![1, 2], ![1, 3]]

def l6z : Fin 6 → V2 F13 := ![![1, 2], ![1, 3], ![1, 4], ![2, 1], ![9, 3], ![11, 10]]

noncomputable def pt6z : Point F13 6 := fun k => (ofSpinors env13.c (r6z k) (l6z k)).st

theorem pt6z_massless (k : Fin 6) : IsMassless env13.c (pt6z k) (r6z k) (l6z k) := ofSpinors_isMassless _ _ _

theorem pt6z_conserves : Conserves pt6z := by
  intro i j
  simp only [(pt6z_massless _).r2, outer_apply, Fin.sum_univ_six]
  revert i j
  decide

/-- C124: ⟨1|2⟩ and ⟨3|4⟩ of six particles: the first is set to 7, then a ZeroDivisionError is raised, and momentum is not
conserved; one particle is changed. -/
example (s₁ s₂ : String) : setPair env13 (fun _ => .ok 0) 5 s₁ s₂ (.two true 0 1, 7) (.two true 2 3, 4) pt6z = some (.error .zeroDivision) ∧
    ∃ qs, leftPair env13 pt6z 5 s₁ s₂ (.two true 0 1, 7) (.two true 2 3, 4) = some qs ∧ angle (qs 0) (qs 1) = .ok 7 ∧
      (∀ i, i ≠ 1 → qs i = pt6z i) ∧ ¬Conserves qs ∧ OnShell env13.c qs := by
  obtain ⟨h1, qs, h2, h3, h4, h5⟩ := C124_pair_raises env13 (by decide) (fun _ => .ok 0) pt6z r6z l6z pt6z_massless 0 1 2 3 (by decide) 7 4
    (by decide) (by decide) 4 s₁ s₂
  exact ⟨h1, qs, h2, h3, h4, h5 pt6z_conserves (by decide) (by decide),
    C124_pair_shell env13 pt6z qs ⟨r6z, l6z, pt6z_massless⟩ 5 s₁ s₂ _ _ h2⟩

/-- C124: two Gram determinants: not implemented, nothing is changed. -/
example (s₁ s₂ : String) (v w : F13) : leftPair env13 pt6z 5 s₁ s₂ (.delta [[0, 1], [2, 3], [4, 5]], v) (.delta [[0, 2], [1, 3], [4, 5]], w) =
    some pt6z := (C124_pair_not env13 (fun _ => .ok 0) pt6z 5 s₁ s₂ _ _ rfl).2

/-- C124: after ⟨1|2⟩ of three particles could not be set with momentum fixing, the point is the one set without. -/
example : leftText env13.c pt3 env13.fuel (twoText '⟨' 1 2 '⟩') 5 true 1 = leftText env13.c pt3 env13.fuel (twoText '⟨' 1 2 '⟩') 5 false 1 := by
  have hr : SetReads (twoText '⟨' 1 2 '⟩') (.angle (pyStr 1) (pyStr 2)) := by
    refine .form (g := .angle (pyStr 1) (pyStr 2)) ?_ rfl
    have := ReadsAs.angle (o := '⟨') (c := '⟩') (by simp) (by simp) (digits_pyStr 1) (digits_pyStr 2)
    simpa [twoText] using this
  have un : ∀ f, SetReads (twoText '⟨' 1 2 '⟩') f → f ≠ .nothing → f = .angle (pyStr 1) (pyStr 2) := fun f hf hn =>
    ((C93_reads hn).mpr hf).symm.trans ((C93_reads (by simp)).mpr hr)
  have h2 : setInner env13.c pt3 env13.fuel (twoText '⟨' 1 2 '⟩') 5 true 1 = some (.error .indexError) := by
    have h0 : readLabel 3 (pyStr 1) = .ok 0 := readLabel_ok (n := 3) 0
    have h1 : readLabel 3 (pyStr 2) = .ok 1 := readLabel_ok (n := 3) 1
    rw [setInner_of (plain_two (by decide) (by decide) _ _) (by simp) hr]
    simp only [setForm, h0, h1]
    have hf : freeLabels [(0 : Fin 3), 1] = [2] := by decide
    obtain ⟨q, e1, hq⟩ := setRd_massless (pt3_massless 1) ![(5 - (-r3 0 0) * r3 1 1) / r3 0 1, r3 1 1]
    simp only [setA2, (pt3_massless _).r_u, (pt3_massless _).r_d, need_some, Matrix.cons_val_zero, Matrix.cons_val_one,
      pyDiv_ok (show r3 0 1 ≠ 0 by decide), fixIf, store, e1, Out.toExcept, hf]
    rfl
  exact C124_stays env13.c pt3 ⟨r3, l3, pt3_massless⟩ _ _ (fun o a m d z h => by cases un _ h (by simp))
    (fun ds h => by cases un _ h (by simp)) 5 1 _ h2

/-- C124: `fix_mom_cons(1, 2)` of three particles with vanishing square brackets raises and changes nothing. -/
example : fixMomCons env13.c pt3 1 2 false 1 (1, 2) = .error .zeroDivision ∧ fixMomConsLeft env13.c pt3 1 2 1 (1, 2) = pt3 := by
  have h : fixMomCons env13.c pt3 1 2 false 1 (1, 2) = .error .zeroDivision := fix1_zero (a := 0) (b := 1) pt3_massless (by decide)
  exact ⟨h, C124_fix_atomic env13.c pt3 ⟨r3, l3, pt3_massless⟩ 1 2 1 (1, 2) _ h⟩

/-- Six particles of which the last two have proportional left spinors. -/
def l6y : Fin 6 → V2 F13 := ![![1, 2], ![1, 3], ![1, 4], ![2, 1], ![1, 5], ![2, 10]]

noncomputable def pt6y : Point F13 6 := fun k => (ofSpinors env13.c (r6 k) (l6y k)).st

theorem pt6y_massless (k : Fin 6) : IsMassless env13.c (pt6y k) (r6 k) (l6y k) := ofSpinors_isMassless _ _ _

/-- C124: ⟨1|2⟩ and ⟨3|4⟩ of six particles: both are set, then momentum cannot be fixed. -/
example (s₁ s₂ : String) : ∃ qs, pairInner env13 pt6y 5 s₁ s₂ (.two true 0 1, 7) (.two true 2 3, 4) = some (.error .zeroDivision) ∧
    leftPair env13 pt6y 5 s₁ s₂ (.two true 0 1, 7) (.two true 2 3, 4) = some qs ∧ angle (qs 2) (qs 3) = .ok 4 := by
  obtain ⟨h1, qs, h2, -, h3, -⟩ := C124_pair_unfixable env13 (by decide) pt6y r6 l6y pt6y_massless true true 0 1 2 3 4 5 (by decide)
    ⟨by decide, by decide, by decide, by decide⟩ 7 4 (show r6 0 1 ≠ 0 by decide) (show r6 2 1 ≠ 0 by decide) (by decide) 4 s₁ s₂
  exact ⟨qs, h1, h2, h3⟩

/-- Six particles of which the fourth and fifth have proportional left spinors. -/
def l6x : Fin 6 → V2 F13 := ![![1, 6], ![1, 3], ![1, 4], ![1, 5], ![2, 10], ![1, 7]]

noncomputable def pt6x : Point F13 6 := fun k => (ofSpinors env13.c (r6 k) (l6x k)).st

theorem pt6x_massless (k : Fin 6) : IsMassless env13.c (pt6x k) (r6 k) (l6x k) := ofSpinors_isMassless _ _ _

/-- C124: s_123 of six particles: set to 7, then momentum cannot be fixed. -/
example : setS env13.c pt6x [0, 1, 2] 7 true 1 = .error .zeroDivision ∧ computeS (leftS env13.c pt6x [0, 1, 2] 7 true 1) [0, 1, 2] = 7 ∧
    leftS env13.c pt6x [0, 1, 2] 7 true 1 = leftS env13.c pt6x [0, 1, 2] 7 false 1 := by
  obtain ⟨v, hv, hv0⟩ := of_headOk (e := computeOpenBegin pt6x [plusOf [1, 2]] 0 (if 1 = 1 then ']' else '⟩')) (by decide +kernel)
  obtain ⟨h1, h2, -⟩ := C124_mandelstam_unfixable env13.c pt6x r6 l6x pt6x_massless 0 [1, 2] (by decide) (by decide) 1 (.inl rfl) 3 4
    ⟨by decide, by decide, by decide, by decide⟩ 7 hv hv0 (by decide)
  exact ⟨h1, h2, C124_stays_mandelstam env13.c pt6x ⟨r6, l6x, pt6x_massless⟩ [0, 1, 2] (by decide) 7 1 _ h1⟩

end Lips

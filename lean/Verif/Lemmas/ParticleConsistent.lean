import Verif.Spec.Particle
import Verif.Lemmas.Particle

/-! Every building block of the setters keeps a particle consistent. -/

namespace Lips

open Matrix

variable {K : Type*} [Field K]

theorem specRaise_rDownUp (s : V2 K) : SpecRaise s (rDownUp s) := by
  rw [rDownUp_eq]; exact ⟨rfl, rfl⟩

theorem specRaise_lDownUp (s : V2 K) : SpecRaise s (lDownUp s) := by
  rw [lDownUp_eq]; exact ⟨rfl, rfl⟩

theorem specRaise_rUpDown (s : V2 K) : SpecRaise (rUpDown s) s := by
  rw [rUpDown_eq]; constructor <;> simp

theorem specRaise_lUpDown (s : V2 K) : SpecRaise (lUpDown s) s := by
  rw [lUpDown_eq]; constructor <;> simp

theorem rDownUp_rUpDown (s : V2 K) : rDownUp (rUpDown s) = s := by
  rw [rDownUp_eq, rUpDown_eq]; funext j; fin_cases j <;> simp

theorem rUpDown_rDownUp (s : V2 K) : rUpDown (rDownUp s) = s := by
  rw [rDownUp_eq, rUpDown_eq]; funext j; fin_cases j <;> simp

theorem lDownUp_lUpDown (s : V2 K) : lDownUp (lUpDown s) = s := by
  rw [lDownUp_eq, lUpDown_eq]; funext j; fin_cases j <;> simp

theorem lUpDown_lDownUp (s : V2 K) : lUpDown (lDownUp s) = s := by
  rw [lDownUp_eq, lUpDown_eq]; funext j; fin_cases j <;> simp

theorem specSlash_r2ToMom [NeZero (2 : K)] {i : K} (hi : i * i = -1) (m : M2 K) :
    SpecSlash i (r2ToMom i m) m := by
  have h2 : (2 : K) ≠ 0 := NeZero.ne 2
  rw [r2ToMom_eq]
  refine ⟨?_, ?_, ?_, ?_⟩ <;> simp <;> field_simp
  · ring
  · linear_combination (m 0 1 - m 1 0) * hi
  · linear_combination (m 1 0 - m 0 1) * hi
  · ring

theorem specSlash_momdToR2 (i : K) {v vd : V4 K} (h : SpecLower v vd) :
    SpecSlash i v (momdToR2 i vd) := by
  obtain ⟨h0, h1, h2, h3⟩ := h
  rw [momdToR2_eq]
  refine ⟨?_, ?_, ?_, ?_⟩ <;> simp [h0, h1, h2, h3] <;> ring

theorem specLower_momFlip (v : V4 K) : SpecLower v (momFlip v) := by
  rw [momFlip_eq]; exact ⟨rfl, rfl, rfl, rfl⟩

theorem specLower_momFlip' (v : V4 K) : SpecLower (momFlip v) v := by
  rw [momFlip_eq]; refine ⟨?_, ?_, ?_, ?_⟩ <;> simp

/-- The momentum slots after the `try` block computing the four momentum from `r2_sp_b`. -/
theorem momConsistent_momFromR2b [NeZero (2 : K)] (c : Ctx K) (p : Particle K)
    (h : p.r2b = flip2 p.r2) : MomConsistent c (momFromR2b c p) := by
  unfold momFromR2b
  cases hc : c.imag with
  | none => exact ⟨by simpa [flip2_eq_adjugate] using h, fun _ => ⟨rfl, rfl⟩, by simp [hc]⟩
  | some i =>
    refine ⟨by simpa [flip2_eq_adjugate] using h, by simp [hc], ?_⟩
    intro j hj
    obtain rfl : i = j := by rw [hc] at hj; exact Option.some.inj hj
    refine ⟨_, _, rfl, rfl, specLower_momFlip _, ?_⟩
    simp only
    rw [h, r2bToMom_flip2]
    exact specSlash_r2ToMom (c.imag_sq i hc) _

theorem momConsistent_momFromR2 [NeZero (2 : K)] (c : Ctx K) (p : Particle K)
    (h : p.r2b = flip2 p.r2) : MomConsistent c (momFromR2 c p) := by
  unfold momFromR2
  cases hc : c.imag with
  | none => exact ⟨by simpa [flip2_eq_adjugate] using h, fun _ => ⟨rfl, rfl⟩, by simp [hc]⟩
  | some i =>
    refine ⟨by simpa [flip2_eq_adjugate] using h, by simp [hc], ?_⟩
    intro j hj
    obtain rfl : i = j := by rw [hc] at hj; exact Option.some.inj hj
    exact ⟨_, _, rfl, rfl, specLower_momFlip _, specSlash_r2ToMom (c.imag_sq i hc) _⟩

@[simp] theorem momFromR2b_fields (c : Ctx K) (p : Particle K) :
    (momFromR2b c p).r_d = p.r_d ∧ (momFromR2b c p).l_d = p.l_d ∧ (momFromR2b c p).r_u = p.r_u ∧
    (momFromR2b c p).l_u = p.l_u ∧ (momFromR2b c p).r2 = p.r2 ∧ (momFromR2b c p).r2b = p.r2b := by
  unfold momFromR2b; cases c.imag <;> simp

@[simp] theorem momFromR2_fields (c : Ctx K) (p : Particle K) :
    (momFromR2 c p).r_d = p.r_d ∧ (momFromR2 c p).l_d = p.l_d ∧ (momFromR2 c p).r_u = p.r_u ∧
    (momFromR2 c p).l_u = p.l_u ∧ (momFromR2 c p).r2 = p.r2 ∧ (momFromR2 c p).r2b = p.r2b := by
  unfold momFromR2; cases c.imag <;> simp

/-- The spinor derivation never touches the momentum slots, whatever happens. -/
theorem deriveSpinors_mom (c : Ctx K) (p : Particle K) (a b d : K) :
    (deriveSpinors c p a b d).st.r2 = p.r2 ∧ (deriveSpinors c p a b d).st.r2b = p.r2b ∧
    (deriveSpinors c p a b d).st.mom = p.mom ∧ (deriveSpinors c p a b d).st.mom_d = p.mom_d := by
  unfold deriveSpinors
  cases deriveR c a b with
  | val r => cases deriveL c a d <;> simp
  | caught => simp
  | escaped e => simp

theorem deriveSpinors_spin (c : Ctx K) (p : Particle K) (a b d : K)
    (h : (deriveSpinors c p a b d).err = none) : SpinConsistent (deriveSpinors c p a b d).st := by
  unfold deriveSpinors at *
  cases hr : deriveR c a b with
  | caught => simp only; constructor <;> simp
  | escaped e => simp [hr] at h
  | val r =>
    cases hl : deriveL c a d with
    | caught => simp only; constructor <;> simp
    | escaped e => simp [hr, hl] at h
    | val l =>
      simp only
      constructor
      · simp
      · simp
      · simp
      · rintro s u ⟨rfl⟩ ⟨rfl⟩; exact specRaise_rDownUp _
      · rintro s u ⟨rfl⟩ ⟨rfl⟩; exact specRaise_lDownUp _

/-- The values derived in either convention factorise a massless lower bispinor. -/
theorem derive_factor (c : Ctx K) {m : M2 K} (hdet : m.det = 0) {r l : V2 K}
    (hr : deriveR c (m 0 0) (m 1 0) = .val r) (hl : deriveL c (m 0 0) (m 0 1) = .val l) :
    ∀ a b, m a b = r a * l b := by
  have hd : m 0 0 * m 1 1 = m 0 1 * m 1 0 := by
    rw [det_fin_two] at hdet; linear_combination hdet
  unfold deriveR at hr
  unfold deriveL at hl
  cases hc : c.conv with
  | symmetric =>
    simp only [hc] at hr hl
    by_cases hs : c.small (m 0 0) = true
    · simp [hs] at hr
    · simp only [hs] at hr hl
      cases hq : c.sqrt (m 0 0) with
      | none => simp [hq] at hr
      | some s =>
        simp only [hq, Bool.false_eq_true, if_false, Derived.val.injEq] at hr hl
        have hss := c.sqrt_sq _ _ hq
        have hs0 : s ≠ 0 := by
          rintro rfl
          apply hs
          rw [← hss, mul_zero]; exact c.small_zero
        subst hr hl
        intro a b
        fin_cases a <;> fin_cases b <;> simp
        · exact hss.symm
        · field_simp
        · field_simp
        · field_simp
          rw [← hss] at hd
          linear_combination hd
  | asymmetric =>
    simp only [hc] at hr hl
    by_cases h0 : m 0 0 = 0
    · simp [h0] at hl
    · simp only [h0, if_false, Derived.val.injEq] at hr hl
      subst hr hl
      intro a b
      fin_cases a <;> fin_cases b <;> simp
      · field_simp
      · field_simp; linear_combination hd

theorem deriveSpinors_reproduce (c : Ctx K) (p : Particle K) (a b d : K)
    (hbar : p.r2b = flip2 p.r2) (ha : p.r2b 0 0 = a) (hb : p.r2b 1 0 = b) (hd : p.r2b 0 1 = d)
    (h : (deriveSpinors c p a b d).err = none) : SpinorsReproduce (deriveSpinors c p a b d).st := by
  intro r l hr hl hdet
  obtain ⟨h2, h2b, -, -⟩ := deriveSpinors_mom c p a b d
  rw [h2] at hdet
  rw [h2b]
  have hdet' : p.r2b.det = 0 := by rw [hbar, det_flip2]; exact hdet
  subst ha hb hd
  unfold deriveSpinors at h hr hl
  cases hR : deriveR c (p.r2b 0 0) (p.r2b 1 0) with
  | caught => simp [hR] at hr
  | escaped e => simp [hR] at h
  | val r' =>
    cases hL : deriveL c (p.r2b 0 0) (p.r2b 0 1) with
    | caught => simp [hR, hL] at hr
    | escaped e => simp [hR, hL] at h
    | val l' =>
      simp only [hR, hL, Option.some.injEq] at hr hl
      subst hr hl
      exact derive_factor c hdet' hR hL

theorem deriveSpinors_consistent (c : Ctx K) (p : Particle K) (a b d : K)
    (hm : MomConsistent c p) (ha : p.r2b 0 0 = a) (hb : p.r2b 1 0 = b) (hd : p.r2b 0 1 = d)
    (h : (deriveSpinors c p a b d).err = none) : Consistent c (deriveSpinors c p a b d).st := by
  obtain ⟨h2, h2b, hmo, hmd⟩ := deriveSpinors_mom c p a b d
  refine ⟨⟨?_, ?_, ?_⟩, deriveSpinors_spin c p a b d h,
    deriveSpinors_reproduce c p a b d ?_ ha hb hd h⟩
  · rw [h2, h2b]; exact hm.bar
  · rw [hmo, hmd]; exact hm.mom_none
  · rw [hmo, hmd, h2]; exact hm.mom_some
  · rw [flip2_eq_adjugate]; exact hm.bar

theorem rebuild_consistent [NeZero (2 : K)] (c : Ctx K) (p : Particle K)
    (hsr : ∀ s u, p.r_d = some s → p.r_u = some u → SpecRaise s u)
    (hsl : ∀ s u, p.l_d = some s → p.l_u = some u → SpecRaise s u)
    (h : (rebuildFromSpinors c p).err = none) :
    Consistent c (rebuildFromSpinors c p).st := by
  unfold rebuildFromSpinors at *
  rcases hr : p.r_d with _ | r
  · simp [hr] at h
  rcases hl : p.l_d with _ | l
  · simp [hl] at h
  rcases hru : p.r_u with _ | ru
  · simp [hru] at h
  rcases hlu : p.l_u with _ | lu
  · simp [hlu] at h
  simp only
  have e1 : ru = rDownUp r := by
    obtain ⟨h0, h1⟩ := hsr _ _ hr hru
    rw [rDownUp_eq]; funext j; fin_cases j <;> simp [h0, h1]
  have e2 : lu = lDownUp l := by
    obtain ⟨h0, h1⟩ := hsl _ _ hl hlu
    rw [lDownUp_eq]; funext j; fin_cases j <;> simp [h0, h1]
  subst e1 e2
  obtain ⟨f1, f2, f3, f4, f5, f6⟩ := momFromR2b_fields c
    { p with r2 := outer (lDownUp l) (rDownUp r), r2b := outer r l, r_d := some r, l_d := some l,
             r_u := some (rDownUp r), l_u := some (lDownUp l) }
  simp only [hr, hl, hru, hlu] at *
  refine ⟨momConsistent_momFromR2b c _ ?_, ⟨?_, ?_, ?_, ?_, ?_⟩, ?_⟩
  · simp only; rw [outer_up, flip2_flip2]
  · simp
  · simp
  · simp
  · intro s u hs' hu'; rw [f1] at hs'; rw [f3] at hu'
    cases hs'; cases hu'; exact specRaise_rDownUp r
  · intro s u hs' hu'; rw [f2] at hs'; rw [f4] at hu'
    cases hs'; cases hu'; exact specRaise_lDownUp l
  · intro r' l' hr' hl' _ a b
    rw [f1] at hr'; rw [f2] at hl'; cases hr'; cases hl'
    rw [f6, outer_apply]

end Lips

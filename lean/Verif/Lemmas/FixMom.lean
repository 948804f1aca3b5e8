import Verif.Lemmas.ParticleConsistent
import Verif.Model.FixMom

/-! Helper lemmas on `fix_mom_cons`. -/

namespace Lips

open Matrix

variable {K : Type*} [Field K] {n : ℕ}

/-- Consistent particles are determined by their lower spinors and momentum. -/
theorem consistent_ext [NeZero (2 : K)] {c : Ctx K} {p q : Particle K} (hp : Consistent c p)
    (hs' : Consistent c q) (er : q.r_d = p.r_d) (el : q.l_d = p.l_d) (e2 : q.r2 = p.r2) :
    q = p := by
  have uniq : ∀ s u u' : V2 K, SpecRaise s u → SpecRaise s u' → u = u' := by
    rintro s u u' ⟨a, b⟩ ⟨a', b'⟩
    funext j; fin_cases j
    · exact a.trans a'.symm
    · exact b.trans b'.symm
  have eru : q.r_u = p.r_u := by
    rcases hd : p.r_d with _ | s
    · rw [hp.spin.r_none.mp hd, hs'.spin.r_none.mp (er.trans hd)]
    · rcases hu : p.r_u with _ | u
      · rw [hp.spin.r_none.mpr hu] at hd; cases hd
      · rcases hu' : q.r_u with _ | u'
        · have := hs'.spin.r_none.mpr hu'; rw [er, hd] at this; cases this
        · rw [uniq s u' u (hs'.spin.r_up _ _ (er.trans hd) hu') (hp.spin.r_up _ _ hd hu)]
  have elu : q.l_u = p.l_u := by
    rcases hd : p.l_d with _ | s
    · rw [hp.spin.l_none.mp hd, hs'.spin.l_none.mp (el.trans hd)]
    · rcases hu : p.l_u with _ | u
      · rw [hp.spin.l_none.mpr hu] at hd; cases hd
      · rcases hu' : q.l_u with _ | u'
        · have := hs'.spin.l_none.mpr hu'; rw [el, hd] at this; cases this
        · rw [uniq s u' u (hs'.spin.l_up _ _ (el.trans hd) hu') (hp.spin.l_up _ _ hd hu)]
  have eb : q.r2b = p.r2b := by rw [hs'.mom.bar, hp.mom.bar, e2]
  have em : q.mom = p.mom ∧ q.mom_d = p.mom_d := by
    cases hi : c.imag with
    | none =>
      obtain ⟨a, b⟩ := hp.mom.mom_none hi
      obtain ⟨a', b'⟩ := hs'.mom.mom_none hi
      exact ⟨a'.trans a.symm, b'.trans b.symm⟩
    | some i =>
      have h2 : (2 : K) ≠ 0 := NeZero.ne 2
      have hi0 : i ≠ 0 := by rintro rfl; have := c.imag_sq 0 hi; simp at this
      obtain ⟨v, vd, hv, hvd, ⟨l0, l1, l2, l3⟩, h00, h01, h10, h11⟩ := hp.mom.mom_some i hi
      obtain ⟨w, wd, hw, hwd, ⟨k0, k1, k2, k3⟩, g00, g01, g10, g11⟩ := hs'.mom.mom_some i hi
      rw [e2] at g00 g01 g10 g11
      rw [h00] at g00; rw [h01] at g01; rw [h10] at g10; rw [h11] at g11
      have e : w = v := by
        funext j; fin_cases j <;> simp
        · apply mul_left_cancel₀ h2; linear_combination -g00 - g11
        · apply mul_left_cancel₀ h2; linear_combination g01 + g10
        · apply mul_left_cancel₀ (mul_ne_zero h2 hi0); linear_combination g10 - g01
        · apply mul_left_cancel₀ h2; linear_combination g00 - g11
      subst e
      have ed : wd = vd := by
        funext j; fin_cases j <;> simp [k0, k1, k2, k3, l0, l1, l2, l3]
      subst ed
      exact ⟨hw.trans hv.symm, hwd.trans hvd.symm⟩
  obtain ⟨em1, em2⟩ := em
  rcases q with ⟨_, _, _, _, _, _, _, _⟩
  rcases p with ⟨_, _, _, _, _, _, _, _⟩
  simp only at er el eru elu e2 eb em1 em2
  subst er el eru elu e2 eb em1 em2
  rfl

theorem setRu_eq (c : Ctx K) (p : Particle K) (s l lu : V2 K) (hl : p.l_d = some l)
    (hlu : p.l_u = some lu) :
    setRu c p s = ⟨momFromR2b c
      { p with
        r_u := some s, r_d := some (rUpDown s), r2 := outer lu s, r2b := outer (rUpDown s) l },
      none⟩ := by
  simp [setRu, rebuildFromSpinors, hl, hlu]

theorem setLu_eq (c : Ctx K) (p : Particle K) (s r ru : V2 K) (hr : p.r_d = some r)
    (hru : p.r_u = some ru) :
    setLu c p s = ⟨momFromR2b c
      { p with
        l_u := some s, l_d := some (lUpDown s), r2 := outer s ru, r2b := outer r (lUpDown s) },
      none⟩ := by
  simp [setLu, rebuildFromSpinors, hr, hru]

theorem spinConsistent_lu {p : Particle K} (hp : SpinConsistent p) {l : V2 K}
    (hl : p.l_d = some l) : p.l_u = some ![l 1, -l 0] := by
  rcases hu : p.l_u with _ | u
  · rw [hp.l_none.mpr hu] at hl; cases hl
  · obtain ⟨a, b⟩ := hp.l_up _ _ hl hu
    congr 1; funext j; fin_cases j <;> simp [a, b]

theorem spinConsistent_ru {p : Particle K} (hp : SpinConsistent p) {r : V2 K}
    (hr : p.r_d = some r) : p.r_u = some ![r 1, -r 0] := by
  rcases hu : p.r_u with _ | u
  · rw [hp.r_none.mpr hu] at hr; cases hr
  · obtain ⟨a, b⟩ := hp.r_up _ _ hr hu
    congr 1; funext j; fin_cases j <;> simp [a, b]

/-- The total momentum splits off any two positions. -/
theorem totalMom_split (ps : Point K n) {a b : Fin n} (hab : a ≠ b) :
    totalMom ps = (ps a).r2 + (ps b).r2 + othersR2 ps a b := by
  unfold totalMom othersR2
  rw [← Finset.add_sum_erase Finset.univ (fun i => (ps i).r2) (Finset.mem_univ a),
    ← Finset.add_sum_erase (Finset.univ.erase a) (fun i => (ps i).r2)
      (Finset.mem_erase.mpr ⟨hab.symm, Finset.mem_univ b⟩), ← add_assoc]
  congr 1
  apply Finset.sum_congr _ (fun _ _ => rfl)
  ext k; simp; tauto

theorem othersR2_congr (ps qs : Point K n) (a b : Fin n)
    (h : ∀ k, k ≠ a → k ≠ b → qs k = ps k) : othersR2 qs a b = othersR2 ps a b := by
  unfold othersR2
  apply Finset.sum_congr rfl
  intro k hk
  simp only [Finset.mem_filter, Finset.mem_univ, true_and] at hk
  rw [h k hk.1 hk.2]

/-- What the axis-1 branch computes when the guards hold. -/
theorem fixAxis1_ok (c : Ctx K) (ps : Point K n) {a b : Fin n} (hab : a ≠ b)
    (ha : SpinConsistent (ps a)) (hb : SpinConsistent (ps b)) {la lb : V2 K}
    (hla : (ps a).l_d = some la) (hlb : (ps b).l_d = some lb)
    (hd : la 0 * lb 1 - la 1 * lb 0 ≠ 0) :
    ∃ pa pb : Particle K,
      setRu c (ps a) (fun j => vecMul lb (othersR2 ps a b) j / (la 0 * lb 1 - la 1 * lb 0)) =
        ⟨pa, none⟩ ∧
      setRu c (ps b) (fun j => -(vecMul la (othersR2 ps a b) j) / (la 0 * lb 1 - la 1 * lb 0)) =
        ⟨pb, none⟩ ∧
      fixAxis1 c ps a b = .ok (Function.update (Function.update ps a pa) b pb) := by
  have hlua := spinConsistent_lu ha hla
  have hlub := spinConsistent_lu hb hlb
  have e : ∀ p q : Particle K, p.l_d = some la → q.l_u = some ![lb 1, -lb 0] →
      square p q = .ok (la 0 * lb 1 - la 1 * lb 0) := by
    intro p q h1 h2
    simp [square, h1, h2, dot2]; ring
  obtain ⟨pa, sa, hpa⟩ : ∃ pa, setRu c (ps a)
      (fun j => vecMul lb (othersR2 ps a b) j / (la 0 * lb 1 - la 1 * lb 0)) = ⟨pa, none⟩ ∧
      pa.l_d = some la :=
    ⟨_, setRu_eq c (ps a) _ _ _ hla hlua, (momFromR2b_fields c _).2.1.trans hla⟩
  obtain ⟨pb, sb⟩ : ∃ pb, setRu c (ps b)
      (fun j => -(vecMul la (othersR2 ps a b) j) / (la 0 * lb 1 - la 1 * lb 0)) = ⟨pb, none⟩ :=
    ⟨_, setRu_eq c (ps b) _ _ _ hlb hlub⟩
  refine ⟨pa, pb, sa, sb, ?_⟩
  unfold fixAxis1
  simp only [hlb, e _ _ hla hlub, e _ _ hpa hlub, bind, Except.bind, hd, if_false, sa,
    Out.toExcept, Function.update_self, Function.update_of_ne hab.symm, hpa, sb, pure, Except.pure]

/-- What the axis-2 branch computes when the guards hold. -/
theorem fixAxis2_ok (c : Ctx K) (ps : Point K n) {a b : Fin n} (hab : a ≠ b)
    (ha : SpinConsistent (ps a)) (hb : SpinConsistent (ps b)) {ra rb : V2 K}
    (hra : (ps a).r_d = some ra) (hrb : (ps b).r_d = some rb)
    (hd : ra 1 * rb 0 - ra 0 * rb 1 ≠ 0) :
    ∃ pa pb : Particle K,
      setLu c (ps a) (fun j => -((othersR2 ps a b).mulVec rb j) / (ra 1 * rb 0 - ra 0 * rb 1)) =
        ⟨pa, none⟩ ∧
      setLu c (ps b) (fun j => (othersR2 ps a b).mulVec ra j / (ra 1 * rb 0 - ra 0 * rb 1)) =
        ⟨pb, none⟩ ∧
      fixAxis2 c ps a b = .ok (Function.update (Function.update ps a pa) b pb) := by
  have hrua := spinConsistent_ru ha hra
  have hrub := spinConsistent_ru hb hrb
  have e : ∀ p q : Particle K, p.r_u = some ![ra 1, -ra 0] → q.r_d = some rb →
      angle p q = .ok (ra 1 * rb 0 - ra 0 * rb 1) := by
    intro p q h1 h2
    simp [angle, h1, h2, dot2]; ring
  obtain ⟨pa, sa, hpa, hpau⟩ : ∃ pa, setLu c (ps a)
      (fun j => -((othersR2 ps a b).mulVec rb j) / (ra 1 * rb 0 - ra 0 * rb 1)) = ⟨pa, none⟩ ∧
      pa.r_d = some ra ∧ pa.r_u = some ![ra 1, -ra 0] :=
    ⟨_, setLu_eq c (ps a) _ _ _ hra hrua, (momFromR2b_fields c _).1.trans hra,
      (momFromR2b_fields c _).2.2.1.trans hrua⟩
  obtain ⟨pb, sb⟩ : ∃ pb, setLu c (ps b)
      (fun j => (othersR2 ps a b).mulVec ra j / (ra 1 * rb 0 - ra 0 * rb 1)) = ⟨pb, none⟩ :=
    ⟨_, setLu_eq c (ps b) _ _ _ hrb hrub⟩
  refine ⟨pa, pb, sa, sb, ?_⟩
  unfold fixAxis2
  simp only [hrb, e _ _ hrua hrb, e _ _ hpau hrb, bind, Except.bind, hd, if_false, sa,
    Out.toExcept, Function.update_self, Function.update_of_ne hab.symm, hpa, sb, pure, Except.pure]

end Lips

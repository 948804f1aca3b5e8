import Verif.Lemmas.ParticleConsistent
import Mathlib.Algebra.Field.Rat

/-!
Properties C01-C05, C08: a single particle.
-/

namespace Lips

open Matrix

variable {K : Type*} [Field K]

/-! ### C01 -/

/-- C01, one assignment. -/
theorem C01_op_consistent [NeZero (2 : K)] (c : Ctx K) (p : Particle K) (o : Op K)
    (hp : Consistent c p) (h : (applyOp c p o).err = none) :
    Consistent c (applyOp c p o).st := by
  cases o with
  | rd s =>
    apply rebuild_consistent c _ _ _ h
    · rintro s u ⟨rfl⟩ ⟨rfl⟩; exact specRaise_rDownUp _
    · exact hp.spin.l_up
  | ld s =>
    apply rebuild_consistent c _ _ _ h
    · exact hp.spin.r_up
    · rintro s u ⟨rfl⟩ ⟨rfl⟩; exact specRaise_lDownUp _
  | ru s =>
    apply rebuild_consistent c _ _ _ h
    · rintro s u ⟨rfl⟩ ⟨rfl⟩; exact specRaise_rUpDown _
    · exact hp.spin.l_up
  | lu s =>
    apply rebuild_consistent c _ _ _ h
    · exact hp.spin.r_up
    · rintro s u ⟨rfl⟩ ⟨rfl⟩; exact specRaise_lUpDown _
  | r2 m =>
    obtain ⟨-, -, -, -, f5, f6⟩ := momFromR2_fields c { p with r2 := m, r2b := flip2 m }
    apply deriveSpinors_consistent c _ _ _ _ (momConsistent_momFromR2 c _ rfl) _ _ _ h <;>
      rw [f6] <;> simp [flip2_eq]
  | r2b m =>
    obtain ⟨-, -, -, -, f5, f6⟩ := momFromR2b_fields c { p with r2b := m, r2 := flip2 m }
    apply deriveSpinors_consistent c _ _ _ _
      (momConsistent_momFromR2b c _ (flip2_flip2 m).symm) _ _ _ h <;>
      rw [f6] <;> simp [flip2_eq]
  | mom v =>
    simp only [applyOp, setMom, fromMom] at h ⊢
    cases hc : c.imag with
    | none => simp [hc] at h
    | some i =>
      simp only [hc] at h
      apply deriveSpinors_consistent c _ _ _ _ _ _ _ _ h
      · refine ⟨?_, by simp [hc], ?_⟩
        · simp only; rw [momdToR2b_eq_flip2, flip2_eq_adjugate]
        · intro j hj
          obtain rfl : i = j := by rw [hc] at hj; exact Option.some.inj hj
          exact ⟨_, _, rfl, rfl, specLower_momFlip _, specSlash_momdToR2 i (specLower_momFlip _)⟩
      all_goals simp [momdToR2b_eq, momFlip_eq] <;> ring
  | momd v =>
    simp only [applyOp, setMomd, fromMom] at h ⊢
    cases hc : c.imag with
    | none => simp [hc] at h
    | some i =>
      simp only [hc] at h
      apply deriveSpinors_consistent c _ _ _ _ _ _ _ _ h
      · refine ⟨?_, by simp [hc], ?_⟩
        · simp only; rw [momdToR2b_eq_flip2, flip2_eq_adjugate]
        · intro j hj
          obtain rfl : i = j := by rw [hc] at hj; exact Option.some.inj hj
          exact ⟨_, _, rfl, rfl, specLower_momFlip' _, specSlash_momdToR2 i (specLower_momFlip' _)⟩
      all_goals simp [momdToR2b_eq, momFlip_eq]
      all_goals ring
  | swap =>
    simp only [applyOp, anglesForSquares]
    have hbar : p.r2bᵀ = flip2 p.r2ᵀ := by
      rw [hp.mom.bar, ← flip2_eq_adjugate, flip2_eq, flip2_eq]
      ext a b; fin_cases a <;> fin_cases b <;> simp
    rcases hl : p.l_d with _ | l
    · have hr : p.r_d = none := hp.spin.both.mpr hl
      show Consistent c (momFromR2b c { p with r2 := p.r2ᵀ, r2b := p.r2bᵀ })
      refine ⟨momConsistent_momFromR2b c _ hbar, ?_, ?_⟩
      · obtain ⟨f1, f2, f3, f4, -, -⟩ :=
          momFromR2b_fields c { p with r2 := p.r2ᵀ, r2b := p.r2bᵀ }
        constructor
        · rw [f1, f2]; exact hp.spin.both
        · rw [f1, f3]; exact hp.spin.r_none
        · rw [f2, f4]; exact hp.spin.l_none
        · rw [f1, f3]; exact hp.spin.r_up
        · rw [f2, f4]; exact hp.spin.l_up
      · intro r l' hr'
        obtain ⟨f1, -⟩ := momFromR2b_fields c { p with r2 := p.r2ᵀ, r2b := p.r2bᵀ }
        rw [f1] at hr'; simp [hr] at hr'
    · rcases hr : p.r_d with _ | r
      · simp [hp.spin.both.mp hr] at hl
      simp only
      obtain ⟨f1, f2, f3, f4, f5, f6⟩ := momFromR2b_fields c
        { p with l_d := some r, r_d := some l, l_u := some (lDownUp r), r_u := some (rDownUp l),
                 r2 := p.r2ᵀ, r2b := p.r2bᵀ }
      refine ⟨momConsistent_momFromR2b c _ ?_, ⟨?_, ?_, ?_, ?_, ?_⟩, ?_⟩
      · simpa using hbar
      · rw [f1, f2]; simp
      · rw [f1, f3]; simp
      · rw [f2, f4]; simp
      · rw [f1, f3]; rintro s u ⟨rfl⟩ ⟨rfl⟩; exact specRaise_rDownUp _
      · rw [f2, f4]; rintro s u ⟨rfl⟩ ⟨rfl⟩; exact specRaise_lDownUp _
      · rw [SpinorsReproduce, f1, f2, f5, f6]
        rintro s u ⟨rfl⟩ ⟨rfl⟩ hdet a b
        show p.r2b b a = _
        rw [hp.spinors _ _ hr hl (by simpa using hdet), mul_comm]

/-- C01: every history of operations that all return keeps every exposed
representation consistent with every other. -/
theorem C01_history_consistent [NeZero (2 : K)] (c : Ctx K) (os : List (Op K)) :
    ∀ p p' : Particle K, Consistent c p → runOps c p os = some p' → Consistent c p' := by
  induction os with
  | nil => intro p p' hp h; cases h; exact hp
  | cons o os ih =>
    intro p p' hp h
    have hop := C01_op_consistent c p o hp
    unfold runOps at h
    rcases ho : applyOp c p o with ⟨q, _ | e⟩
    · rw [ho] at h hop; exact ih q p' (hop rfl) h
    · rw [ho] at h; simp at h

/-- C01: the constructors start the history in a consistent state. -/
theorem C01_constructors_consistent [NeZero (2 : K)] (c : Ctx K) :
    (∀ m, (ofR2 c m).err = none → Consistent c (ofR2 c m).st) ∧
    (∀ v, (ofMom c v).err = none → Consistent c (ofMom c v).st) ∧
    (∀ r l, (ofSpinors c r l).err = none ∧ Consistent c (ofSpinors c r l).st) := by
  refine ⟨fun m h => ?_, fun v h => ?_, fun r l => ⟨rfl, ?_⟩⟩
  · -- the setter does not look at the previous slots
    obtain ⟨-, -, -, -, f5, f6⟩ := momFromR2_fields c { (blank : Particle K) with r2 := m, r2b := flip2 m }
    apply deriveSpinors_consistent c _ _ _ _ (momConsistent_momFromR2 c _ rfl) _ _ _ h <;>
      rw [f6] <;> simp [flip2_eq]
  · simp only [ofMom, setMom, fromMom] at h ⊢
    cases hc : c.imag with
    | none => simp [hc] at h
    | some i =>
      simp only [hc] at h
      apply deriveSpinors_consistent c _ _ _ _ _ _ _ _ h
      · refine ⟨?_, by simp [hc], ?_⟩
        · simp only; rw [momdToR2b_eq_flip2, flip2_eq_adjugate]
        · intro j hj
          obtain rfl : i = j := by rw [hc] at hj; exact Option.some.inj hj
          exact ⟨_, _, rfl, rfl, specLower_momFlip _, specSlash_momdToR2 i (specLower_momFlip _)⟩
      all_goals simp [momdToR2b_eq, momFlip_eq] <;> ring
  · apply rebuild_consistent c
    · rintro s u ⟨rfl⟩ ⟨rfl⟩; exact specRaise_rDownUp _
    · rintro s u ⟨rfl⟩ ⟨rfl⟩; exact specRaise_lDownUp _
    · rfl

/-- C01 (finding): on a particle whose spinors are unset (a degenerate momentum), assigning one
spinor raises TypeError after storing it: the momentum is the old one and the object holds a
right spinor without a left one. -/
theorem C01_missing_spinor_half_assigned (c : Ctx K) (p : Particle K) (s : V2 K)
    (hl : p.l_d = none) :
    (setRd c p s).err = some .typeError ∧ (setRd c p s).st.r_d = some s ∧
    (setRd c p s).st.l_d = none ∧ (setRd c p s).st.r2 = p.r2 ∧ ¬ SpinConsistent (setRd c p s).st := by
  have e : setRd c p s = ⟨{ p with
      r_d := some s, r_u := some (rDownUp s) }, some .typeError⟩ := by
    simp [setRd, rebuildFromSpinors, hl]
  rw [e]
  refine ⟨rfl, rfl, hl, rfl, fun h => ?_⟩
  have := h.both.mpr hl
  cases this

/-! ### C02 -/

/-- C02: the value read straight after assigning it is the assigned one, for each of
the eight properties (for the momentum-like ones even if the assignment raises
while deriving spinors). -/
theorem C02_assign_then_read (c : Ctx K) (p : Particle K) :
    (∀ s, (setRd c p s).st.r_d = some s) ∧ (∀ s, (setLd c p s).st.l_d = some s) ∧
    (∀ s, (setRu c p s).st.r_u = some s) ∧ (∀ s, (setLu c p s).st.l_u = some s) ∧
    (∀ m, (setR2 c p m).st.r2 = m) ∧ (∀ m, (setR2b c p m).st.r2b = m) ∧
    (∀ v, (setMom c p v).st.mom = some v) ∧ (∀ v, (setMomd c p v).st.mom_d = some v) := by
  have key : ∀ q : Particle K, (rebuildFromSpinors c q).st.r_d = q.r_d ∧
      (rebuildFromSpinors c q).st.l_d = q.l_d ∧ (rebuildFromSpinors c q).st.r_u = q.r_u ∧
      (rebuildFromSpinors c q).st.l_u = q.l_u := by
    intro q
    unfold rebuildFromSpinors
    rcases q with ⟨_ | r, _ | l, _ | ru, _ | lu, m, mb, v, vd⟩ <;>
      (unfold momFromR2b; cases c.imag <;> simp)
  refine ⟨fun s => (key _).1, fun s => (key _).2.1, fun s => (key _).2.2.1,
    fun s => (key _).2.2.2, fun m => ?_, fun m => ?_, fun v => ?_, fun v => ?_⟩
  · unfold setR2; rw [(deriveSpinors_mom c _ _ _ _).1, (momFromR2_fields c _).2.2.2.2.1]
  · unfold setR2b; rw [(deriveSpinors_mom c _ _ _ _).2.1, (momFromR2b_fields c _).2.2.2.2.2]
  · unfold setMom fromMom
    cases c.imag with
    | none => rfl
    | some i => simp only; rw [(deriveSpinors_mom c _ _ _ _).2.2.1]
  · unfold setMomd fromMom
    cases c.imag with
    | none => rfl
    | some i => simp only; rw [(deriveSpinors_mom c _ _ _ _).2.2.2]

/-- C02: raising and lowering undo each other, and slashing and unslashing undo each
other. -/
theorem C02_round_trips [NeZero (2 : K)] (i : K) (hi : i * i = -1) :
    (∀ s : V2 K, rUpDown (rDownUp s) = s ∧ rDownUp (rUpDown s) = s) ∧
    (∀ s : V2 K, lUpDown (lDownUp s) = s ∧ lDownUp (lUpDown s) = s) ∧
    (∀ m : M2 K, flip2 (flip2 m) = m) ∧ (∀ v : V4 K, momFlip (momFlip v) = v) ∧
    (∀ m : M2 K, momdToR2 i (momFlip (r2ToMom i m)) = m) ∧
    (∀ m : M2 K, momdToR2b i (momFlip (r2bToMom i m)) = m) ∧
    (∀ v : V4 K, r2ToMom i (momdToR2 i (momFlip v)) = v) ∧
    (∀ v : V4 K, r2bToMom i (momdToR2b i (momFlip v)) = v) := by
  have h2 : (2 : K) ≠ 0 := NeZero.ne 2
  have hA : ∀ m : M2 K, momdToR2 i (momFlip (r2ToMom i m)) = m := by
    intro m
    have h := specSlash_momdToR2 i (specLower_momFlip (r2ToMom i m))
    have h' := specSlash_r2ToMom hi m
    obtain ⟨a0, a1, a2, a3⟩ := h
    obtain ⟨b0, b1, b2, b3⟩ := h'
    ext a b; fin_cases a <;> fin_cases b
    · exact a0.trans b0.symm
    · exact a1.trans b1.symm
    · exact a2.trans b2.symm
    · exact a3.trans b3.symm
  have hB : ∀ v : V4 K, r2ToMom i (momdToR2 i (momFlip v)) = v := by
    intro v
    rw [r2ToMom_eq, momdToR2_eq, momFlip_eq]
    funext j; fin_cases j <;> simp <;> field_simp
    · ring
    · ring
    · linear_combination (-2 * v 2) * hi
  refine ⟨fun s => ⟨rUpDown_rDownUp s, rDownUp_rUpDown s⟩,
    fun s => ⟨lUpDown_lDownUp s, lDownUp_lUpDown s⟩, flip2_flip2, momFlip_momFlip, hA, ?_, hB, ?_⟩
  · intro m
    rw [momdToR2b_eq_flip2, ← r2ToMom_flip2, hA, flip2_flip2]
  · intro v
    rw [momdToR2b_eq_flip2, r2bToMom_flip2, hB]

/-! ### C03 -/

/-- C03: the mass squared is the determinant of the rank-two spinor and the Minkowski
square of the four momentum. -/
theorem C03_m2_minkowski [NeZero (2 : K)] (c : Ctx K) (p : Particle K) (hp : MomConsistent c p) :
    p.m2 = p.r2.det ∧
    ∀ i v, c.imag = some i → p.mom = some v → p.m2 = v 0 ^ 2 - v 1 ^ 2 - v 2 ^ 2 - v 3 ^ 2 := by
  have h2 : (2 : K) ≠ 0 := NeZero.ne 2
  have hdet : p.m2 = p.r2.det := by
    rw [Particle.m2, hp.bar, mul_adjugate, trace_smul, trace_one]
    simp [h2]
  refine ⟨hdet, fun i v hi hv => ?_⟩
  obtain ⟨v', vd, hv', -, -, h00, h01, h10, h11⟩ := hp.mom_some i hi
  obtain rfl : v' = v := by rw [hv'] at hv; exact Option.some.inj hv
  rw [hdet, det_fin_two, h00, h01, h10, h11]
  linear_combination (v' 2 ^ 2) * c.imag_sq i hi

/-- C03: `ldot` is the Minkowski product, hence symmetric, and its diagonal is `m2`. -/
theorem C03_ldot_minkowski [NeZero (2 : K)] (c : Ctx K) (p q : Particle K)
    (hp : MomConsistent c p) (hq : MomConsistent c q) :
    ldot p q = ldot q p ∧ ldot p p = p.m2 ∧
    ∀ i v w, c.imag = some i → p.mom = some v → q.mom = some w →
      ldot p q = v 0 * w 0 - v 1 * w 1 - v 2 * w 2 - v 3 * w 3 := by
  have h2 : (2 : K) ≠ 0 := NeZero.ne 2
  have e : ∀ a b : Particle K, b.r2b = adjugate b.r2 → ldot a b =
      (a.r2 0 0 * b.r2 1 1 - a.r2 0 1 * b.r2 1 0 - a.r2 1 0 * b.r2 0 1 + a.r2 1 1 * b.r2 0 0) / 2 := by
    intro a b hb
    rw [ldot, hb, adjugate_fin_two, trace_fin_two]
    simp [Matrix.mul_apply, Fin.sum_univ_two]; ring
  refine ⟨?_, rfl, fun i v w hi hv hw => ?_⟩
  · rw [e p q hq.bar, e q p hp.bar]; ring
  · obtain ⟨v', vd, hv', -, -, h00, h01, h10, h11⟩ := hp.mom_some i hi
    obtain ⟨w', wd, hw', -, -, g00, g01, g10, g11⟩ := hq.mom_some i hi
    obtain rfl : v' = v := by rw [hv'] at hv; exact Option.some.inj hv
    obtain rfl : w' = w := by rw [hw'] at hw; exact Option.some.inj hw
    rw [e p q hq.bar, h00, h01, h10, h11, g00, g01, g10, g11]
    field_simp
    linear_combination (2 * v' 2 * w' 2) * c.imag_sq i hi

/-- C03: `ldot` is additive and homogeneous in the momentum of each argument. -/
theorem C03_ldot_bilinear (p q r : Particle K) (k : K) :
    (∀ s : Particle K, s.r2 = p.r2 + k • q.r2 → ldot s r = ldot p r + k * ldot q r) ∧
    (∀ s : Particle K, s.r2b = p.r2b + k • q.r2b → ldot r s = ldot r p + k * ldot r q) := by
  constructor <;> intro s hs
  · rw [ldot, hs, add_mul, trace_add, Matrix.smul_mul, trace_smul, smul_eq_mul, ldot, ldot]; ring
  · rw [ldot, hs, mul_add, trace_add, Matrix.mul_smul, trace_smul, smul_eq_mul, ldot, ldot]; ring

/-! ### C04 -/

/-- C04: whatever spinor was assigned last, the particle is massless. -/
theorem C04_spinor_assignment_massless [NeZero (2 : K)] (c : Ctx K) (p : Particle K) (s : V2 K)
    (hp : Consistent c p) (o : Op K) (ho : o = .rd s ∨ o = .ld s ∨ o = .ru s ∨ o = .lu s)
    (h : (applyOp c p o).err = none) : (applyOp c p o).st.m2 = 0 := by
  have hc := C01_op_consistent c p o hp h
  rw [(C03_m2_minkowski c _ hc.mom).1]
  have key : ∀ q : Particle K, (rebuildFromSpinors c q).err = none →
      (rebuildFromSpinors c q).st.r2.det = 0 := by
    intro q hq
    unfold rebuildFromSpinors at *
    rcases q with ⟨_ | r, _ | l, _ | ru, _ | lu, m, mb, v, vd⟩ <;> simp at hq ⊢
    exact det_outer _ _
  rcases ho with rfl | rfl | rfl | rfl <;> exact key _ h

/-- C04: assigning a massless momentum away from the degenerate direction succeeds and
sets spinors whose product is that momentum.  The symmetric convention additionally needs
the square root to exist in the field. -/
theorem C04_massless_rebuilt (c : Ctx K) (p : Particle K) (m : M2 K) (hm : m.det = 0)
    (hplus : c.small (m 1 1) = false)
    (hsqrt : c.conv = .symmetric → ∃ s, c.sqrt (m 1 1) = some s) :
    (setR2 c p m).err = none ∧ ∃ r l, (setR2 c p m).st.r_d = some r ∧
      (setR2 c p m).st.l_d = some l ∧ ∀ a b, (setR2 c p m).st.r2b a b = r a * l b := by
  have h0 : m 1 1 ≠ 0 := by
    intro h; rw [h, c.small_zero] at hplus; exact Bool.noConfusion hplus
  have hb : (flip2 m).det = 0 := by rw [det_flip2]; exact hm
  have e00 : flip2 m 0 0 = m 1 1 := by simp [flip2_eq]
  have e10 : flip2 m 1 0 = -m 1 0 := by simp [flip2_eq]
  have e01 : flip2 m 0 1 = -m 0 1 := by simp [flip2_eq]
  have hval : ∃ r l, deriveR c (m 1 1) (-m 1 0) = .val r ∧ deriveL c (m 1 1) (-m 0 1) = .val l := by
    unfold deriveR deriveL
    cases hc : c.conv with
    | symmetric => obtain ⟨s, hs⟩ := hsqrt hc; simp [hplus, hs]
    | asymmetric => simp [h0]
  obtain ⟨r, l, hr, hl⟩ := hval
  have h2b := (deriveSpinors_mom c (momFromR2 c { p with r2 := m, r2b := flip2 m })
    (m 1 1) (-m 1 0) (-m 0 1)).2.1
  rw [(momFromR2_fields c _).2.2.2.2.2] at h2b
  have hst : (setR2 c p m).err = none ∧ (setR2 c p m).st.r_d = some r ∧
      (setR2 c p m).st.l_d = some l := by
    simp [setR2, deriveSpinors, hr, hl]
  refine ⟨hst.1, r, l, hst.2.1, hst.2.2, ?_⟩
  unfold setR2
  rw [h2b]
  exact derive_factor c hb (by rw [e00, e10]; exact hr) (by rw [e00, e01]; exact hl)

/-! ### C05 -/

/-- C05, symmetric convention: a momentum with `P0+P3` within tolerance is accepted, all
four spinor slots are unset and the momentum slots are consistent. -/
theorem C05_symmetric_degenerate [NeZero (2 : K)] (c : Ctx K) (hc : c.conv = .symmetric)
    (p : Particle K) (m : M2 K) (hm : c.small (m 1 1) = true) :
    (setR2 c p m).err = none ∧ Consistent c (setR2 c p m).st ∧ (setR2 c p m).st.r2 = m ∧
    (setR2 c p m).st.r_d = none ∧ (setR2 c p m).st.l_d = none ∧
    (setR2 c p m).st.r_u = none ∧ (setR2 c p m).st.l_u = none := by
  have h : (setR2 c p m).err = none ∧ (setR2 c p m).st.r_d = none ∧ (setR2 c p m).st.l_d = none ∧
      (setR2 c p m).st.r_u = none ∧ (setR2 c p m).st.l_u = none := by
    simp [setR2, deriveSpinors, deriveR, hc, hm]
  obtain ⟨-, -, -, -, -, f6⟩ := momFromR2_fields c { p with r2 := m, r2b := flip2 m }
  refine ⟨h.1, ?_, (C02_assign_then_read c p).2.2.2.2.1 m, h.2⟩
  apply deriveSpinors_consistent c _ _ _ _ (momConsistent_momFromR2 c _ rfl) _ _ _ h.1 <;>
    rw [f6] <;> simp [flip2_eq]

/-- C05, asymmetric convention (finding): every momentum with `P0+P3 = 0` makes the
assignment raise ZeroDivisionError, with the new right spinor and the old left spinor in
place. -/
theorem C05_asymmetric_degenerate_raises (c : Ctx K) (hc : c.conv = .asymmetric)
    (p : Particle K) (m : M2 K) (hm : m 1 1 = 0) :
    (setR2 c p m).err = some .zeroDivision ∧ (setR2 c p m).st.r2 = m ∧
    (setR2 c p m).st.r_d = some ![0, -m 1 0] ∧ (setR2 c p m).st.l_d = p.l_d := by
  refine ⟨?_, (C02_assign_then_read c p).2.2.2.2.1 m, ?_, ?_⟩ <;>
    simp [setR2, deriveSpinors, deriveR, deriveL, hc, hm]

/-- The rationals with exact comparison, no `1j`, the given convention, and square roots
of zero and one. -/
def ratCtx (conv : Convention) : Ctx ℚ where
  conv := conv
  small x := x = 0
  small_zero := by simp
  sqrt x := if x = 0 then some 0 else if x = 1 then some 1 else none
  sqrt_sq := by
    intro x y h
    split at h
    · cases h; simp [*]
    · split at h
      · cases h; simp [*]
      · cases h
  imag := none
  imag_sq := by simp

/-- C05 (finding): in the asymmetric convention the claim fails: an assignment can leave a
consistent particle in a state where its spinors do not describe its momentum. -/
theorem C05_asymmetric_corrupts :
    ∃ (p : Particle ℚ) (m : M2 ℚ), Consistent (ratCtx .asymmetric) p ∧ m.det = 0 ∧ m 1 1 = 0 ∧
      ¬ SpinorsReproduce (setR2 (ratCtx .asymmetric) p m).st ∧
      (setR2 (ratCtx .asymmetric) p m).st.r_d ≠ none := by
  refine ⟨(ofSpinors (ratCtx .asymmetric) ![1, 0] ![1, 0]).st, !![1, 0; 0, 0],
    ((C01_constructors_consistent _).2.2 _ _).2, by simp [det_fin_two], by simp, ?_, ?_⟩
  · intro h
    have hh := C05_asymmetric_degenerate_raises (ratCtx .asymmetric) rfl
      (ofSpinors (ratCtx .asymmetric) ![1, 0] ![1, 0]).st !![1, 0; 0, 0] (by simp)
    have hl : (ofSpinors (ratCtx .asymmetric) ![1, 0] ![1, 0]).st.l_d = some ![1, 0] :=
      (C02_assign_then_read _ _).2.1 _
    have h2b : (setR2 (ratCtx .asymmetric) (ofSpinors (ratCtx .asymmetric) ![1, 0] ![1, 0]).st
        !![1, 0; 0, 0]).st.r2b = flip2 !![1, 0; 0, 0] := by
      unfold setR2
      rw [(deriveSpinors_mom _ _ _ _ _).2.1, (momFromR2_fields _ _).2.2.2.2.2]
    have := h _ _ hh.2.2.1 (hh.2.2.2.trans hl) (by rw [hh.2.1]; simp [det_fin_two]) 1 1
    rw [h2b, flip2_eq] at this
    simp at this
  · rw [(C05_asymmetric_degenerate_raises _ rfl _ _ (by simp)).2.2.1]; simp

/-! ### C08 -/

/-- C08: one swap keeps the mass, maps the momentum to its parity image and exchanges
the spinors. -/
theorem C08_swap_is_parity [NeZero (2 : K)] (c : Ctx K) (p : Particle K) (hp : Consistent c p) :
    Consistent c (anglesForSquares c p) ∧ (anglesForSquares c p).m2 = p.m2 ∧
    (anglesForSquares c p).r_d = p.l_d ∧ (anglesForSquares c p).l_d = p.r_d ∧
    ∀ i v, c.imag = some i → p.mom = some v →
      (anglesForSquares c p).mom = some ![v 0, v 1, -v 2, v 3] := by
  have hcons : Consistent c (anglesForSquares c p) := C01_op_consistent c p .swap hp rfl
  have hr2 : (anglesForSquares c p).r2 = p.r2ᵀ := by
    unfold anglesForSquares
    rw [(momFromR2b_fields c _).2.2.2.2.1]
    rcases p with ⟨_ | r, _ | l, ru, lu, m, mb, v, vd⟩ <;> rfl
  refine ⟨hcons, ?_, ?_, ?_, ?_⟩
  · rw [(C03_m2_minkowski c _ hcons.mom).1, (C03_m2_minkowski c _ hp.mom).1, hr2, det_transpose]
  · unfold anglesForSquares
    rw [(momFromR2b_fields c _).1]
    have := hp.spin.both
    rcases p with ⟨_ | r, _ | l, ru, lu, m, mb, v, vd⟩ <;> simp_all
  · unfold anglesForSquares
    rw [(momFromR2b_fields c _).2.1]
    have := hp.spin.both
    rcases p with ⟨_ | r, _ | l, ru, lu, m, mb, v, vd⟩ <;> simp_all
  · intro i v hi hv
    have h2 : (2 : K) ≠ 0 := NeZero.ne 2
    have hi0 : i ≠ 0 := by rintro rfl; have := c.imag_sq 0 hi; simp at this
    obtain ⟨v', vd, hv', -, -, h00, h01, h10, h11⟩ := hp.mom.mom_some i hi
    obtain rfl : v' = v := by rw [hv'] at hv; exact Option.some.inj hv
    obtain ⟨w, wd, hw, -, -, g00, g01, g10, g11⟩ := hcons.mom.mom_some i hi
    rw [hw, hr2] at *
    simp only [transpose_apply] at g00 g01 g10 g11
    rw [h00] at g00; rw [h10] at g01; rw [h01] at g10; rw [h11] at g11
    congr 1
    funext j; fin_cases j <;> simp
    · apply mul_left_cancel₀ h2; linear_combination -g00 - g11
    · apply mul_left_cancel₀ h2; linear_combination g01 + g10
    · apply mul_left_cancel₀ (mul_ne_zero h2 hi0); linear_combination g10 - g01
    · apply mul_left_cancel₀ h2; linear_combination g00 - g11

/-- C08: swapping twice restores the particle exactly. -/
theorem C08_swap_involutive [NeZero (2 : K)] (c : Ctx K) (p : Particle K) (hp : Consistent c p) :
    anglesForSquares c (anglesForSquares c p) = p := by
  obtain ⟨hs, -, hr, hl, -⟩ := C08_swap_is_parity c p hp
  obtain ⟨hs', -, hr', hl', -⟩ := C08_swap_is_parity c _ hs
  have hr2 : ∀ q : Particle K, (anglesForSquares c q).r2 = q.r2ᵀ := by
    intro q
    unfold anglesForSquares
    rw [(momFromR2b_fields c _).2.2.2.2.1]
    rcases q with ⟨_ | r, _ | l, ru, lu, m, mb, v, vd⟩ <;> rfl
  have e2 : (anglesForSquares c (anglesForSquares c p)).r2 = p.r2 := by
    rw [hr2, hr2, transpose_transpose]
  set q := anglesForSquares c (anglesForSquares c p) with hq
  have er : q.r_d = p.r_d := hr'.trans hl
  have el : q.l_d = p.l_d := hl'.trans hr
  have uniq : ∀ s u u' : V2 K, SpecRaise s u → SpecRaise s u' → u = u' := by
    rintro s u u' ⟨a, b⟩ ⟨a', b'⟩
    funext j; fin_cases j
    · exact a.trans a'.symm
    · exact b.trans b'.symm
  have eru : q.r_u = p.r_u := by
    rcases hd : p.r_d with _ | s
    · rw [hp.spin.r_none.mp hd, hs'.spin.r_none.mp (er.trans hd)]
    · rcases hu : p.r_u with _ | u
      · rw [hp.spin.r_none.mpr hu] at hd; cases hd
      · rcases hu' : q.r_u with _ | u'
        · have := hs'.spin.r_none.mpr hu'; rw [er, hd] at this; cases this
        · rw [uniq s u' u (hs'.spin.r_up _ _ (er.trans hd) hu') (hp.spin.r_up _ _ hd hu)]
  have elu : q.l_u = p.l_u := by
    rcases hd : p.l_d with _ | s
    · rw [hp.spin.l_none.mp hd, hs'.spin.l_none.mp (el.trans hd)]
    · rcases hu : p.l_u with _ | u
      · rw [hp.spin.l_none.mpr hu] at hd; cases hd
      · rcases hu' : q.l_u with _ | u'
        · have := hs'.spin.l_none.mpr hu'; rw [el, hd] at this; cases this
        · rw [uniq s u' u (hs'.spin.l_up _ _ (el.trans hd) hu') (hp.spin.l_up _ _ hd hu)]
  have eb : q.r2b = p.r2b := by rw [hs'.mom.bar, hp.mom.bar, e2]
  have em : q.mom = p.mom ∧ q.mom_d = p.mom_d := by
    cases hi : c.imag with
    | none =>
      obtain ⟨a, b⟩ := hp.mom.mom_none hi
      obtain ⟨a', b'⟩ := hs'.mom.mom_none hi
      exact ⟨a'.trans a.symm, b'.trans b.symm⟩
    | some i =>
      have h2 : (2 : K) ≠ 0 := NeZero.ne 2
      have hi0 : i ≠ 0 := by rintro rfl; have := c.imag_sq 0 hi; simp at this
      obtain ⟨v, vd, hv, hvd, ⟨l0, l1, l2, l3⟩, h00, h01, h10, h11⟩ := hp.mom.mom_some i hi
      obtain ⟨w, wd, hw, hwd, ⟨k0, k1, k2, k3⟩, g00, g01, g10, g11⟩ := hs'.mom.mom_some i hi
      rw [e2] at g00 g01 g10 g11
      rw [h00] at g00; rw [h01] at g01; rw [h10] at g10; rw [h11] at g11
      have e : w = v := by
        funext j; fin_cases j <;> simp
        · apply mul_left_cancel₀ h2; linear_combination -g00 - g11
        · apply mul_left_cancel₀ h2; linear_combination g01 + g10
        · apply mul_left_cancel₀ (mul_ne_zero h2 hi0); linear_combination g10 - g01
        · apply mul_left_cancel₀ h2; linear_combination g00 - g11
      subst e
      have ed : wd = vd := by
        funext j; fin_cases j <;> simp [k0, k1, k2, k3, l0, l1, l2, l3]
      subst ed
      exact ⟨hw.trans hv.symm, hwd.trans hvd.symm⟩
  obtain ⟨em1, em2⟩ := em
  clear_value q
  rcases q with ⟨_, _, _, _, _, _, _, _⟩
  rcases p with ⟨_, _, _, _, _, _, _, _⟩
  simp only at er el eru elu e2 eb em1 em2
  subst er el eru elu e2 eb em1 em2
  rfl

end Lips

import Verif.Lemmas.FixMom
import Verif.Props.ParticleArith
import Mathlib.Algebra.Field.Subfield.Basic

/-!
Properties C09-C13 (`fix_mom_cons`) and C49 (the checks).
-/

namespace Lips

open Matrix

variable {K : Type*} [Field K] {n : ℕ}

/-! ### Specification -/

/-- Total momentum is exactly zero, entry by entry. -/
def Conserves (ps : Point K n) : Prop := ∀ i j, ∑ k, (ps k).r2 i j = 0

/-- A particle is on shell with zero mass. -/
def Massless (p : Particle K) : Prop := p.r2 0 0 * p.r2 1 1 - p.r2 0 1 * p.r2 1 0 = 0

/-- `[A|B]` in components of the lower left spinors. -/
def SpecSquare (la lb : V2 K) : K := la 0 * lb 1 - la 1 * lb 0

/-- `⟨A|B⟩` in components of the lower right spinors. -/
def SpecAngle (ra rb : V2 K) : K := ra 1 * rb 0 - ra 0 * rb 1

theorem conserves_iff (ps : Point K n) : Conserves ps ↔ totalMom ps = 0 := by
  unfold Conserves totalMom
  constructor
  · intro h; ext i j; rw [Matrix.sum_apply, h i j]; rfl
  · intro h i j; rw [← Matrix.sum_apply, h]; rfl

theorem massless_iff (p : Particle K) : Massless p ↔ p.r2.det = 0 := by
  rw [Massless, det_fin_two]

theorem label_ok {k : ℕ} (h : 1 ≤ k ∧ k ≤ n) : label n k = .ok ⟨k - 1, by omega⟩ := by
  simp [label, h]

/-- The position of a valid base-one label. -/
def pos (k : ℕ) (h : 1 ≤ k ∧ k ≤ n) : Fin n := ⟨k - 1, by omega⟩

/-! ### C09 -/

theorem fixAxis1_spec [NeZero (2 : K)] (c : Ctx K) (ps : Point K n) {a b : Fin n} (hab : a ≠ b)
    (ha : Consistent c (ps a)) (hb : Consistent c (ps b)) {la lb : V2 K}
    (hla : (ps a).l_d = some la) (hlb : (ps b).l_d = some lb) (hd : SpecSquare la lb ≠ 0) :
    ∃ ps', fixAxis1 c ps a b = .ok ps' ∧ Conserves ps' ∧ Massless (ps' a) ∧ Massless (ps' b) ∧
      (ps' a).l_d = some la ∧ (ps' b).l_d = some lb ∧ (∀ k, k ≠ a → k ≠ b → ps' k = ps k) ∧
      Consistent c (ps' a) ∧ Consistent c (ps' b) := by
  obtain ⟨pa, pb, sa, sb, hok⟩ := fixAxis1_ok c ps hab ha.spin hb.spin hla hlb hd
  have ca := C01_op_consistent c (ps a) (.ru _) ha (by rw [applyOp, sa])
  have cb := C01_op_consistent c (ps b) (.ru _) hb (by rw [applyOp, sb])
  have ma := C04_spinor_assignment_massless c (ps a) _ ha (.ru _) (.inr (.inr (.inl rfl))) (by rw [applyOp, sa])
  have mb := C04_spinor_assignment_massless c (ps b) _ hb (.ru _) (.inr (.inr (.inl rfl))) (by rw [applyOp, sb])
  rw [applyOp, sa] at ca ma
  rw [applyOp, sb] at cb mb
  rw [(C03_m2_minkowski c _ ca.mom).1] at ma
  rw [(C03_m2_minkowski c _ cb.mom).1] at mb
  have ea := setRu_eq c (ps a) (fun j => vecMul lb (othersR2 ps a b) j /
    (la 0 * lb 1 - la 1 * lb 0)) _ _ hla (spinConsistent_lu ha.spin hla)
  have eb := setRu_eq c (ps b) (fun j => -(vecMul la (othersR2 ps a b) j) /
    (la 0 * lb 1 - la 1 * lb 0)) _ _ hlb (spinConsistent_lu hb.spin hlb)
  rw [sa] at ea; rw [sb] at eb
  have ea' : pa = _ := congrArg Out.st ea
  have eb' : pb = _ := congrArg Out.st eb
  have ua : Function.update (Function.update ps a pa) b pb a = pa := by
    rw [Function.update_of_ne hab, Function.update_self]
  have ub : Function.update (Function.update ps a pa) b pb b = pb := Function.update_self _ _ _
  have uo : ∀ k, k ≠ a → k ≠ b → Function.update (Function.update ps a pa) b pb k = ps k := by
    intro k h1 h2; rw [Function.update_of_ne h2, Function.update_of_ne h1]
  refine ⟨_, hok, ?_, ?_, ?_, ?_, ?_, uo, ?_, ?_⟩
  · rw [conserves_iff, totalMom_split _ hab, othersR2_congr ps _ a b uo, ua, ub, ea', eb',
      (momFromR2b_fields c _).2.2.2.2.1, (momFromR2b_fields c _).2.2.2.2.1]
    have hd' : la 0 * lb 1 - la 1 * lb 0 ≠ 0 := hd
    generalize othersR2 ps a b = k
    generalize hD : la 0 * lb 1 - la 1 * lb 0 = D at hd' ⊢
    ext i j
    fin_cases i <;> simp [outer_apply, vecMul, dotProduct] <;> field_simp
    · linear_combination (-(k 0 j)) * hD
    · linear_combination (-(k 1 j)) * hD
  · rw [massless_iff, ua]; exact ma
  · rw [massless_iff, ub]; exact mb
  · rw [ua, ea', (momFromR2b_fields c _).2.1]; exact hla
  · rw [ub, eb', (momFromR2b_fields c _).2.1]; exact hlb
  · rw [ua]; exact ca
  · rw [ub]; exact cb

/-- C09: `fix_mom_cons(A, B)` (default axis) makes the total momentum exactly zero, leaves `A`
and `B` massless and consistent, keeps `[A|` and `[B|`, and changes no other particle. The
other particles are arbitrary. -/
theorem C09_fix_mom_cons_axis1 [NeZero (2 : K)] (c : Ctx K) (ps : Point K n) (A B : ℕ)
    (draw : ℕ × ℕ) (hA : 1 ≤ A ∧ A ≤ n) (hB : 1 ≤ B ∧ B ≤ n) (hAB : A ≠ B)
    (ca : Consistent c (ps (pos A hA))) (cb : Consistent c (ps (pos B hB))) {la lb : V2 K}
    (hla : (ps (pos A hA)).l_d = some la) (hlb : (ps (pos B hB)).l_d = some lb)
    (hd : SpecSquare la lb ≠ 0) :
    ∃ ps', fixMomCons c ps A B false 1 draw = .ok ps' ∧ Conserves ps' ∧
      Massless (ps' (pos A hA)) ∧ Massless (ps' (pos B hB)) ∧
      (ps' (pos A hA)).l_d = some la ∧ (ps' (pos B hB)).l_d = some lb ∧
      (∀ k, k ≠ pos A hA → k ≠ pos B hB → ps' k = ps k) ∧
      Consistent c (ps' (pos A hA)) ∧ Consistent c (ps' (pos B hB)) := by
  have hne : pos A hA ≠ pos B hB := by
    intro h; apply hAB
    have := congrArg Fin.val h
    simp only [pos] at this; omega
  obtain ⟨ps', h, rest⟩ := fixAxis1_spec c ps hne ca cb hla hlb hd
  refine ⟨ps', ?_, rest⟩
  have : A ≠ 0 := by omega
  have : B ≠ 0 := by omega
  simp only [fixMomCons, label_ok hA, label_ok hB]
  simp [*]
  exact h

/-- C09: with `[A|B] = 0` the call raises instead of returning a wrong point. -/
theorem C09_vanishing_bracket_raises (c : Ctx K) (ps : Point K n) (a b : Fin n)
    (hb : SpinConsistent (ps b)) {la lb : V2 K}
    (hla : (ps a).l_d = some la) (hlb : (ps b).l_d = some lb) (hd : SpecSquare la lb = 0) :
    fixAxis1 c ps a b = .error .zeroDivision := by
  have hlub := spinConsistent_lu hb hlb
  have e : square (ps a) (ps b) = .ok (0 : K) := by
    rw [← hd]; simp [square, hla, hlub, dot2, SpecSquare]; ring
  unfold fixAxis1
  simp [hlb, e, bind, Except.bind, throw, throwThe, MonadExceptOf.throw]

/-! ### C10 -/

theorem fixAxis2_spec [NeZero (2 : K)] (c : Ctx K) (ps : Point K n) {a b : Fin n} (hab : a ≠ b)
    (ha : Consistent c (ps a)) (hb : Consistent c (ps b)) {ra rb : V2 K}
    (hra : (ps a).r_d = some ra) (hrb : (ps b).r_d = some rb) (hd : SpecAngle ra rb ≠ 0) :
    ∃ ps', fixAxis2 c ps a b = .ok ps' ∧ Conserves ps' ∧ Massless (ps' a) ∧ Massless (ps' b) ∧
      (ps' a).r_d = some ra ∧ (ps' b).r_d = some rb ∧ (∀ k, k ≠ a → k ≠ b → ps' k = ps k) ∧
      Consistent c (ps' a) ∧ Consistent c (ps' b) := by
  obtain ⟨pa, pb, sa, sb, hok⟩ := fixAxis2_ok c ps hab ha.spin hb.spin hra hrb hd
  have ca := C01_op_consistent c (ps a) (.lu _) ha (by rw [applyOp, sa])
  have cb := C01_op_consistent c (ps b) (.lu _) hb (by rw [applyOp, sb])
  have ma := C04_spinor_assignment_massless c (ps a) _ ha (.lu _) (.inr (.inr (.inr rfl))) (by rw [applyOp, sa])
  have mb := C04_spinor_assignment_massless c (ps b) _ hb (.lu _) (.inr (.inr (.inr rfl))) (by rw [applyOp, sb])
  rw [applyOp, sa] at ca ma
  rw [applyOp, sb] at cb mb
  rw [(C03_m2_minkowski c _ ca.mom).1] at ma
  rw [(C03_m2_minkowski c _ cb.mom).1] at mb
  have ea := setLu_eq c (ps a) (fun j => -((othersR2 ps a b).mulVec rb j) /
    (ra 1 * rb 0 - ra 0 * rb 1)) _ _ hra (spinConsistent_ru ha.spin hra)
  have eb := setLu_eq c (ps b) (fun j => (othersR2 ps a b).mulVec ra j /
    (ra 1 * rb 0 - ra 0 * rb 1)) _ _ hrb (spinConsistent_ru hb.spin hrb)
  rw [sa] at ea; rw [sb] at eb
  have ea' : pa = _ := congrArg Out.st ea
  have eb' : pb = _ := congrArg Out.st eb
  have ua : Function.update (Function.update ps a pa) b pb a = pa := by
    rw [Function.update_of_ne hab, Function.update_self]
  have ub : Function.update (Function.update ps a pa) b pb b = pb := Function.update_self _ _ _
  have uo : ∀ k, k ≠ a → k ≠ b → Function.update (Function.update ps a pa) b pb k = ps k := by
    intro k h1 h2; rw [Function.update_of_ne h2, Function.update_of_ne h1]
  refine ⟨_, hok, ?_, ?_, ?_, ?_, ?_, uo, ?_, ?_⟩
  · rw [conserves_iff, totalMom_split _ hab, othersR2_congr ps _ a b uo, ua, ub, ea', eb',
      (momFromR2b_fields c _).2.2.2.2.1, (momFromR2b_fields c _).2.2.2.2.1]
    have hd' : ra 1 * rb 0 - ra 0 * rb 1 ≠ 0 := hd
    generalize othersR2 ps a b = k
    generalize hD : ra 1 * rb 0 - ra 0 * rb 1 = D at hd' ⊢
    ext i j
    fin_cases j <;> simp [outer_apply, mulVec, dotProduct] <;> field_simp
    · linear_combination (-(k i 0)) * hD
    · linear_combination (-(k i 1)) * hD
  · rw [massless_iff, ua]; exact ma
  · rw [massless_iff, ub]; exact mb
  · rw [ua, ea', (momFromR2b_fields c _).1]; exact hra
  · rw [ub, eb', (momFromR2b_fields c _).1]; exact hrb
  · rw [ua]; exact ca
  · rw [ub]; exact cb

/-- C10: `fix_mom_cons(A, B, axis=2)` makes the total momentum exactly zero, leaves `A` and `B`
massless and consistent, keeps `|A⟩` and `|B⟩`, and changes no other particle. -/
theorem C10_fix_mom_cons_axis2 [NeZero (2 : K)] (c : Ctx K) (ps : Point K n) (A B : ℕ)
    (draw : ℕ × ℕ) (hA : 1 ≤ A ∧ A ≤ n) (hB : 1 ≤ B ∧ B ≤ n) (hAB : A ≠ B)
    (ca : Consistent c (ps (pos A hA))) (cb : Consistent c (ps (pos B hB))) {ra rb : V2 K}
    (hra : (ps (pos A hA)).r_d = some ra) (hrb : (ps (pos B hB)).r_d = some rb)
    (hd : SpecAngle ra rb ≠ 0) :
    ∃ ps', fixMomCons c ps A B false 2 draw = .ok ps' ∧ Conserves ps' ∧
      Massless (ps' (pos A hA)) ∧ Massless (ps' (pos B hB)) ∧
      (ps' (pos A hA)).r_d = some ra ∧ (ps' (pos B hB)).r_d = some rb ∧
      (∀ k, k ≠ pos A hA → k ≠ pos B hB → ps' k = ps k) ∧
      Consistent c (ps' (pos A hA)) ∧ Consistent c (ps' (pos B hB)) := by
  have hne : pos A hA ≠ pos B hB := by
    intro h; apply hAB
    have := congrArg Fin.val h
    simp only [pos] at this; omega
  obtain ⟨ps', h, rest⟩ := fixAxis2_spec c ps hne ca cb hra hrb hd
  refine ⟨ps', ?_, rest⟩
  have : A ≠ 0 := by omega
  have : B ≠ 0 := by omega
  simp only [fixMomCons, label_ok hA, label_ok hB]
  simp [*]
  exact h

/-- C10: with `⟨A|B⟩ = 0` the call raises. -/
theorem C10_vanishing_bracket_raises (c : Ctx K) (ps : Point K n) (a b : Fin n)
    (ha : SpinConsistent (ps a)) {ra rb : V2 K}
    (hra : (ps a).r_d = some ra) (hrb : (ps b).r_d = some rb) (hd : SpecAngle ra rb = 0) :
    fixAxis2 c ps a b = .error .zeroDivision := by
  have hrua := spinConsistent_ru ha hra
  have e : angle (ps a) (ps b) = .ok (0 : K) := by
    rw [← hd]; simp [angle, hrua, hrb, dot2, SpecAngle]; ring
  unfold fixAxis2
  simp [hrb, e, bind, Except.bind, throw, throwThe, MonadExceptOf.throw]

/-! ### C12 -/

/-- C12: whichever two distinct labels `random.sample` returns, the result conserves momentum
as soon as the relevant bracket of that pair does not vanish, and all particles are
consistent and all but two unchanged. -/
theorem C12_any_draw [NeZero (2 : K)] (c : Ctx K) (ps : Point K n)
    (hps : ∀ k, Consistent c (ps k)) (draw : ℕ × ℕ) (h1 : 1 ≤ draw.1 ∧ draw.1 ≤ n)
    (h2 : 1 ≤ draw.2 ∧ draw.2 ≤ n) (hne : draw.1 ≠ draw.2) {la lb : V2 K}
    (hla : (ps (pos _ h1)).l_d = some la) (hlb : (ps (pos _ h2)).l_d = some lb)
    (hd : SpecSquare la lb ≠ 0) :
    ∃ ps', fixMomCons c ps 0 0 false 1 draw = .ok ps' ∧ Conserves ps' ∧
      (∀ k, Consistent c (ps' k)) ∧ (∀ k, Massless (ps k) → Massless (ps' k)) := by
  obtain ⟨ps', h, hc, ma, mb, -, -, ho, ca, cb⟩ :=
    C09_fix_mom_cons_axis1 c ps draw.1 draw.2 draw h1 h2 hne (hps _) (hps _) hla hlb hd
  have e : fixMomCons c ps 0 0 false 1 draw = fixMomCons c ps draw.1 draw.2 false 1 draw := by
    have : draw.1 ≠ 0 := by omega
    simp [fixMomCons, this]
  refine ⟨ps', e.trans h, hc, fun k => ?_, fun k hk => ?_⟩
  · by_cases k1 : k = pos _ h1
    · rw [k1]; exact ca
    · by_cases k2 : k = pos _ h2
      · rw [k2]; exact cb
      · rw [ho k k1 k2]; exact hps k
  · by_cases k1 : k = pos _ h1
    · rw [k1]; exact ma
    · by_cases k2 : k = pos _ h2
      · rw [k2]; exact mb
      · rw [ho k k1 k2]; exact hk

/-- C12 (finding): with exactly one of `A`, `B` equal to zero the call returns normally and
changes nothing, conserved or not. -/
theorem C12_one_zero_label_is_noop (c : Ctx K) (ps : Point K n) (A : ℕ) (hA : A ≠ 0)
    (real : Bool) (axis : ℕ) (draw : ℕ × ℕ) :
    fixMomCons c ps A 0 real axis draw = .ok ps ∧ fixMomCons c ps 0 A real axis draw = .ok ps := by
  constructor <;> simp [fixMomCons, hA]

/-! ### C13 -/

/-- C13: a point that already conserves momentum, with `A` and `B` massless, is left exactly
as it is (axis 1). -/
theorem C13_fixed_point_axis1 [NeZero (2 : K)] (c : Ctx K) (ps : Point K n) {a b : Fin n}
    (hab : a ≠ b) (ha : Consistent c (ps a)) (hb : Consistent c (ps b)) {la lb : V2 K}
    (hla : (ps a).l_d = some la) (hlb : (ps b).l_d = some lb) (hd : SpecSquare la lb ≠ 0)
    (hcons : Conserves ps) (hma : Massless (ps a)) (hmb : Massless (ps b)) :
    fixAxis1 c ps a b = .ok ps := by
  obtain ⟨pa, pb, sa, sb, hok⟩ := fixAxis1_ok c ps hab ha.spin hb.spin hla hlb hd
  have hd' : la 0 * lb 1 - la 1 * lb 0 ≠ 0 := hd
  have ex : ∀ p : Particle K, Consistent c p → ∀ l, p.l_d = some l → ∃ r, p.r_d = some r := by
    intro p hp l hl
    rcases hr : p.r_d with _ | r
    · rw [hp.spin.both.mp hr] at hl; cases hl
    · exact ⟨r, rfl⟩
  obtain ⟨ra, hra⟩ := ex _ ha _ hla
  obtain ⟨rb, hrb⟩ := ex _ hb _ hlb
  have bar : ∀ p : Particle K, Consistent c p → Massless p → ∀ r l, p.r_d = some r →
      p.l_d = some l → p.r2 = !![l 1 * r 1, -(l 1 * r 0); -(l 0 * r 1), l 0 * r 0] := by
    intro p hp hm r l hr hl
    have h := hp.spinors r l hr hl ((massless_iff p).mp hm)
    rw [hp.mom.bar, adjugate_fin_two] at h
    have h00 := h 0 0; have h01 := h 0 1; have h10 := h 1 0; have h11 := h 1 1
    simp at h00 h01 h10 h11
    ext i j; fin_cases i <;> fin_cases j <;> simp
    · rw [h11]; ring
    · rw [← neg_neg (p.r2 0 1), h01]; ring
    · rw [← neg_neg (p.r2 1 0), h10]; ring
    · rw [h00]; ring
  have ea2 := bar _ ha hma _ _ hra hla
  have eb2 := bar _ hb hmb _ _ hrb hlb
  have hK : othersR2 ps a b = -((ps a).r2 + (ps b).r2) := by
    have := (conserves_iff ps).mp hcons
    rw [totalMom_split ps hab] at this
    exact eq_neg_of_add_eq_zero_right this
  have key : ∀ (q : Fin n) (s r l : V2 K) (pq : Particle K), Consistent c (ps q) →
      (ps q).r_d = some r → (ps q).l_d = some l → Massless (ps q) → s = ![r 1, -r 0] →
      setRu c (ps q) s = ⟨pq, none⟩ → pq = ps q := by
    intro q s r l pq hq hr hl hm hs hset
    have cq := C01_op_consistent c (ps q) (.ru s) hq (by rw [applyOp, hset])
    rw [applyOp, hset] at cq
    have e := setRu_eq c (ps q) s _ _ hl (spinConsistent_lu hq.spin hl)
    rw [hset] at e
    have e' : pq = _ := congrArg Out.st e
    have hud : rUpDown s = r := by
      rw [hs, rUpDown_eq]; funext j; fin_cases j <;> simp
    apply consistent_ext hq cq
    · rw [e', (momFromR2b_fields c _).1, hud]; exact hr.symm
    · rw [e', (momFromR2b_fields c _).2.1]
    · rw [e', (momFromR2b_fields c _).2.2.2.2.1, hs, bar _ hq hm r l hr hl]
      ext i j; fin_cases i <;> fin_cases j <;> simp [outer_apply]
  have e1 : pa = ps a := by
    refine key a _ ra la pa ha hra hla hma ?_ sa
    rw [hK, ea2, eb2]
    funext j; fin_cases j <;> simp [vecMul, dotProduct] <;> rw [div_eq_iff hd'] <;> ring
  have e2 : pb = ps b := by
    refine key b _ rb lb pb hb hrb hlb hmb ?_ sb
    rw [hK, ea2, eb2]
    funext j; fin_cases j <;> simp [vecMul, dotProduct] <;> rw [div_eq_iff hd'] <;> ring
  rw [hok, e1, e2, Function.update_eq_self, Function.update_eq_self]

/-- C13: same for axis 2. -/
theorem C13_fixed_point_axis2 [NeZero (2 : K)] (c : Ctx K) (ps : Point K n) {a b : Fin n}
    (hab : a ≠ b) (ha : Consistent c (ps a)) (hb : Consistent c (ps b)) {ra rb : V2 K}
    (hra : (ps a).r_d = some ra) (hrb : (ps b).r_d = some rb) (hd : SpecAngle ra rb ≠ 0)
    (hcons : Conserves ps) (hma : Massless (ps a)) (hmb : Massless (ps b)) :
    fixAxis2 c ps a b = .ok ps := by
  obtain ⟨pa, pb, sa, sb, hok⟩ := fixAxis2_ok c ps hab ha.spin hb.spin hra hrb hd
  have hd' : ra 1 * rb 0 - ra 0 * rb 1 ≠ 0 := hd
  have ex : ∀ p : Particle K, Consistent c p → ∀ r, p.r_d = some r → ∃ l, p.l_d = some l := by
    intro p hp r hr
    rcases hl : p.l_d with _ | l
    · rw [hp.spin.both.mpr hl] at hr; cases hr
    · exact ⟨l, rfl⟩
  obtain ⟨la, hla⟩ := ex _ ha _ hra
  obtain ⟨lb, hlb⟩ := ex _ hb _ hrb
  have bar : ∀ p : Particle K, Consistent c p → Massless p → ∀ r l, p.r_d = some r →
      p.l_d = some l → p.r2 = !![l 1 * r 1, -(l 1 * r 0); -(l 0 * r 1), l 0 * r 0] := by
    intro p hp hm r l hr hl
    have h := hp.spinors r l hr hl ((massless_iff p).mp hm)
    rw [hp.mom.bar, adjugate_fin_two] at h
    have h00 := h 0 0; have h01 := h 0 1; have h10 := h 1 0; have h11 := h 1 1
    simp at h00 h01 h10 h11
    ext i j; fin_cases i <;> fin_cases j <;> simp
    · rw [h11]; ring
    · rw [← neg_neg (p.r2 0 1), h01]; ring
    · rw [← neg_neg (p.r2 1 0), h10]; ring
    · rw [h00]; ring
  have ea2 := bar _ ha hma _ _ hra hla
  have eb2 := bar _ hb hmb _ _ hrb hlb
  have hK : othersR2 ps a b = -((ps a).r2 + (ps b).r2) := by
    have := (conserves_iff ps).mp hcons
    rw [totalMom_split ps hab] at this
    exact eq_neg_of_add_eq_zero_right this
  have key : ∀ (q : Fin n) (s r l : V2 K) (pq : Particle K), Consistent c (ps q) →
      (ps q).r_d = some r → (ps q).l_d = some l → Massless (ps q) → s = ![l 1, -l 0] →
      setLu c (ps q) s = ⟨pq, none⟩ → pq = ps q := by
    intro q s r l pq hq hr hl hm hs hset
    have cq := C01_op_consistent c (ps q) (.lu s) hq (by rw [applyOp, hset])
    rw [applyOp, hset] at cq
    have e := setLu_eq c (ps q) s _ _ hr (spinConsistent_ru hq.spin hr)
    rw [hset] at e
    have e' : pq = _ := congrArg Out.st e
    have hud : lUpDown s = l := by
      rw [hs, lUpDown_eq]; funext j; fin_cases j <;> simp
    apply consistent_ext hq cq
    · rw [e', (momFromR2b_fields c _).1]
    · rw [e', (momFromR2b_fields c _).2.1, hud]; exact hl.symm
    · rw [e', (momFromR2b_fields c _).2.2.2.2.1, hs, bar _ hq hm r l hr hl]
      ext i j; fin_cases i <;> fin_cases j <;> simp [outer_apply]
  have e1 : pa = ps a := by
    refine key a _ ra la pa ha hra hla hma ?_ sa
    rw [hK, ea2, eb2]
    funext j; fin_cases j <;> simp [mulVec, dotProduct] <;> rw [div_eq_iff hd'] <;> ring
  have e2 : pb = ps b := by
    refine key b _ rb lb pb hb hrb hlb hmb ?_ sb
    rw [hK, ea2, eb2]
    funext j; fin_cases j <;> simp [mulVec, dotProduct] <;> rw [div_eq_iff hd'] <;> ring
  rw [hok, e1, e2, Function.update_eq_self, Function.update_eq_self]

/-- C13: hence applying `fix_mom_cons` with the same pair twice is the same as once. -/
theorem C13_idempotent [NeZero (2 : K)] (c : Ctx K) (ps ps' : Point K n) {a b : Fin n}
    (hab : a ≠ b) (ha : Consistent c (ps a)) (hb : Consistent c (ps b)) {la lb : V2 K}
    (hla : (ps a).l_d = some la) (hlb : (ps b).l_d = some lb) (hd : SpecSquare la lb ≠ 0)
    (h : fixAxis1 c ps a b = .ok ps') : fixAxis1 c ps' a b = .ok ps' := by
  obtain ⟨qs, hq, hc, ma, mb, ka, kb, -, ca, cb⟩ := fixAxis1_spec c ps hab ha hb hla hlb hd
  rw [h] at hq
  obtain rfl : ps' = qs := by injection hq
  exact C13_fixed_point_axis1 c ps' hab ca cb ka kb hd hc ma mb

/-! ### C11 -/

/-- Minkowski square in components. -/
def SpecMinkSq (v : V4 K) : K := v 0 ^ 2 - v 1 ^ 2 - v 2 ^ 2 - v 3 ^ 2

theorem minkSq_eq (v : V4 K) : minkSq v = SpecMinkSq v := by
  simp [minkSq, SpecMinkSq, eta, etaDiag, dotProduct, mulVec_diagonal, Fin.sum_univ_four]; ring

theorem setMom_mom (c : Ctx K) (p : Particle K) (v : V4 K) : (setMom c p v).st.mom = some v :=
  (C02_assign_then_read c p).2.2.2.2.2.2.1 v

theorem setMom_symmetric_ok (c : Ctx K) (hc : c.conv = .symmetric) {i : K} (hi : c.imag = some i)
    (p : Particle K) (v : V4 K) : (setMom c p v).err = none := by
  simp only [setMom, fromMom, hi]
  exact deriveSpinors_symmetric_ok c hc _ _ _ _

/-- What the real branch computes. -/
theorem fixReal_ok (c : Ctx K) (ps ps' : Point K n) {a b : Fin n} (hab : a ≠ b) (axis : Fin 4)
    (h : fixReal c ps a b axis = .ok ps') :
    ∃ k pa pb, othersMom ps a b = .ok k ∧ 2 * (k 0 - k axis) ≠ 0 ∧
      setMom c (ps a) (fun μ => if μ = 0 ∨ μ = axis then
        -(minkSq k) / (2 * (k 0 - k axis)) else 0) = ⟨pa, none⟩ ∧
      setMom c (ps b) (fun μ => -(if μ = 0 ∨ μ = axis then
        -(minkSq k) / (2 * (k 0 - k axis)) else 0) - k μ) = ⟨pb, none⟩ ∧
      ps' = Function.update (Function.update ps a pa) b pb := by
  unfold fixReal at h
  simp only [bind, Except.bind, pure, Except.pure] at h
  rcases hk : othersMom ps a b with e | k
  · simp [hk] at h
  simp only [hk] at h
  by_cases hd : 2 * (k 0 - k axis) = 0
  · simp [hd, throw, throwThe, MonadExceptOf.throw] at h
  simp only [hd, if_false] at h
  rcases sa : setMom c (ps a) (fun μ => if μ = 0 ∨ μ = axis then
        -(minkSq k) / (2 * (k 0 - k axis)) else 0) with ⟨pa, _ | e⟩
  · simp only [sa, Out.toExcept, Function.update_self, Function.update_of_ne hab.symm] at h
    have hm := setMom_mom c (ps a) (fun μ => if μ = 0 ∨ μ = axis then
        -(minkSq k) / (2 * (k 0 - k axis)) else 0)
    rw [sa] at hm
    simp only at hm
    simp only [hm] at h
    rcases sb : setMom c (ps b) (fun μ => -(if μ = 0 ∨ μ = axis then
        -(minkSq k) / (2 * (k 0 - k axis)) else 0) - k μ) with ⟨pb, _ | e⟩
    · simp only [sb] at h
      injection h with h
      exact ⟨k, pa, pb, rfl, hd, sa, sb, h.symm⟩
    · simp [sb] at h
  · simp [sa, Out.toExcept] at h

/-- C11: whenever the real-momenta variant returns, momentum is exactly conserved, both
adjusted particles are massless and consistent, all others are unchanged, and the new
components lie in every subfield (the reals, say) that contains the components of the
other particles' four momenta. -/
theorem C11_real_momenta [NeZero (2 : K)] (c : Ctx K) {i : K} (hi : c.imag = some i)
    (ps ps' : Point K n) (hps : ∀ k, Consistent c (ps k)) {a b : Fin n} (hab : a ≠ b)
    (axis : Fin 4) (h : fixReal c ps a b axis = .ok ps') :
    Conserves ps' ∧ Massless (ps' a) ∧ Massless (ps' b) ∧ (∀ k, Consistent c (ps' k)) ∧
    (∀ k, k ≠ a → k ≠ b → ps' k = ps k) ∧
    ∀ S : Subfield K, (∀ k, k ≠ a → k ≠ b → ∀ v, (ps k).mom = some v → ∀ μ, v μ ∈ S) →
      ∀ k v, (k = a ∨ k = b) → (ps' k).mom = some v → ∀ μ, v μ ∈ S := by
  obtain ⟨k, pa, pb, hk, hd, sa, sb, rfl⟩ := fixReal_ok c ps ps' hab axis h
  have hd1 : k 0 - k axis ≠ 0 := right_ne_zero_of_mul hd
  have hax : axis ≠ 0 := by rintro rfl; simp at hd1
  have ua : Function.update (Function.update ps a pa) b pb a = pa := by
    rw [Function.update_of_ne hab, Function.update_self]
  have ub : Function.update (Function.update ps a pa) b pb b = pb := Function.update_self _ _ _
  have uo : ∀ j, j ≠ a → j ≠ b → Function.update (Function.update ps a pa) b pb j = ps j := by
    intro j h1 h2; rw [Function.update_of_ne h2, Function.update_of_ne h1]
  have ca := C01_op_consistent c (ps a) (.mom _) (hps a) (by rw [applyOp, sa])
  have cb := C01_op_consistent c (ps b) (.mom _) (hps b) (by rw [applyOp, sb])
  rw [applyOp, sa] at ca
  rw [applyOp, sb] at cb
  have va := setMom_mom c (ps a) (fun μ => if μ = 0 ∨ μ = axis then
        -(minkSq k) / (2 * (k 0 - k axis)) else 0)
  have vb := setMom_mom c (ps b) (fun μ => -(if μ = 0 ∨ μ = axis then
        -(minkSq k) / (2 * (k 0 - k axis)) else 0) - k μ)
  rw [sa] at va; rw [sb] at vb
  simp only at va vb ca cb
  have hα : (-(minkSq k) / (2 * (k 0 - k axis))) * (2 * (k 0 - k axis)) = -(SpecMinkSq k) := by
    rw [div_mul_cancel₀ _ hd, minkSq_eq]
  have hmem : ∀ S : Subfield K,
      (∀ j, j ≠ a → j ≠ b → ∀ v, (ps j).mom = some v → ∀ μ, v μ ∈ S) → ∀ μ, k μ ∈ S := by
    intro S hS μ
    unfold othersMom at hk
    split at hk
    · split at hk
      · injection hk with hk
        rw [← hk, Finset.sum_apply]
        refine Subfield.sum_mem S fun j hj => ?_
        simp only [Finset.mem_filter, Finset.mem_univ, true_and] at hj
        rename_i hall _
        obtain ⟨v, hv⟩ := Option.isSome_iff_exists.mp (hall j hj)
        rw [hv]; exact hS j hj.1 hj.2 v hv μ
      · cases hk
    · cases hk
  have hαmem : ∀ S : Subfield K, (∀ μ, k μ ∈ S) → -(minkSq k) / (2 * (k 0 - k axis)) ∈ S := by
    intro S hS
    rw [minkSq_eq, SpecMinkSq]
    have h2 : (2 : K) ∈ S := ofNat_mem S 2
    exact div_mem (neg_mem (sub_mem (sub_mem (sub_mem (pow_mem (hS 0) 2) (pow_mem (hS 1) 2))
      (pow_mem (hS 2) 2)) (pow_mem (hS 3) 2))) (mul_mem h2 (sub_mem (hS 0) (hS axis)))
  generalize -(minkSq k) / (2 * (k 0 - k axis)) = α at *
  have hcons : ∀ j, Consistent c (Function.update (Function.update ps a pa) b pb j) := by
    intro j
    by_cases h1 : j = a
    · rw [h1, ua]; exact ca
    · by_cases h2 : j = b
      · rw [h2, ub]; exact cb
      · rw [uo j h1 h2]; exact hps j
  have sl : ∀ p : Particle K, Consistent c p → ∀ v, p.mom = some v → SpecSlash i v p.r2 := by
    intro p hp v hv
    obtain ⟨w, wd, hw, -, -, hs⟩ := hp.mom.mom_some i hi
    obtain rfl : w = v := by rw [hw] at hv; exact Option.some.inj hv
    exact hs
  have ssa := sl _ ca _ va
  have ssb := sl _ cb _ vb
  have hsq : ∀ p : Particle K, Consistent c p → ∀ v, p.mom = some v → SpecMinkSq v = 0 →
      Massless p := by
    intro p hp v hv h0
    rw [massless_iff, ← (C03_m2_minkowski c p hp.mom).1,
      (C03_m2_minkowski c p hp.mom).2 i v hi hv]
    exact h0
  have hko : SpecSlash i k (othersR2 ps a b) := by
    unfold othersMom at hk
    split at hk
    · rename_i hall
      split at hk
      · injection hk with hk
        have hj : ∀ j, j ≠ a ∧ j ≠ b → SpecSlash i ((ps j).mom.getD 0) (ps j).r2 := by
          intro j hj
          obtain ⟨v, hv⟩ := Option.isSome_iff_exists.mp (hall j hj)
          rw [hv]; exact sl _ (hps j) v hv
        rw [← hk]
        unfold othersR2 SpecSlash
        simp only [Matrix.sum_apply, Finset.sum_apply]
        refine ⟨?_, ?_, ?_, ?_⟩
        · rw [← Finset.sum_sub_distrib]
          exact Finset.sum_congr rfl fun j h => (hj j (by simpa using h)).1
        · rw [Finset.mul_sum, ← Finset.sum_neg_distrib, ← Finset.sum_add_distrib]
          exact Finset.sum_congr rfl fun j h => (hj j (by simpa using h)).2.1
        · rw [Finset.mul_sum, ← Finset.sum_neg_distrib, ← Finset.sum_sub_distrib]
          exact Finset.sum_congr rfl fun j h => (hj j (by simpa using h)).2.2.1
        · rw [← Finset.sum_add_distrib]
          exact Finset.sum_congr rfl fun j h => (hj j (by simpa using h)).2.2.2
      · cases hk
    · cases hk
  refine ⟨?_, ?_, ?_, hcons, uo, ?_⟩
  · rw [conserves_iff, totalMom_split _ hab, othersR2_congr ps _ a b uo, ua, ub]
    obtain ⟨a0, a1, a2, a3⟩ := ssa
    obtain ⟨b0, b1, b2, b3⟩ := ssb
    obtain ⟨k0, k1, k2, k3⟩ := hko
    ext x y
    fin_cases x <;> fin_cases y
    · show pa.r2 0 0 + pb.r2 0 0 + othersR2 ps a b 0 0 = 0
      rw [a0, b0, k0]; ring
    · show pa.r2 0 1 + pb.r2 0 1 + othersR2 ps a b 0 1 = 0
      rw [a1, b1, k1]; ring
    · show pa.r2 1 0 + pb.r2 1 0 + othersR2 ps a b 1 0 = 0
      rw [a2, b2, k2]; ring
    · show pa.r2 1 1 + pb.r2 1 1 + othersR2 ps a b 1 1 = 0
      rw [a3, b3, k3]; ring
  · rw [ua]
    refine hsq _ ca _ va ?_
    fin_cases axis <;> simp [SpecMinkSq] at *
  · rw [ub]
    refine hsq _ cb _ vb ?_
    unfold SpecMinkSq at *
    fin_cases axis <;> simp at * <;> linear_combination hα
  · intro S hS j v hj hv μ
    have hkS := hmem S hS
    have hαS := hαmem S hkS
    have hif : (if μ = 0 ∨ μ = axis then α else 0) ∈ S := by
      split
      · exact hαS
      · exact zero_mem S
    rcases hj with rfl | rfl
    · rw [ua, va] at hv
      injection hv with hv
      rw [← hv]; exact hif
    · rw [ub, vb] at hv
      injection hv with hv
      rw [← hv]; exact sub_mem (neg_mem hif) (hkS μ)

/-- C11: in the symmetric convention, over a field with `1j`, the call does return whenever the
others' momentum `K` has `K_0 ≠ K_axis` and there is at least one other particle. -/
theorem C11_real_momenta_returns (c : Ctx K) (hc : c.conv = .symmetric) {i : K}
    (hi : c.imag = some i) (ps : Point K n) {a b : Fin n} (hab : a ≠ b)
    (v : Fin n → V4 K) (hv : ∀ k, k ≠ a → k ≠ b → (ps k).mom = some (v k))
    (hex : ∃ k, k ≠ a ∧ k ≠ b) (axis : Fin 4)
    (hd : 2 * ((∑ k with k ≠ a ∧ k ≠ b, v k) 0 - (∑ k with k ≠ a ∧ k ≠ b, v k) axis) ≠ 0) :
    ∃ ps', fixReal c ps a b axis = .ok ps' := by
  have hk : othersMom ps a b = .ok (∑ k with k ≠ a ∧ k ≠ b, v k) := by
    unfold othersMom
    rw [if_pos (fun k hk => by rw [hv k hk.1 hk.2]; rfl), if_pos hex]
    congr 1
    refine Finset.sum_congr rfl fun k hk => ?_
    simp only [Finset.mem_filter, Finset.mem_univ, true_and] at hk
    rw [hv k hk.1 hk.2]; rfl
  unfold fixReal
  simp only [bind, Except.bind, pure, Except.pure, hk, hd, if_false]
  have ok := fun p v => setMom_symmetric_ok c hc hi p v
  have mm := fun p v => setMom_mom c p v
  have split : ∀ (p : Particle K) v, ∃ q, setMom c p v = ⟨q, none⟩ ∧ q.mom = some v := by
    intro p v
    refine ⟨(setMom c p v).st, ?_, mm p v⟩
    have := ok p v
    rcases h : setMom c p v with ⟨q, e⟩
    rw [h] at this
    simp only at this
    rw [this]
  obtain ⟨pa, sa, ma⟩ := split (ps a) (fun μ => if μ = 0 ∨ μ = axis then
    -(minkSq (∑ k with k ≠ a ∧ k ≠ b, v k)) / (2 * ((∑ k with k ≠ a ∧ k ≠ b, v k) 0 -
      (∑ k with k ≠ a ∧ k ≠ b, v k) axis)) else 0)
  simp only [sa, Out.toExcept, Function.update_self, Function.update_of_ne hab.symm, ma]
  generalize (fun μ => -(if μ = 0 ∨ μ = axis then
    -(minkSq (∑ k with k ≠ a ∧ k ≠ b, v k)) / (2 * ((∑ k with k ≠ a ∧ k ≠ b, v k) 0 -
      (∑ k with k ≠ a ∧ k ≠ b, v k) axis)) else 0) - (∑ k with k ≠ a ∧ k ≠ b, v k) μ) = w
  obtain ⟨pb, sb, -⟩ := split (ps b) w
  rw [sb]
  exact ⟨_, rfl⟩

/-! ### C49 -/

theorem pyMax_spec {Γ : Type*} [LinearOrder Γ] (x : Γ) (xs : List Γ) :
    ∃ m, pyMax (x :: xs) = .ok m ∧ m ∈ x :: xs ∧ ∀ y ∈ x :: xs, y ≤ m := by
  refine ⟨_, rfl, ?_⟩
  induction xs generalizing x with
  | nil => simp
  | cons y ys ih =>
    simp only [List.foldl_cons]
    by_cases h : y > x
    · simp only [h, if_true]
      obtain ⟨h1, h2⟩ := ih y
      refine ⟨List.mem_cons_of_mem _ h1, fun z hz => ?_⟩
      rcases List.mem_cons.mp hz with rfl | hz
      · exact h.le.trans (h2 y (by simp))
      · exact h2 z hz
    · simp only [h, if_false]
      obtain ⟨h1, h2⟩ := ih x
      refine ⟨?_, fun z hz => ?_⟩
      · rcases List.mem_cons.mp h1 with h1 | h1
        · rw [h1]; simp
        · exact List.mem_cons_of_mem _ (List.mem_cons_of_mem _ h1)
      · rcases List.mem_cons.mp hz with rfl | hz
        · exact h2 z (by simp)
        · rcases List.mem_cons.mp hz with rfl | hz
          · exact (not_lt.mp h).trans (h2 x (by simp))
          · exact h2 z (by simp [hz])

omit [Field K] in
theorem withinTol_iff {Γ : Type*} [LinearOrder Γ] (abs : K → Γ) (tol : Γ) (xs : List K)
    (hne : xs ≠ []) :
    (withinTol abs tol xs = .ok true ↔ ∀ x ∈ xs, abs x ≤ tol) ∧
    (withinTol abs tol xs = .ok false ↔ ∃ x ∈ xs, tol < abs x) := by
  obtain ⟨y, ys, rfl⟩ := List.exists_cons_of_ne_nil hne
  obtain ⟨m, hm, hmem, hmax⟩ := pyMax_spec (abs y) (ys.map abs)
  have hm' : pyMax ((y :: ys).map abs) = .ok m := hm
  obtain ⟨z, hz, rfl⟩ := List.mem_map.mp (by simpa using hmem : m ∈ (y :: ys).map abs)
  have hall : ∀ x ∈ y :: ys, abs x ≤ abs z := fun x hx =>
    hmax _ (by simpa using List.mem_map_of_mem (f := abs) hx)
  unfold withinTol
  rw [hm']
  by_cases h : abs z > tol
  · simp only [h, if_true]
    refine ⟨⟨fun h => by simp at h, fun h' => absurd (h' z hz) (not_le.mpr h)⟩,
      ⟨fun _ => ⟨z, hz, h⟩, fun _ => trivial⟩⟩
  · simp only [h, if_false]
    refine ⟨⟨fun _ x hx => (hall x hx).trans (not_lt.mp h), fun _ => trivial⟩,
      ⟨fun h => by simp at h, fun ⟨x, hx, hlt⟩ => absurd (hlt.trans_le (hall x hx)) h⟩⟩

/-- C49: `momentum_conservation_check` returns True exactly when every component of the total
momentum is within tolerance, and False exactly when one is not. -/
theorem C49_momentum_conservation_check {Γ : Type*} [LinearOrder Γ] (abs : K → Γ) (tol : Γ)
    (ps : Point K n) :
    (momentumConservationCheck abs tol ps = .ok true ↔
      ∀ i j, abs (∑ k, (ps k).r2 i j) ≤ tol) ∧
    (momentumConservationCheck abs tol ps = .ok false ↔
      ∃ i j, tol < abs (∑ k, (ps k).r2 i j)) := by
  have e : ∀ i j, totalMom ps i j = ∑ k, (ps k).r2 i j := fun i j => Matrix.sum_apply _ _ _ _
  obtain ⟨h1, h2⟩ := withinTol_iff abs tol (totalEntries ps) (by simp [totalEntries])
  unfold momentumConservationCheck
  rw [h1, h2]
  simp only [totalEntries, List.mem_cons, List.not_mem_nil, or_false, e]
  simp only [Fin.forall_fin_two, Fin.exists_fin_two]
  constructor
  · constructor
    · intro h; exact ⟨⟨h _ (by simp), h _ (by simp)⟩, ⟨h _ (by simp), h _ (by simp)⟩⟩
    · rintro ⟨⟨a, b⟩, c, d⟩ x (rfl | rfl | rfl | rfl) <;> assumption
  · constructor
    · rintro ⟨x, (rfl | rfl | rfl | rfl), hx⟩ <;> simp [hx]
    · rintro ((h | h) | h | h)
      · exact ⟨_, .inl rfl, h⟩
      · exact ⟨_, .inr (.inl rfl), h⟩
      · exact ⟨_, .inr (.inr (.inl rfl)), h⟩
      · exact ⟨_, .inr (.inr (.inr rfl)), h⟩

/-- C49: `onshell_relation_check` on a non-empty consistent point returns True exactly when the
determinant of every momentum is within tolerance, and False exactly when one is not. -/
theorem C49_onshell_relation_check [NeZero (2 : K)] {Γ : Type*} [LinearOrder Γ] (c : Ctx K)
    (abs : K → Γ) (tol : Γ) (hn : n ≠ 0) (ps : Point K n) (hps : ∀ k, Consistent c (ps k)) :
    (onshellRelationCheck abs tol ps = .ok true ↔ ∀ k, abs (ps k).r2.det ≤ tol) ∧
    (onshellRelationCheck abs tol ps = .ok false ↔ ∃ k, tol < abs (ps k).r2.det) := by
  have hne : (List.ofFn fun i => (ps i).m2) ≠ [] := by simp [hn]
  obtain ⟨h1, h2⟩ := withinTol_iff abs tol _ hne
  have e : ∀ k, (ps k).m2 = (ps k).r2.det := fun k => (C03_m2_minkowski c _ (hps k).mom).1
  unfold onshellRelationCheck
  rw [h1, h2]
  simp [List.mem_ofFn, e]

/-- C49: after `fix_mom_cons` the momentum check passes at every tolerance that admits zero. -/
theorem C49_check_after_fix {Γ : Type*} [LinearOrder Γ] (abs : K → Γ) (tol : Γ)
    (h0 : abs 0 ≤ tol) (ps : Point K n) (h : Conserves ps) :
    momentumConservationCheck abs tol ps = .ok true :=
  (C49_momentum_conservation_check abs tol ps).1.mpr fun i j => by rw [h i j]; exact h0

end Lips

import Verif.Props.Pair33
import Verif.Props.SetPairSteps

/-! Property C90, continued: two three-brackets with the same middle, and those with three labels in all. -/

namespace Lips

set_option linter.unusedSectionVars false

variable {K Γ : Type*} [Field K] [LinearOrder Γ] {n : ℕ}

/-- The plan when the middles have the same labels. -/
theorem plan33_ends {longer : Bool} {t u : T3 n} (h3 : ¬SameThree t u) (hm : ∀ k, k ∈ t.m ↔ k ∈ u.m) :
    plan33 longer t u =
      if t.s ≠ u.s then .steps (if t.ang ≠ u.ang then t.rev else t) u 1 longer
      else if t.e ≠ u.e then .steps (if t.ang ≠ u.ang then t.rev else t).rev u.rev 1 longer
      else .unbound := by
  have e1 : u.m.filter (· ∉ t.m) = [] := by
    rw [List.filter_eq_nil_iff]; intro k hk; simpa using (hm k).mpr hk
  have e2 : t.m.filter (· ∉ u.m) = [] := by
    rw [List.filter_eq_nil_iff]; intro k hk; simpa using (hm k).mp hk
  unfold plan33
  unfold SameThree at h3
  simp only [e1, e2]
  rw [if_neg h3, if_neg (fun hh => hh.1 rfl), if_neg (fun hh => hh.1 rfl)]

/-- Two strings of the same kind with the same middle and different starts are set exactly, in either order. -/
theorem run_ends [NeZero (2 : K)] {c : Ctx K} {T : Tol K Γ} (hT : T.abs 0 ≤ T.tol) {ps : Point K n}
    {r l : Fin n → V2 K} (h : Spin c ps r l) {t u : T3 n} (ha : u.ang = t.ang) (hm : ∀ k, k ∈ t.m ↔ k ∈ u.m)
    (hne : t.s ≠ u.s) (hs : t.s ∉ t.m) (hu : u.s ∉ u.m) {p q : Fin n}
    (hpq : FirstTwoFree (t.labels ++ u.labels) p q) (hd : SpecSquare (l p) (l q) ≠ 0) (v w : K)
    (g1 : t.slope r l ≠ 0) (g2 : u.slope r l ≠ 0) :
    ∃ ps', andThen (andThen (setThree c T t 1 v ps) (setThree c T u 1 w)) (fixThree c t u) = .ok ps' ∧ GoodPoint c ps' ∧
      t.str.value ps' = .ok v ∧ u.str.value ps' = .ok w ∧ ∀ k, k ≠ t.s → k ≠ u.s → k ≠ p → k ≠ q → ps' k = ps k := by
  obtain ⟨ps1, r1, l1, ps2, r2, l2, e1, s1, v1, e2, s2, v2, o1, k1, o2, k2, -⟩ :=
    steps_ends hT h ha hs hu (fun hh => hs ((hm _).mpr hh)) v w g1 g2
  have keep : t.str.value ps2 = .ok v := by
    rw [← v1]
    refine T3.value_congr s1 s2 (fun k hk => (o2 k fun e => hu (e ▸ (hm k).mp hk)).2) ?_ ?_
    · split <;> simp only [(o2 _ hne).2]
    · split <;> rename_i b <;> simp only [b, if_true, if_false, Bool.false_eq_true] at k2 <;> rw [k2]
  have nl := fun k (hk : k ∈ t.labels ++ u.labels) => firstTwoFree_ne hpq hk
  have n1 := nl t.s (by simp [mem_t3])
  have n2 := nl u.s (by simp [mem_t3])
  obtain ⟨ps3, e3, hc, good, v3, w3, o3⟩ := fixThree_free (c := c) s2 hpq (by
    rw [(o2 p n2.1.symm).2.2, (o2 q n2.2.symm).2.2, (o1 p n1.1.symm).2.2, (o1 q n1.2.symm).2.2]; exact hd)
  refine ⟨ps3, by simp only [andThen, e1, e2, e3], good, by rw [v3, keep], by rw [w3, v2], ?_⟩
  intro k a1 a2 a3 a4
  rw [o3 k a3 a4, (o2 k a2).1, (o1 k a1).1]

/-- Either order. -/
theorem run_ends_any [NeZero (2 : K)] {c : Ctx K} {T : Tol K Γ} (hT : T.abs 0 ≤ T.tol) {ps : Point K n}
    {r l : Fin n → V2 K} (h : Spin c ps r l) (longer : Bool) {t u : T3 n} (ha : u.ang = t.ang) (hm : ∀ k, k ∈ t.m ↔ k ∈ u.m)
    (hne : t.s ≠ u.s) (hs : t.s ∉ t.m) (hu : u.s ∉ u.m) {p q : Fin n}
    (hpq : FirstTwoFree (t.labels ++ u.labels) p q) (hd : SpecSquare (l p) (l q) ≠ 0) (v w : K)
    (g1 : t.slope r l ≠ 0) (g2 : u.slope r l ≠ 0) :
    ∃ ps', (if longer then andThen (andThen (setThree c T u 1 w ps) (setThree c T t 1 v)) (fixThree c u t)
        else andThen (andThen (setThree c T t 1 v ps) (setThree c T u 1 w)) (fixThree c t u)) = .ok ps' ∧ GoodPoint c ps' ∧
      t.str.value ps' = .ok v ∧ u.str.value ps' = .ok w ∧ ∀ k, k ≠ t.s → k ≠ u.s → k ≠ p → k ≠ q → ps' k = ps k := by
  cases longer
  · simpa using run_ends hT h ha hm hne hs hu hpq hd v w g1 g2
  · have hpq' : FirstTwoFree (u.labels ++ t.labels) p q :=
      firstTwoFree_congr (fun k => by simp only [List.mem_append]; exact or_comm) hpq
    obtain ⟨ps', e, g, a, b, o⟩ := run_ends hT h ha.symm (fun k => (hm k).symm) hne.symm hu hs hpq' hd w v g2 g1
    exact ⟨ps', by simpa using e, g, b, a, fun k x y => o k y x⟩

theorem same_kind (t u : T3 n) : u.ang = (if t.ang ≠ u.ang then t.rev else t).ang := by
  unfold T3.rev; rcases h : t.ang <;> rcases h' : u.ang <;> simp [h]

/-- C90: two three-brackets with the same labels in the middle and different starts. `t₁` is the first, written in the
kind of the second. When also `t₁` and the second have different starts, both end at the values asked for. -/
theorem C90_ends [NeZero (2 : K)] {c : Ctx K} {T : Tol K Γ} (hT : T.abs 0 ≤ T.tol) {ps : Point K n}
    {r l : Fin n → V2 K} (h : Spin c ps r l) (longer : Bool) {t u t₁ : T3 n} (h3 : ¬SameThree t u)
    (hm : ∀ k, k ∈ t.m ↔ k ∈ u.m) (hst : t.s ≠ u.s) (ht₁ : t₁ = if t.ang ≠ u.ang then t.rev else t)
    (hne : t₁.s ≠ u.s) (hs : t₁.s ∉ t.m) (hu : u.s ∉ u.m) {p q : Fin n}
    (hpq : FirstTwoFree (t.labels ++ u.labels) p q) (hd : SpecSquare (l p) (l q) ≠ 0) (v w : K)
    (g1 : t₁.slope r l ≠ 0) (g2 : u.slope r l ≠ 0) :
    ∃ ps', pair33 c T longer ps t v u w = some (.ok ps') ∧ GoodPoint c ps' ∧ t.str.value ps' = .ok v ∧
      u.str.value ps' = .ok w ∧ ∀ k, k ≠ t₁.s → k ≠ u.s → k ≠ p → k ≠ q → ps' k = ps k := by
  have em : t₁.m = t.m := by rw [ht₁]; split <;> rfl
  have el : ∀ k, k ∈ t₁.labels ↔ k ∈ t.labels := by
    intro k; rw [ht₁]; split
    · exact T3.mem_rev
    · rfl
  have hpq' : FirstTwoFree (t₁.labels ++ u.labels) p q :=
    firstTwoFree_congr (fun k => by simp only [List.mem_append, el]) hpq
  obtain ⟨ps', e, good, a, b, o⟩ := run_ends_any hT h longer (t := t₁) (by rw [ht₁]; exact same_kind t u) (fun k => by rw [em]; exact hm k) hne
    (by rw [em]; exact hs) hu hpq' hd v w g1 g2
  obtain ⟨r', l', s'⟩ := good.spin
  refine ⟨ps', ?_, good, ?_, b, o⟩
  · unfold pair33
    rw [norm33_two_free hpq]
    simp only [plan33_ends h3 hm, if_pos hst, ← ht₁, e]
  · rw [← a, ht₁]; split
    · exact (t.value_rev s').symm
    · rfl

/-- C90: the same with equal starts and different ends; the strings are set read backwards. -/
theorem C90_ends_back [NeZero (2 : K)] {c : Ctx K} {T : Tol K Γ} (hT : T.abs 0 ≤ T.tol) {ps : Point K n}
    {r l : Fin n → V2 K} (h : Spin c ps r l) (longer : Bool) {t u t₁ : T3 n} (h3 : ¬SameThree t u)
    (hm : ∀ k, k ∈ t.m ↔ k ∈ u.m) (hst : t.s = u.s) (hee : t.e ≠ u.e) (ht₁ : t₁ = (if t.ang ≠ u.ang then t.rev else t).rev)
    (hne : t₁.s ≠ u.e) (hs : t₁.s ∉ t.m) (hu : u.e ∉ u.m) {p q : Fin n}
    (hpq : FirstTwoFree (t.labels ++ u.labels) p q) (hd : SpecSquare (l p) (l q) ≠ 0) (v w : K)
    (g1 : t₁.slope r l ≠ 0) (g2 : u.rev.slope r l ≠ 0) :
    ∃ ps', pair33 c T longer ps t v u w = some (.ok ps') ∧ GoodPoint c ps' ∧ t.str.value ps' = .ok v ∧
      u.str.value ps' = .ok w ∧ ∀ k, k ≠ t₁.s → k ≠ u.e → k ≠ p → k ≠ q → ps' k = ps k := by
  have em : t₁.m = t.m := by rw [ht₁]; split <;> rfl
  have el : ∀ k, k ∈ t₁.labels ↔ k ∈ t.labels := by
    intro k; rw [ht₁, T3.mem_rev]; split
    · exact T3.mem_rev
    · rfl
  have hpq' : FirstTwoFree (t₁.labels ++ u.rev.labels) p q :=
    firstTwoFree_congr (fun k => by simp only [List.mem_append, el, T3.mem_rev]) hpq
  have hk : u.rev.ang = t₁.ang := by
    rw [ht₁]
    exact congrArg (! ·) (same_kind t u)
  obtain ⟨ps', e, good, a, b, o⟩ := run_ends_any hT h longer (t := t₁) (u := u.rev) hk (fun k => by rw [em]; exact hm k) hne
    (by rw [em]; exact hs) hu hpq' hd v w g1 g2
  obtain ⟨r', l', s'⟩ := good.spin
  refine ⟨ps', ?_, good, ?_, ?_, o⟩
  · unfold pair33
    rw [norm33_two_free hpq]
    simp only [plan33_ends h3 hm, if_neg (not_not.mpr hst), if_pos hee, ← ht₁, e]
  · rw [← a, ht₁, T3.value_rev s']; split
    · exact (t.value_rev s').symm
    · rfl
  · rw [← b]; exact (u.value_rev s').symm

/-- C90, exception: `⟨a|m|b]` and `[b|m|e⟩`. The starts that are compared are those before the first string is
read backwards: both are set through the same spinor of `b`. The one set first does not end at the value asked
for, except for one value `w₀` of the other. -/
theorem C90_stale_partial [NeZero (2 : K)] {c : Ctx K} {T : Tol K Γ} (hT : T.abs 0 ≤ T.tol) {ps : Point K n}
    {r l : Fin n → V2 K} (h : Spin c ps r l) {t u : T3 n} (h3 : ¬SameThree t u)
    (hm : ∀ k, k ∈ t.m ↔ k ∈ u.m) (hst : t.s ≠ u.s) (ha : t.ang ≠ u.ang) (hes : t.e = u.s) (hu : u.s ∉ u.m) {p q : Fin n}
    (hpq : FirstTwoFree (t.labels ++ u.labels) p q) (hd : SpecSquare (l p) (l q) ≠ 0) (v : K)
    (g1 : t.rev.slope r l ≠ 0) (g2 : u.slope r l ≠ 0) :
    ∃ w₀ k, k ≠ 0 ∧ ∀ w, ∃ ps', pair33 c T false ps t v u w = some (.ok ps') ∧ GoodPoint c ps' ∧
      u.str.value ps' = .ok w ∧ t.str.value ps' = .ok (v + k * (w - w₀)) := by
  have hk : u.ang = t.rev.ang := by have := same_kind t u; rwa [if_pos ha] at this
  have hts : t.rev.s = u.s := hes
  have hs : t.rev.s ∉ t.rev.m := by
    rw [hts]; exact fun hh => hu ((hm _).mp hh)
  have htu : t.rev.s ∉ u.m := by rw [hts]; exact hu
  have hpq' : FirstTwoFree (t.rev.labels ++ u.labels) p q :=
    firstTwoFree_congr (fun k => by simp only [List.mem_append, T3.mem_rev]) hpq
  obtain ⟨qs1, a1, b1, -, -, -, f1, t1, -⟩ := steps_ends hT h hk hs hu htu v 0 g1 g2
  refine ⟨(u.m.map (u.term a1 b1)).sum, t.rev.slope r l / u.slope r l, div_ne_zero g1 g2, fun w => ?_⟩
  obtain ⟨ps1, r1, l1, ps2, r2, l2, e1, s1, v1, e2, s2, v2, o1, k1, o2, k2, kp⟩ := steps_ends hT h hk hs hu htu v w g1 g2
  obtain rfl : qs1 = ps1 := by rw [f1] at e1; injection e1
  obtain ⟨rfl, rfl⟩ := Spin.unique t1 s1
  -- neither slope nor the kept component changes
  have slopes : ∀ z : T3 n, z.ang = u.ang → (∀ k ∈ z.m, k ≠ u.s) → z.slope r1 l1 = z.slope r l ∧ z.slope r2 l2 = z.slope r l ∧
      z.rest r2 l2 = z.rest r1 l1 := by
    intro z za zm
    have c1 : z.slope r1 l1 = z.slope r l := T3.slope_congr (fun k hk => (o1 k (by rw [hts]; exact zm k hk)).2) (by
      rw [za, hk]
      split <;> rename_i b <;> simp only [b, if_true, if_false, Bool.false_eq_true] at k1 <;> rw [k1])
    have c2 : z.slope r2 l2 = z.slope r1 l1 := T3.slope_congr (fun k hk => (o2 k (zm k hk)).2) (by
      rw [za, hk]
      split <;> rename_i b <;> simp only [b, if_true, if_false, Bool.false_eq_true] at k2 <;> rw [k2])
    refine ⟨c1, c2.trans c1, ?_⟩
    unfold T3.rest
    congr 1
    refine List.map_congr_left fun k hk' => ?_
    have := (o2 k (zm k hk')).2
    rw [this.1, this.2, za, hk]
    split <;> rename_i b <;> simp only [b, if_true, if_false, Bool.false_eq_true] at k2 <;> rw [k2]
  obtain ⟨x1, x2, x3⟩ := slopes u rfl (fun k hk' e => hu (e ▸ hk'))
  obtain ⟨y1, y2, y3⟩ := slopes t.rev hk.symm (fun k hk' e => hu (e ▸ (hm k).mp hk'))
  have mv : t.rev.moved r2 l2 = u.moved r2 l2 ∧ t.rev.moved r1 l1 = u.moved r1 l1 ∧ t.rev.kept r2 l2 = u.kept r2 l2 ∧
      t.rev.kept r1 l1 = u.kept r1 l1 := by
    unfold T3.moved T3.kept; rw [← hk, hts]; simp
  have p1 := u.value_slope s2
  have p2 := t.rev.value_slope s2
  have p3 := t.rev.value_slope s1
  rw [v2] at p1
  rw [v1] at p3
  injection p1 with p1
  injection p3 with p3
  have p4 : (u.m.map (u.term r1 l1)).sum = u.moved r1 l1 * u.slope r1 l1 - u.kept r1 l1 * u.rest r1 l1 := by
    have q1 := u.value_eq s1
    rw [u.value_slope s1] at q1
    injection q1 with q1
    exact q1.symm
  have nl := fun k (hk : k ∈ t.rev.labels ++ u.labels) => firstTwoFree_ne hpq' hk
  have n1 := nl t.rev.s (by simp [mem_t3])
  have n2 := nl u.s (by simp [mem_t3])
  obtain ⟨ps3, e3, hc, good, v3, w3, o3⟩ := fixThree_free (c := c) s2 hpq' (by
    rw [(o2 p n2.1.symm).2.2, (o2 q n2.2.symm).2.2, (o1 p n1.1.symm).2.2, (o1 q n1.2.symm).2.2]; exact hd)
  obtain ⟨r3, l3, s3⟩ := good.spin
  refine ⟨ps3, ?_, good, by rw [w3, v2], ?_⟩
  · unfold pair33
    rw [norm33_two_free hpq]
    simp only [plan33_ends h3 hm, if_pos hst, if_pos ha, Bool.false_eq_true, if_false, andThen, e1, e2, e3]
  · rw [← t.value_rev s3, v3, p2]
    congr 1
    rw [p4, p1, p3]
    obtain ⟨m1, m2, m3, m4⟩ := mv
    rw [m1, m2, m3, m4, kp, x1, x2, x3, y1, y2, y3]
    field_simp
    ring

/-- C90, exception: `⟨a|m|b]` and `[a|m|b⟩` are different, but the method fails: no name is bound to the mode. -/
theorem C90_refused (c : Ctx K) (T : Tol K Γ) (longer : Bool) (ps : Point K n) {t u : T3 n} (h3 : ¬SameThree t u)
    (hm : ∀ k, k ∈ t.m ↔ k ∈ u.m) (hst : t.s = u.s) (hee : t.e = u.e) {p q : Fin n}
    (hpq : FirstTwoFree (t.labels ++ u.labels) p q) (v w : K) :
    pair33 c T longer ps t v u w = some (.error .exception) := by
  unfold pair33
  rw [norm33_two_free hpq]
  simp only [plan33_ends h3 hm, if_neg (not_not.mpr hst), if_neg (not_not.mpr hee)]

/-- The three-bracket `⟨A|(B+C)|A]`, in either kind and with either order in the middle. -/
theorem T3.value_round {c : Ctx K} {ps : Point K n} {r l : Fin n → V2 K} (h : Spin c ps r l) {t : T3 n} {B C : Fin n}
    (he : t.e = t.s) (hm : t.m = [B, C] ∨ t.m = [C, B]) :
    t.str.value ps = .ok (SpecAngle (r t.s) (r B) * SpecSquare (l B) (l t.s) + SpecAngle (r t.s) (r C) * SpecSquare (l C) (l t.s)) := by
  rw [T3.value_eq h]
  congr 1
  rcases hm with e | e <;> rw [e] <;> simp only [List.map_cons, List.map_nil, List.sum_cons, List.sum_nil, T3.term, he] <;>
    split <;> unfold SpecAngle SpecSquare <;> ring

theorem mem_round {A B C k : Fin n} : (k ∈ [A, B, C, A] ↔ k = A ∨ k = B ∨ k = C) ∧ (k ∈ [A, C, B, A] ↔ k = A ∨ k = B ∨ k = C) ∧
    (k ∈ [B, A, C, B] ↔ k = A ∨ k = B ∨ k = C) ∧ (k ∈ [B, C, A, B] ↔ k = A ∨ k = B ∨ k = C) := by
  simp only [List.mem_cons, List.not_mem_nil]
  refine ⟨?_, ?_, ?_, ?_⟩ <;> constructor <;> intro h <;> aesop

theorem plan33_custom {longer : Bool} {t u : T3 n} {A B C : Fin n} (hs : SameThree t u) (hl : labels33 t u = some (A, B, C)) :
    plan33 longer t u = .custom A B C := by
  unfold SameThree at hs
  unfold plan33
  simp only [hl]
  rw [if_pos hs]

/-- C90: `⟨A|(B+C)|A]` and `⟨B|(A+C)|B]` both end at the values asked for; in the two kinds and with the labels in
the middle in any order. -/
theorem C90_custom [NeZero (2 : K)] {c : Ctx K} {T : Tol K Γ} {ps : Point K n}
    {r l : Fin n → V2 K} (h : Spin c ps r l) (longer : Bool) {t u : T3 n} {A B C : Fin n} (hAB : A ≠ B) (hAC : A ≠ C) (hBC : B ≠ C)
    (ts : t.s = A) (te : t.e = A) (tm : t.m = [B, C] ∨ t.m = [C, B]) (us : u.s = B) (ue : u.e = B)
    (um : u.m = [A, C] ∨ u.m = [C, A]) {p q : Fin n} (hpq : FirstTwoFree (t.labels ++ u.labels) p q)
    (hd : SpecSquare (l p) (l q) ≠ 0) (v w : K)
    (g1 : SpecAngle (r B) (r C) ≠ 0) (g2 : SpecSquare (l C) (l A) ≠ 0) (g3 : SpecSquare (l B) (l A) ≠ 0) :
    ∃ ps', pair33 c T longer ps t v u w = some (.ok ps') ∧ GoodPoint c ps' ∧ t.str.value ps' = .ok v ∧
      u.str.value ps' = .ok w ∧ ∀ k, k ≠ A → k ≠ p → k ≠ q → ps' k = ps k := by
  obtain ⟨ps1, r1, e1, s1, o1, x1, y1⟩ := custom33_spec h (A := A) (B := B) (C := C) v w g1 g2 g3
  have nA := firstTwoFree_ne hpq (k := A) (by simp [mem_t3, ts])
  obtain ⟨ps2, e2, hc, good, v2, w2, o2⟩ := fixThree_free (c := c) s1 hpq hd
  have hplan : plan33 longer t u = .custom A B C := by
    have tl : t.labels = [A, B, C, A] ∨ t.labels = [A, C, B, A] := by
      unfold T3.labels; rcases tm with e | e <;> simp [ts, te, e]
    have ul : u.labels = [B, A, C, B] ∨ u.labels = [B, C, A, B] := by
      unfold T3.labels; rcases um with e | e <;> simp [us, ue, e]
    have mt : ∀ k, k ∈ t.labels ↔ k = A ∨ k = B ∨ k = C := by
      intro k
      rcases tl with e | e <;> rw [e]
      · exact mem_round.1
      · exact mem_round.2.1
    have mu : ∀ k, k ∈ u.labels ↔ k = A ∨ k = B ∨ k = C := by
      intro k
      rcases ul with e | e <;> rw [e]
      · exact mem_round.2.2.1
      · exact mem_round.2.2.2
    refine plan33_custom ⟨fun k => (mt k).trans (mu k).symm, ?_⟩ ?_
    · rcases tl with e | e <;> rw [e]
      · rw [List.dedup_cons_of_mem (by simp), List.Nodup.dedup (by simp [hBC, hAB.symm, hAC.symm])]; rfl
      · rw [List.dedup_cons_of_mem (by simp), List.Nodup.dedup (by simp [hBC.symm, hAB.symm, hAC.symm])]; rfl
    · unfold labels33
      rcases tl with e | e <;> rcases ul with e' | e' <;> rw [e, e'] <;> simp [hBC]
  refine ⟨ps2, ?_, good, ?_, ?_, ?_⟩
  · unfold pair33
    rw [norm33_two_free hpq]
    simp only [hplan, andThen, e1, e2]
  · rw [v2, T3.value_round s1 (by rw [te, ts]) tm, ts, (o1 B hAB.symm).2, (o1 C hAC.symm).2, x1]
  · rw [w2, T3.value_round s1 (by rw [ue, us]) um, us, (o1 B hAB.symm).2, (o1 C hAC.symm).2, y1]
  · intro k a1 a2 a3
    rw [o2 k a2 a3, (o1 k a1).1]

/-- C90, exception: `⟨A|B|C]` and `⟨B|A|C]` have three labels as well, and the same formula is used. Where they end
does not depend on the value asked for the first. -/
theorem C90_custom_partial [NeZero (2 : K)] {c : Ctx K} {T : Tol K Γ} {ps : Point K n}
    {r l : Fin n → V2 K} (h : Spin c ps r l) (longer : Bool) {A B C : Fin n} (hAB : A ≠ B) (hAC : A ≠ C) (hBC : B ≠ C)
    {p q : Fin n} (hpq : FirstTwoFree [A, B, C] p q)
    (hd : SpecSquare (l p) (l q) ≠ 0) (w : K)
    (g1 : SpecAngle (r B) (r C) ≠ 0) (g2 : SpecSquare (l C) (l A) ≠ 0) (g3 : SpecSquare (l B) (l A) ≠ 0) :
    ∀ v, ∃ ps', pair33 c T longer ps ⟨true, A, [B], C⟩ v ⟨true, B, [A], C⟩ w = some (.ok ps') ∧ GoodPoint c ps' ∧
      (⟨true, A, [B], C⟩ : T3 n).str.value ps' =
        .ok ((w - SpecAngle (r B) (r C) * SpecSquare (l C) (l B)) / SpecSquare (l B) (l A) * SpecSquare (l B) (l C)) ∧
      (⟨true, B, [A], C⟩ : T3 n).str.value ps' =
        .ok ((w - SpecAngle (r B) (r C) * SpecSquare (l C) (l B)) / SpecSquare (l B) (l A) * SpecSquare (l C) (l A)) := by
  intro v
  obtain ⟨ps1, r1, e1, s1, o1, x1, y1⟩ := custom33_spec h (A := A) (B := B) (C := C) v w g1 g2 g3
  have hpq' : FirstTwoFree ((⟨true, A, [B], C⟩ : T3 n).labels ++ (⟨true, B, [A], C⟩ : T3 n).labels) p q :=
    firstTwoFree_congr (fun k => by simp only [T3.labels, List.cons_append, List.nil_append, List.mem_cons, List.not_mem_nil]; tauto) hpq
  obtain ⟨ps2, e2, hc, good, v2, w2, o2⟩ := fixThree_free (c := c) s1 hpq' hd
  have hplan : plan33 longer (⟨true, A, [B], C⟩ : T3 n) ⟨true, B, [A], C⟩ = .custom A B C := by
    refine plan33_custom ⟨fun k => ?_, ?_⟩ ?_
    · simp only [T3.labels, List.cons_append, List.nil_append, List.mem_cons, List.not_mem_nil]; tauto
    · simp [T3.labels, List.dedup_cons_of_notMem, hAB, hAC, hBC]
    · simp [labels33, T3.labels]
  have hy : SpecAngle (r1 A) (r B) = (w - SpecAngle (r B) (r C) * SpecSquare (l C) (l B)) / SpecSquare (l B) (l A) := by
    rw [eq_div_iff g3, ← y1]
    unfold SpecAngle SpecSquare; ring
  refine ⟨ps2, ?_, good, ?_, ?_⟩
  · unfold pair33
    rw [norm33_two_free hpq']
    simp only [hplan, andThen, e1, e2]
  · rw [v2, T3.value_eq s1]
    simp only [List.map_cons, List.map_nil, List.sum_cons, List.sum_nil, T3.term, if_true, (o1 B hAB.symm).2, hy, add_zero]
  · rw [w2, T3.value_eq s1]
    simp only [List.map_cons, List.map_nil, List.sum_cons, List.sum_nil, T3.term, if_true, (o1 B hAB.symm).2, ← hy, add_zero]
    congr 1
    unfold SpecAngle SpecSquare; ring

/-- C90, exception: when the second string is rewritten through momentum conservation its sign changes and the value
asked for does not. The second string ends at the opposite value. -/
theorem C90_flipped_partial [NeZero (2 : K)] {c : Ctx K} {T : Tol K Γ} (hT : T.abs 0 ≤ T.tol) {ps : Point K n}
    {r l : Fin n → V2 K} (h : Spin c ps r l) (longer : Bool) {t u : T3 n} (h0 : norm33 t u = (t, u.flip)) (hn : u.m.Nodup) {p q : Fin n}
    (hpq : FirstTwoFree (t.labels ++ u.flip.labels) p q) (hd : SpecSquare (l p) (l q) ≠ 0) (h3 : ¬SameThree t u.flip)
    {x : Fin n} {xs : List (Fin n)} (hx : u.flip.m.filter (· ∉ t.m) = x :: xs) (hxs : x ≠ t.s) (hl : t.m.length ≤ u.flip.m.length)
    {u₁ : T3 n} (hu₁ : u₁ = (u.flip.front x).orient t.ang) (hts : t.s ∉ t.m) (v w : K)
    (g1 : t.slope r l ≠ 0) (g2 : if u₁.s = t.s then v + t.kept r l * t.rest r l ≠ 0 else u₁.moved r l ≠ 0)
    (g3 : if t.ang then SpecSquare (l x) (l u₁.e) ≠ 0 else SpecAngle (r x) (r u₁.e) ≠ 0) :
    ∃ ps', pair33 c T longer ps t v u w = some (.ok ps') ∧ GoodPoint c ps' ∧ t.str.value ps' = .ok v ∧
      u.str.value ps' = .ok (-w) := by
  have hxf : x ∉ u.labels := by
    have : x ∈ u.flip.m.filter (· ∉ t.m) := by rw [hx]; simp
    exact (mem_freeLabels _ _).mp (List.mem_filter.mp this).1
  rw [mem_t3, not_or, not_or] at hxf
  obtain ⟨ps', e, good, a, b, -⟩ := middle_run hT h longer h0 hpq hd h3 hx (nodup_free _) hxf.1 hxf.2.2 (fun e => absurd e hxs) hl
    (t₁ := t) (by rw [if_neg hxs]) hu₁ hts v w g1 g2 g3
  obtain ⟨r', l', s'⟩ := good.spin
  refine ⟨ps', e, good, a, ?_⟩
  obtain ⟨z, hz⟩ : ∃ z, u.str.value ps' = .ok z := ⟨_, u.value_eq s'⟩
  have := T3.flip_value s' good.1 u hn hz
  rw [b] at this
  injection this with this
  rw [hz, this, neg_neg]

end Lips

import Verif.Lemmas.PairSet

/-! Property C87: setting two two-brackets. -/

namespace Lips

open Matrix

set_option linter.unusedSectionVars false

variable {K Γ : Type*} [Field K] [LinearOrder Γ] {n : ℕ}

/-- The two steps before momentum conservation is restored. -/
theorem pair22_steps [NeZero (2 : K)] {c : Ctx K} {T : Tol K Γ} (hT : T.abs 0 ≤ T.tol) {ps : Point K n}
    {r l : Fin n → V2 K} (h : Spin c ps r l) {x y : Bool} {a b d e : Fin n} (hab : a ≠ b) (hde : d ≠ e)
    (hsep : x ≠ y ∨ (e ≠ a ∧ e ≠ b ∧ d ≠ b)) (v w : K) (h1 : HeadOk x (r a) (l a)) (h2 : HeadOk y (r d) (l d)) :
    ∃ ps' r' l', andThen (setTwo c T x a b v ps) (setTwo c T y d e w) = .ok ps' ∧ Spin c ps' r' l' ∧
      twoVal x a b ps' = .ok v ∧ twoVal y d e ps' = .ok w ∧
      (∀ k, k ≠ b → k ≠ e → ps' k = ps k ∧ r' k = r k ∧ l' k = l k) := by
  obtain ⟨ps1, r1, l1, e1, s1, v1, o1, k1⟩ := setTwo_spec (T := T) hT h hab v h1
  have hd : HeadOk y (r1 d) (l1 d) := by
    rcases hsep with hk | hk
    · cases x <;> cases y <;> simp at hk k1 <;> simpa [HeadOk, k1] using h2
    · rw [(o1 d hk.2.2).2.1, (o1 d hk.2.2).2.2]; exact h2
  obtain ⟨ps2, r2, l2, e2, s2, v2, o2, k2⟩ := setTwo_spec (T := T) hT s1 hde w hd
  refine ⟨ps2, r2, l2, by simp [andThen, e1, e2], s2, ?_, v2, ?_⟩
  · rcases hsep with hk | hk
    · rw [twoVal_kind s1 s2, v1]
      cases x <;> cases y <;> simp at hk k2 ⊢ <;> exact k2
    · rw [twoVal_congr (o2 a hk.1.symm).1 (o2 b hk.2.1.symm).1, v1]
  · intro k hb he
    exact ⟨(o2 k he).1.trans (o1 k hb).1, (o2 k he).2.1.trans (o1 k hb).2.1, (o2 k he).2.2.trans (o1 k hb).2.2⟩

/-- Restoring momentum conservation with two free labels. -/
theorem fixAfter_free [NeZero (2 : K)] {c : Ctx K} {T : Tol K Γ} {ps : Point K n} {r l : Fin n → V2 K} (h : Spin c ps r l)
    {used : List (Fin n)} {p q : Fin n} (hpq : FirstTwoFree used p q) (hd : SpecSquare (l p) (l q) ≠ 0) (x : Bool) (a b : Fin n) :
    ∃ ps', fixAfter c T x a b used ps = .ok ps' ∧ GoodPoint c ps' ∧ (∀ k, k ≠ p → k ≠ q → ps' k = ps k) := by
  obtain ⟨ps', r', e, hc, s, o⟩ := fixAxis1_spin h hpq.2.2.1.ne hd
  obtain ⟨rest, hr⟩ := freeLabels_firstTwo hpq
  exact ⟨ps', by simp [fixAfter, hr, e], s.good hc, fun k h1 h2 => (o k h1 h2).1⟩

/-- Restoring momentum conservation with one free label `p` and `a`: the spinors of the kind of the first
bracket do not change. -/
theorem fixAfter_one [NeZero (2 : K)] {c : Ctx K} {T : Tol K Γ} {ps : Point K n} {r l : Fin n → V2 K} (h : Spin c ps r l)
    {used : List (Fin n)} {p : Fin n} (hp : freeLabels used = [p]) {x : Bool} {a : Fin n} (hap : a ≠ p)
    (hd : if x then SpecAngle (r a) (r p) ≠ 0 else SpecSquare (l a) (l p) ≠ 0) (b : Fin n) :
    ∃ ps' r' l', fixAfter c T x a b used ps = .ok ps' ∧ Conserves ps' ∧ Spin c ps' r' l' ∧ (if x then r' = r else l' = l) ∧
      (∀ k, k ≠ a → k ≠ p → ps' k = ps k) := by
  cases x
  · simp only [Bool.false_eq_true, if_false] at hd
    obtain ⟨ps', r', e, hc, s, o⟩ := fixAxis1_spin h hap hd
    exact ⟨ps', r', l, by simp [fixAfter, hp, e], hc, s, by simp, fun k h1 h2 => (o k h1 h2).1⟩
  · simp only [if_true] at hd
    obtain ⟨ps', l', e, hc, s, o⟩ := fixAxis2_spin h hap hd
    exact ⟨ps', r, l', by simp [fixAfter, hp, e], hc, s, by simp, fun k h1 h2 => (o k h1 h2).1⟩

theorem jobs22_separate {x y : Bool} {a b d e : Fin n} (hsep : x ≠ y ∨ (a ∉ [d, e] ∧ b ∉ [d, e])) :
    jobs22 x a b y d e = .ok (⟨a, b, false⟩, ⟨d, e, false⟩) := by
  unfold jobs22
  split
  · rename_i hxy
    rcases hsep with h | ⟨h1, h2⟩
    · exact absurd hxy h
    · rw [show overlap2 a b d e = [] by simp [overlap2] at *; tauto]
  · rfl

/-- C87: brackets of different kinds, or without a common label, and two further labels `p`, `q`: both brackets
have the values asked for, momentum is conserved, the point is massless and consistent, and only the
second labels of the two brackets and `p`, `q` change. The guards: the components by which the two
steps divide, and `[p|q]`, are nonzero. -/
theorem C87_separate [NeZero (2 : K)] (c : Ctx K) (T : Tol K Γ) (hT : T.abs 0 ≤ T.tol) (ps : Point K n)
    (r l : Fin n → V2 K) (h : ∀ k, IsMassless c (ps k) (r k) (l k)) (x y : Bool) (a b d e : Fin n) (hab : a ≠ b) (hde : d ≠ e)
    (hsep : x ≠ y ∨ (a ∉ [d, e] ∧ b ∉ [d, e])) (p q : Fin n) (hpq : FirstTwoFree [a, b, d, e] p q) (v w : K)
    (h1 : HeadOk x (r a) (l a)) (h2 : HeadOk y (r d) (l d)) (hd : SpecSquare (l p) (l q) ≠ 0) :
    ∃ ps', pair22 c T ps x a b v y d e w = .ok ps' ∧ twoVal x a b ps' = .ok v ∧ twoVal y d e ps' = .ok w ∧
      GoodPoint c ps' ∧ (∀ k, k ≠ b → k ≠ e → k ≠ p → k ≠ q → ps' k = ps k) := by
  obtain ⟨ps1, r1, l1, e1, s1, v1, w1, o1⟩ := pair22_steps (T := T) hT (h : Spin c ps r l) hab hde
    (hsep.imp_right fun hk => by simp at hk; exact ⟨fun e' => hk.1.2 e'.symm, fun e' => hk.2.2 e'.symm, fun e' => hk.2.1 e'.symm⟩) v w h1 h2
  have na := firstTwoFree_ne hpq (k := a) (by simp)
  have nb := firstTwoFree_ne hpq (k := b) (by simp)
  have nd := firstTwoFree_ne hpq (k := d) (by simp)
  have ne := firstTwoFree_ne hpq (k := e) (by simp)
  obtain ⟨ps2, e2, g2, o2⟩ := fixAfter_free (T := T) s1 hpq (by
    rw [(o1 p nb.1.symm ne.1.symm).2.2, (o1 q nb.2.symm ne.2.symm).2.2]; exact hd) x a b
  refine ⟨ps2, ?_, ?_, ?_, g2, fun k k1 k2 k3 k4 => (o2 k k3 k4).trans (o1 k k1 k2).1⟩
  · simp only [pair22, jobs22_separate hsep, Job.val, Bool.false_eq_true, if_false, e1]
    exact e2
  · rw [twoVal_congr (o2 a na.1 na.2) (o2 b nb.1 nb.2), v1]
  · rw [twoVal_congr (o2 d nd.1 nd.2) (o2 e ne.1 ne.2), w1]

theorem twoVal_swap {c : Ctx K} {ps : Point K n} {r l : Fin n → V2 K} (h : Spin c ps r l) {ang : Bool} {a b : Fin n} {z : K}
    (hz : twoVal ang a b ps = .ok z) : twoVal ang b a ps = .ok (-z) := by
  rw [twoVal_eq h] at hz ⊢
  injection hz with hz
  rw [← hz]
  congr 1
  cases ang
  · simp only [Bool.false_eq_true, if_false, SpecSquare]; ring
  · simp only [if_true, SpecAngle]; ring

theorem jobs22_shared {x : Bool} {a b d e o s t : Fin n} (hos : o ≠ s) (hot : o ≠ t) (hst : s ≠ t)
    (h1 : (a = o ∧ b = s) ∨ (a = s ∧ b = o)) (h2 : (d = o ∧ e = t) ∨ (d = t ∧ e = o)) :
    jobs22 x a b x d e = .ok (⟨o, s, decide (o ≠ a)⟩, ⟨o, t, decide (o ≠ d)⟩) := by
  unfold jobs22
  rw [if_pos rfl]
  rcases h1 with ⟨rfl, rfl⟩ | ⟨rfl, rfl⟩ <;> rcases h2 with ⟨rfl, rfl⟩ | ⟨rfl, rfl⟩ <;>
    simp [overlap2, only2, hos, hot, hst, hos.symm, hot.symm, hst.symm]

/-- C87: brackets of the same kind that share exactly one label `o`, in any of the four positions: it is written
first, the values get the signs that go with this, and both brackets have the values asked for. Only the
two other labels and `p`, `q` change. -/
theorem C87_shared [NeZero (2 : K)] (c : Ctx K) (T : Tol K Γ) (hT : T.abs 0 ≤ T.tol) (ps : Point K n)
    (r l : Fin n → V2 K) (h : ∀ k, IsMassless c (ps k) (r k) (l k)) (x : Bool) (a b d e o s t : Fin n)
    (hos : o ≠ s) (hot : o ≠ t) (hst : s ≠ t) (hab : (a = o ∧ b = s) ∨ (a = s ∧ b = o)) (hde : (d = o ∧ e = t) ∨ (d = t ∧ e = o))
    (p q : Fin n) (hpq : FirstTwoFree [a, b, d, e] p q) (v w : K)
    (h1 : HeadOk x (r o) (l o)) (hd : SpecSquare (l p) (l q) ≠ 0) :
    ∃ ps', pair22 c T ps x a b v x d e w = .ok ps' ∧ twoVal x a b ps' = .ok v ∧ twoVal x d e ps' = .ok w ∧
      GoodPoint c ps' ∧ (∀ k, k ≠ s → k ≠ t → k ≠ p → k ≠ q → ps' k = ps k) := by
  obtain ⟨ps1, r1, l1, e1, s1, v1, w1, o1⟩ := pair22_steps (T := T) hT (h : Spin c ps r l) (x := x) (y := x) hos hot
    (Or.inr ⟨hot.symm, hst.symm, hos⟩) (if o ≠ a then -v else v) (if o ≠ d then -w else w) h1 h1
  have mem : ∀ k ∈ [o, s, t], k ∈ [a, b, d, e] := by
    rcases hab with ⟨rfl, rfl⟩ | ⟨rfl, rfl⟩ <;> rcases hde with ⟨rfl, rfl⟩ | ⟨rfl, rfl⟩ <;> simp
  have no := firstTwoFree_ne hpq (mem o (by simp))
  have ns := firstTwoFree_ne hpq (mem s (by simp))
  have nt := firstTwoFree_ne hpq (mem t (by simp))
  obtain ⟨ps2, e2, g2, o2⟩ := fixAfter_free (T := T) s1 hpq (by
    rw [(o1 p ns.1.symm nt.1.symm).2.2, (o1 q ns.2.symm nt.2.symm).2.2]; exact hd) x a b
  have v2 : twoVal x o s ps2 = .ok (if o ≠ a then -v else v) := by rw [twoVal_congr (o2 o no.1 no.2) (o2 s ns.1 ns.2), v1]
  have w2 : twoVal x o t ps2 = .ok (if o ≠ d then -w else w) := by rw [twoVal_congr (o2 o no.1 no.2) (o2 t nt.1 nt.2), w1]
  refine ⟨ps2, ?_, ?_, ?_, g2, fun k k1 k2 k3 k4 => (o2 k k3 k4).trans (o1 k k1 k2).1⟩
  · simp only [pair22, jobs22_shared hos hot hst hab hde, Job.val, decide_eq_true_eq, e1]
    exact e2
  · obtain ⟨-, r2, l2, s2⟩ := g2
    rcases hab with ⟨rfl, rfl⟩ | ⟨rfl, rfl⟩
    · simpa using v2
    · have := twoVal_swap (c := c) s2 v2
      simpa [hos] using this
  · obtain ⟨-, r2, l2, s2⟩ := g2
    rcases hde with ⟨rfl, rfl⟩ | ⟨rfl, rfl⟩
    · simpa using w2
    · have := twoVal_swap (c := c) s2 w2
      simpa [hot] using this

/-- C87: two brackets of the same kind on the same two labels raise. -/
theorem C87_same_labels (c : Ctx K) (T : Tol K Γ) (ps : Point K n) (x : Bool) (a b d e : Fin n)
    (h : (d = a ∧ e = b) ∨ (d = b ∧ e = a)) (v w : K) : pair22 c T ps x a b v x d e w = .error .exception := by
  have : jobs22 x a b x d e = .error .exception := by
    unfold jobs22
    rcases h with ⟨rfl, rfl⟩ | ⟨rfl, rfl⟩ <;> simp [overlap2, only2]
  simp only [pair22, this]

/-- C87: with one free label `p` momentum conservation is restored with `p` and `a`. When `a` is not a label of the
second bracket, both brackets have the values asked for. -/
theorem C87_one_free [NeZero (2 : K)] (c : Ctx K) (T : Tol K Γ) (hT : T.abs 0 ≤ T.tol) (ps : Point K n)
    (r l : Fin n → V2 K) (h : ∀ k, IsMassless c (ps k) (r k) (l k)) (x y : Bool) (a b d e : Fin n) (hab : a ≠ b) (hde : d ≠ e)
    (hsep : x ≠ y ∨ (a ∉ [d, e] ∧ b ∉ [d, e])) (ha : a ∉ [d, e])
    (p : Fin n) (hp : freeLabels [a, b, d, e] = [p]) (v w : K)
    (h1 : HeadOk x (r a) (l a)) (h2 : HeadOk y (r d) (l d))
    (hd : if x then SpecAngle (r a) (r p) ≠ 0 else SpecSquare (l a) (l p) ≠ 0) :
    ∃ ps', pair22 c T ps x a b v y d e w = .ok ps' ∧ twoVal x a b ps' = .ok v ∧ twoVal y d e ps' = .ok w ∧ GoodPoint c ps' ∧
      (∀ k, k ≠ b → k ≠ e → k ≠ a → k ≠ p → ps' k = ps k) := by
  obtain ⟨ps1, r1, l1, e1, s1, v1, w1, o1⟩ := pair22_steps (T := T) hT (h : Spin c ps r l) hab hde
    (hsep.imp_right fun hk => by simp at hk; exact ⟨fun e' => hk.1.2 e'.symm, fun e' => hk.2.2 e'.symm, fun e' => hk.2.1 e'.symm⟩) v w h1 h2
  have hp' : p ∉ [a, b, d, e] := (mem_freeLabels _ p).mp (by simp [hp])
  simp only [List.mem_cons, List.not_mem_nil, or_false, not_or] at hp' ha
  obtain ⟨ps2, r2, l2, e2, hc, s2, kk, o2⟩ := fixAfter_one (T := T) s1 hp (a := a) (x := x) (fun e' => hp'.1 e'.symm) (by
    rw [(o1 p hp'.2.1 hp'.2.2.2).2.1, (o1 p hp'.2.1 hp'.2.2.2).2.2, (o1 a hab ha.2).2.1, (o1 a hab ha.2).2.2]; exact hd) b
  refine ⟨ps2, ?_, ?_, ?_, s2.good hc, fun k k1 k2 k3 k4 => (o2 k k3 k4).trans (o1 k k1 k2).1⟩
  · simp only [pair22, jobs22_separate hsep, Job.val, Bool.false_eq_true, if_false, e1]
    exact e2
  · rw [twoVal_kind s1 s2 kk, v1]
  · rw [twoVal_congr (o2 d (fun e' => ha.1 e'.symm) (fun e' => hp'.2.2.1 e'.symm)) (o2 e (fun e' => ha.2 e'.symm) (fun e' => hp'.2.2.2 e'.symm)), w1]

/-- C87, the same with a shared label and brackets of the same kind (three labels of four). -/
theorem C87_one_free_shared [NeZero (2 : K)] (c : Ctx K) (T : Tol K Γ) (hT : T.abs 0 ≤ T.tol) (ps : Point K n)
    (r l : Fin n → V2 K) (h : ∀ k, IsMassless c (ps k) (r k) (l k)) (x : Bool) (b d e s t : Fin n) (a : Fin n)
    (o : Fin n) (hos : o ≠ s) (hot : o ≠ t) (hst : s ≠ t) (hab : (a = o ∧ b = s) ∨ (a = s ∧ b = o))
    (hde : (d = o ∧ e = t) ∨ (d = t ∧ e = o)) (p : Fin n) (hp : freeLabels [a, b, d, e] = [p]) (v w : K)
    (h1 : HeadOk x (r o) (l o))
    (hd : ∀ qs, andThen (setTwo c T x o s (if o ≠ a then -v else v) ps) (setTwo c T x o t (if o ≠ d then -w else w)) = .ok qs →
      twoVal x a p qs ≠ .ok 0) :
    ∃ ps', pair22 c T ps x a b v x d e w = .ok ps' ∧ twoVal x a b ps' = .ok v ∧ twoVal x d e ps' = .ok w ∧ GoodPoint c ps' := by
  obtain ⟨ps1, r1, l1, e1, s1, v1, w1, o1⟩ := pair22_steps (T := T) hT (h : Spin c ps r l) (x := x) (y := x) hos hot
    (Or.inr ⟨hot.symm, hst.symm, hos⟩) (if o ≠ a then -v else v) (if o ≠ d then -w else w) h1 h1
  have hp' : p ∉ [a, b, d, e] := (mem_freeLabels _ p).mp (by simp [hp])
  simp only [List.mem_cons, List.not_mem_nil, or_false, not_or] at hp'
  have hd' := hd ps1 e1
  rw [twoVal_eq s1] at hd'
  obtain ⟨ps2, r2, l2, e2, hc, s2, kk, o2⟩ := fixAfter_one (T := T) s1 hp (a := a) (x := x) (fun e' => hp'.1 e'.symm) (by
    cases x <;> simpa using hd') b
  have v2 : twoVal x o s ps2 = .ok (if o ≠ a then -v else v) := by rw [twoVal_kind s1 s2 kk, v1]
  have w2 : twoVal x o t ps2 = .ok (if o ≠ d then -w else w) := by rw [twoVal_kind s1 s2 kk, w1]
  refine ⟨ps2, ?_, ?_, ?_, s2.good hc⟩
  · simp only [pair22, jobs22_shared hos hot hst hab hde, Job.val, decide_eq_true_eq, e1]
    exact e2
  · rcases hab with ⟨rfl, rfl⟩ | ⟨rfl, rfl⟩
    · simpa using v2
    · have := twoVal_swap (c := c) s2 v2
      simpa [hos] using this
  · rcases hde with ⟨rfl, rfl⟩ | ⟨rfl, rfl⟩
    · simpa using w2
    · have := twoVal_swap (c := c) s2 w2
      simpa [hot] using this

/-- C87: without a free label (four particles, disjoint labels) `[a|b]` and any second bracket are set: momentum
conservation is restored with `a` and `b`, which changes angle spinors only. -/
theorem C87_none_free_square [NeZero (2 : K)] (c : Ctx K) (T : Tol K Γ) (hT : T.abs 0 ≤ T.tol) (ps : Point K n)
    (r l : Fin n → V2 K) (h : ∀ k, IsMassless c (ps k) (r k) (l k)) (y : Bool) (a b d e : Fin n) (hab : a ≠ b) (hde : d ≠ e)
    (ha : a ∉ [d, e]) (hb : b ∉ [d, e]) (hf : freeLabels [a, b, d, e] = []) (v w : K) (hv : v ≠ 0)
    (h1 : l a 0 ≠ 0) (h2 : HeadOk y (r d) (l d)) :
    ∃ ps', pair22 c T ps false a b v y d e w = .ok ps' ∧ twoVal false a b ps' = .ok v ∧ twoVal y d e ps' = .ok w ∧
      GoodPoint c ps' := by
  have hab' := ha
  have hbb' := hb
  simp only [List.mem_cons, List.not_mem_nil, or_false, not_or] at ha hb
  obtain ⟨ps1, r1, l1, e1, s1, v1, w1, o1⟩ := pair22_steps (T := T) hT (h : Spin c ps r l) (x := false) (y := y) hab hde
    (Or.inr ⟨fun e' => ha.2 e'.symm, fun e' => hb.2 e'.symm, fun e' => hb.1 e'.symm⟩) v w (by simpa [HeadOk] using h1) h2
  have hv1 := v1
  rw [twoVal_eq s1] at hv1
  simp only [Bool.false_eq_true, if_false, Except.ok.injEq] at hv1
  obtain ⟨ps2, r2, e2, hc, s2, o2⟩ := fixAxis1_spin s1 hab (by rw [hv1]; exact hv)
  refine ⟨ps2, ?_, ?_, ?_, s2.good hc⟩
  · have chk : momentumConservationCheck T.abs T.tol ps2 = .ok true := by
      rw [(C49_momentum_conservation_check T.abs T.tol ps2).1]
      intro i j; rw [hc i j]; exact hT
    simp only [pair22, jobs22_separate (Or.inr ⟨hab', hbb'⟩ : false ≠ y ∨ _), Job.val, Bool.false_eq_true, if_false, e1]
    simp only [fixAfter, hf, andThen, e2, chk]
  · rw [twoVal_kind s1 s2 (by simp), v1]
  · rw [twoVal_congr (o2 d (fun e' => ha.1 e'.symm) (fun e' => hb.1 e'.symm)).1 (o2 e (fun e' => ha.2 e'.symm) (fun e' => hb.2 e'.symm)).1, w1]

/-- Momentum conservation determines `|a]` from the angle spinors and the other square spinors but one. -/
theorem conserve_unique {c : Ctx K} {A B : Point K n} {r l l' : Fin n → V2 K} (hA : Spin c A r l) (hB : Spin c B r l')
    (cA : Conserves A) (cB : Conserves B) {a p : Fin n} (hl : ∀ k, k ≠ a → k ≠ p → l k = l' k)
    (hd : SpecAngle (r a) (r p) ≠ 0) : l a = l' a := by
  rw [hA.conserves_iff] at cA
  rw [hB.conserves_iff] at cB
  funext j
  have key : ∑ k, SpecAngle (r k) (r p) * (l k j - l' k j) = 0 := by
    have e : ∀ k, SpecAngle (r k) (r p) * (l k j - l' k j) =
        (r p 0 * (r k 1 * l k j) - r p 1 * (r k 0 * l k j)) - (r p 0 * (r k 1 * l' k j) - r p 1 * (r k 0 * l' k j)) := by
      intro k; unfold SpecAngle; ring
    simp only [e, Finset.sum_sub_distrib, ← Finset.mul_sum, cA, cB]
    simp
  rw [Finset.sum_eq_single a] at key
  · rcases mul_eq_zero.mp key with h | h
    · exact absurd h hd
    · exact sub_eq_zero.mp h
  · intro k _ hk
    by_cases hkp : k = p
    · subst hkp; rw [specAngle_self, zero_mul]
    · rw [hl k hk hkp, sub_self, mul_zero]
  · simp

theorem conserve_unique' {c : Ctx K} {A B : Point K n} {r r' l : Fin n → V2 K} (hA : Spin c A r l) (hB : Spin c B r' l)
    (cA : Conserves A) (cB : Conserves B) {a p : Fin n} (hl : ∀ k, k ≠ a → k ≠ p → r k = r' k)
    (hd : SpecSquare (l a) (l p) ≠ 0) : r a = r' a := by
  rw [hA.conserves_iff] at cA
  rw [hB.conserves_iff] at cB
  funext j
  have key : ∑ k, SpecSquare (l k) (l p) * (r k j - r' k j) = 0 := by
    have e : ∀ k, SpecSquare (l k) (l p) * (r k j - r' k j) =
        (l p 1 * (r k j * l k 0) - l p 0 * (r k j * l k 1)) - (l p 1 * (r' k j * l k 0) - l p 0 * (r' k j * l k 1)) := by
      intro k; unfold SpecSquare; ring
    simp only [e, Finset.sum_sub_distrib, ← Finset.mul_sum, cA, cB]
    simp
  rw [Finset.sum_eq_single a] at key
  · rcases mul_eq_zero.mp key with h | h
    · exact absurd h hd
    · exact sub_eq_zero.mp h
  · intro k _ hk
    by_cases hkp : k = p
    · subst hkp; rw [specSquare_self, zero_mul]
    · rw [hl k hk hkp, sub_self, mul_zero]
  · simp

/-- C87 (finding): at four points `⟨a|b⟩` and `[d|a]` cannot be set together: momentum conservation is restored
with `a` and the free label `p`, which overwrites `|a]`. Whatever value is asked for, `[d|a]` ends up with
the same one; the final comparison of `_set_pair` then raises for all other values. The same with the
kinds exchanged. -/
theorem C87_shared_head_partial [NeZero (2 : K)] (c : Ctx K) (T : Tol K Γ) (hT : T.abs 0 ≤ T.tol) (ps : Point K n)
    (r l : Fin n → V2 K) (h : ∀ k, IsMassless c (ps k) (r k) (l k)) (x : Bool) (a b d p : Fin n) (hab : a ≠ b) (had : a ≠ d)
    (hbd : b ≠ d) (hp : freeLabels [a, b, d, a] = [p]) (v : K) (h1 : HeadOk x (r a) (l a)) (h2 : HeadOk (!x) (r d) (l d))
    (hd : if x then SpecAngle (r a) (r p) ≠ 0 else SpecSquare (l a) (l p) ≠ 0) :
    ∃ z, ∀ w, ∃ ps', pair22 c T ps x a b v (!x) d a w = .ok ps' ∧ twoVal x a b ps' = .ok v ∧ twoVal (!x) d a ps' = .ok z ∧
      GoodPoint c ps' := by
  have hp' : p ∉ [a, b, d, a] := (mem_freeLabels _ p).mp (by simp [hp])
  simp only [List.mem_cons, List.not_mem_nil, or_false, not_or] at hp'
  obtain ⟨ps1, r1, l1, e1, s1, v1, o1, k1⟩ := setTwo_spec (T := T) hT (h : Spin c ps r l) hab v h1
  have hd1 : HeadOk (!x) (r1 d) (l1 d) := by rw [(o1 d hbd.symm).2.1, (o1 d hbd.symm).2.2]; exact h2
  have run : ∀ w, ∃ ps' r' l', pair22 c T ps x a b v (!x) d a w = .ok ps' ∧ Conserves ps' ∧ Spin c ps' r' l' ∧
      (if x then r' = r1 else l' = l1) ∧ (∀ k, k ≠ a → k ≠ p → ps' k = ps1 k ∧ r' k = r1 k ∧ l' k = l1 k) ∧
      twoVal x a b ps' = .ok v := by
    intro w
    obtain ⟨ps2, r2, l2, e2, s2, v2, o2, k2⟩ := setTwo_spec (T := T) hT s1 had.symm w hd1
    have k2' : if x then r2 = r1 else l2 = l1 := by cases x <;> simpa using k2
    obtain ⟨ps3, r3, l3, e3, hc, s3, kk, o3⟩ := fixAfter_one (T := T) s2 hp (a := a) (x := x) (fun e' => hp'.1 e'.symm) (by
      have e := (o1 a hab).2
      have e' := (o1 p hp'.2.1).2
      have e'' := (o2 p hp'.1).2
      cases x
      · simp only [Bool.false_eq_true, if_false] at k2' hd ⊢
        rw [k2', e.2, e'.2]; exact hd
      · simp only [if_true] at k2' hd ⊢
        rw [k2', e.1, e'.1]; exact hd) b
    have k3 : if x then r3 = r1 else l3 = l1 := by
      cases x
      · simp only [Bool.false_eq_true, if_false] at k2' kk ⊢; rw [kk, k2']
      · simp only [if_true] at k2' kk ⊢; rw [kk, k2']
    have same : ∀ k, k ≠ a → k ≠ p → ps3 k = ps1 k := fun k h1 h2 => (o3 k h1 h2).trans (o2 k h1).1
    refine ⟨ps3, r3, l3, ?_, hc, s3, k3, fun k h1 h2 => ⟨same k h1 h2, ?_, ?_⟩, ?_⟩
    · simp only [pair22, jobs22_separate (Or.inl (by cases x <;> simp) : x ≠ !x ∨ _), Job.val, Bool.false_eq_true, if_false, andThen, e1, e2]
      exact e3
    · have := (s3 k).r_d; rw [same k h1 h2] at this
      exact Option.some.inj (this.symm.trans (s1 k).r_d)
    · have := (s3 k).l_d; rw [same k h1 h2] at this
      exact Option.some.inj (this.symm.trans (s1 k).l_d)
    · rw [twoVal_kind s1 s3 k3, v1]
  obtain ⟨q0, r0, l0, -, c0, s0, k0, o0, -⟩ := run 0
  refine ⟨if (!x) then SpecAngle (r0 d) (r0 a) else SpecSquare (l0 d) (l0 a), fun w => ?_⟩
  obtain ⟨q, r', l', e, hc, s, kk, o, hv⟩ := run w
  refine ⟨q, e, hv, ?_, s.good hc⟩
  rw [twoVal_eq s]
  congr 1
  cases x
  · simp only [Bool.false_eq_true, if_false] at kk k0 hd
    rw [kk] at s; rw [k0] at s0
    simp only [Bool.not_false, if_true]
    have hdp : d ≠ p := fun e' => hp'.2.2.1 e'.symm
    rw [(o d had.symm hdp).2.1, (o0 d had.symm hdp).2.1, conserve_unique' s s0 hc c0 (fun k h1 h2 => (o k h1 h2).2.1.trans (o0 k h1 h2).2.1.symm)]
    rw [(o1 a hab).2.2, (o1 p hp'.2.1).2.2]; exact hd
  · simp only [if_true] at kk k0 hd
    rw [kk] at s; rw [k0] at s0
    simp only [Bool.not_true, Bool.false_eq_true, if_false]
    have hdp : d ≠ p := fun e' => hp'.2.2.1 e'.symm
    rw [(o d had.symm hdp).2.2, (o0 d had.symm hdp).2.2, conserve_unique s s0 hc c0 (fun k h1 h2 => (o k h1 h2).2.2.trans (o0 k h1 h2).2.2.symm)]
    rw [(o1 a hab).2.1, (o1 p hp'.2.1).2.1]; exact hd

theorem andThen_eq_ok {r : Except Err (Point K n)} {f : Point K n → Except Err (Point K n)} {q : Point K n} :
    andThen r f = .ok q ↔ ∃ p, r = .ok p ∧ f p = .ok q := by
  cases r <;> simp [andThen]

/-- Without a free label the point is checked. -/
theorem fixAfter_checked {c : Ctx K} {T : Tol K Γ} {x : Bool} {a b : Fin n} {used : List (Fin n)} {ps ps' : Point K n}
    (hf : freeLabels used = []) (h : fixAfter c T x a b used ps = .ok ps') : ∀ i j, T.abs (∑ k, (ps' k).r2 i j) ≤ T.tol := by
  unfold fixAfter at h
  rw [hf] at h
  obtain ⟨qs, -, h⟩ := andThen_eq_ok.mp h
  rcases hm : momentumConservationCheck T.abs T.tol qs with e | _ | _ <;> rw [hm] at h
  · cases h
  · cases h
  · cases h
    exact (C49_momentum_conservation_check T.abs T.tol _).1.mp hm

/-- C87: without a free label the method returns normally only at a point that conserves momentum within the
tolerance. -/
theorem C87_none_free_checked (c : Ctx K) (T : Tol K Γ) (ps ps' : Point K n) (x y : Bool) (a b d e : Fin n) (v w : K)
    (hf : freeLabels [a, b, d, e] = []) (h : pair22 c T ps x a b v y d e w = .ok ps') :
    ∀ i j, T.abs (∑ k, (ps' k).r2 i j) ≤ T.tol := by
  unfold pair22 at h
  rcases hj : jobs22 x a b y d e with er | ⟨j, k⟩ <;> rw [hj] at h
  · cases h
  · obtain ⟨qs, -, h⟩ := andThen_eq_ok.mp h
    exact fixAfter_checked hf h

end Lips

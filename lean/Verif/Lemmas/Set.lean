import Verif.Model.Set
import Verif.Lemmas.Compute
import Mathlib.Data.List.FinRange

/-! Helper lemmas on the setters. -/

namespace Lips

open Matrix

set_option linter.unusedSectionVars false

variable {K : Type*} [Field K] {n : ℕ}

/-- Every particle of the point is massless with the given spinors. -/
def Spin (c : Ctx K) (ps : Point K n) (r l : Fin n → V2 K) : Prop := ∀ k, IsMassless c (ps k) (r k) (l k)

theorem setRd_massless [NeZero (2 : K)] {c : Ctx K} {p : Particle K} {r l : V2 K} (h : IsMassless c p r l)
    (s : V2 K) : ∃ q, setRd c p s = ⟨q, none⟩ ∧ IsMassless c q s l := by
  have e : setRd c p s = ⟨momFromR2b c { p with
      r_u := some (rDownUp s), r_d := some s, r2 := outer ![l 1, -l 0] (rDownUp s), r2b := outer s l }, none⟩ := by
    simp [setRd, rebuildFromSpinors, h.l_d, h.l_u]
  have ok : (applyOp c p (.rd s)).err = none := by rw [applyOp, e]
  have ca := C01_op_consistent c p (.rd s) h.cons ok
  have ma := C04_spinor_assignment_massless c p s h.cons (.rd s) (.inl rfl) ok
  rw [(C03_m2_minkowski c _ ca.mom).1] at ma
  rw [applyOp] at ca ma
  refine ⟨_, e, ⟨⟨?_, ?_, ?_⟩, ?_⟩⟩
  · rw [e] at ca; exact ca
  · exact (momFromR2b_fields c _).1
  · exact (momFromR2b_fields c _).2.1.trans h.l_d
  · rw [massless_iff]; rw [e] at ma; exact ma

theorem setRu_massless [NeZero (2 : K)] {c : Ctx K} {p : Particle K} {r l : V2 K} (h : IsMassless c p r l)
    (s : V2 K) : ∃ q, setRu c p s = ⟨q, none⟩ ∧ IsMassless c q ![-s 1, s 0] l := by
  have e := setRu_eq c p s l _ h.l_d h.l_u
  have ok : (applyOp c p (.ru s)).err = none := by rw [applyOp, e]
  have ca := C01_op_consistent c p (.ru s) h.cons ok
  have ma := C04_spinor_assignment_massless c p s h.cons (.ru s) (.inr (.inr (.inl rfl))) ok
  rw [(C03_m2_minkowski c _ ca.mom).1] at ma
  rw [applyOp] at ca ma
  refine ⟨_, e, ⟨⟨?_, ?_, ?_⟩, ?_⟩⟩
  · rw [e] at ca; exact ca
  · rw [(momFromR2b_fields c _).1]; simp [rUpDown_eq]
  · exact (momFromR2b_fields c _).2.1.trans h.l_d
  · rw [massless_iff]; rw [e] at ma; exact ma

theorem setLd_massless [NeZero (2 : K)] {c : Ctx K} {p : Particle K} {r l : V2 K} (h : IsMassless c p r l)
    (s : V2 K) : ∃ q, setLd c p s = ⟨q, none⟩ ∧ IsMassless c q r s := by
  have e : setLd c p s = ⟨momFromR2b c { p with
      l_u := some (lDownUp s), l_d := some s, r2 := outer (lDownUp s) ![r 1, -r 0], r2b := outer r s }, none⟩ := by
    simp [setLd, rebuildFromSpinors, h.r_d, h.r_u]
  have ok : (applyOp c p (.ld s)).err = none := by rw [applyOp, e]
  have ca := C01_op_consistent c p (.ld s) h.cons ok
  have ma := C04_spinor_assignment_massless c p s h.cons (.ld s) (.inr (.inl rfl)) ok
  rw [(C03_m2_minkowski c _ ca.mom).1] at ma
  rw [applyOp] at ca ma
  refine ⟨_, e, ⟨⟨?_, ?_, ?_⟩, ?_⟩⟩
  · rw [e] at ca; exact ca
  · exact (momFromR2b_fields c _).1.trans h.r_d
  · exact (momFromR2b_fields c _).2.1
  · rw [massless_iff]; rw [e] at ma; exact ma

theorem setLu_massless [NeZero (2 : K)] {c : Ctx K} {p : Particle K} {r l : V2 K} (h : IsMassless c p r l)
    (s : V2 K) : ∃ q, setLu c p s = ⟨q, none⟩ ∧ IsMassless c q r ![-s 1, s 0] := by
  have e := setLu_eq c p s r _ h.r_d h.r_u
  have ok : (applyOp c p (.lu s)).err = none := by rw [applyOp, e]
  have ca := C01_op_consistent c p (.lu s) h.cons ok
  have ma := C04_spinor_assignment_massless c p s h.cons (.lu s) (.inr (.inr (.inr rfl))) ok
  rw [(C03_m2_minkowski c _ ca.mom).1] at ma
  rw [applyOp] at ca ma
  refine ⟨_, e, ⟨⟨?_, ?_, ?_⟩, ?_⟩⟩
  · rw [e] at ca; exact ca
  · exact (momFromR2b_fields c _).1.trans h.r_d
  · rw [(momFromR2b_fields c _).2.1]; simp [lUpDown_eq]
  · rw [massless_iff]; rw [e] at ma; exact ma

/-- A particle replaced by a massless one. -/
theorem Spin.update_r {c : Ctx K} {ps : Point K n} {r l : Fin n → V2 K} (h : Spin c ps r l) (k : Fin n)
    {q : Particle K} {s : V2 K} (hq : IsMassless c q s (l k)) :
    Spin c (Function.update ps k q) (Function.update r k s) l := by
  intro j
  by_cases e : j = k
  · subst e; simpa using hq
  · simpa [Function.update_of_ne e] using h j

theorem Spin.update_l {c : Ctx K} {ps : Point K n} {r l : Fin n → V2 K} (h : Spin c ps r l) (k : Fin n)
    {q : Particle K} {s : V2 K} (hq : IsMassless c q (r k) s) :
    Spin c (Function.update ps k q) r (Function.update l k s) := by
  intro j
  by_cases e : j = k
  · subst e; simpa using hq
  · simpa [Function.update_of_ne e] using h j

/-- Outcome of storing a right spinor. -/
theorem store_r {c : Ctx K} {ps : Point K n} {r l : Fin n → V2 K} (h : Spin c ps r l) (k : Fin n) {o : Out K}
    {q : Particle K} {s : V2 K} (e : o = ⟨q, none⟩) (hq : IsMassless c q s (l k)) :
    ∃ ps', store ps k o = .ok ps' ∧ Spin c ps' (Function.update r k s) l ∧ ∀ j, j ≠ k → ps' j = ps j := by
  refine ⟨Function.update ps k q, by simp [store, e, Out.toExcept], h.update_r k hq, ?_⟩
  intro j hj; exact Function.update_of_ne hj _ _

theorem store_l {c : Ctx K} {ps : Point K n} {r l : Fin n → V2 K} (h : Spin c ps r l) (k : Fin n) {o : Out K}
    {q : Particle K} {s : V2 K} (e : o = ⟨q, none⟩) (hq : IsMassless c q (r k) s) :
    ∃ ps', store ps k o = .ok ps' ∧ Spin c ps' r (Function.update l k s) ∧ ∀ j, j ≠ k → ps' j = ps j := by
  refine ⟨Function.update ps k q, by simp [store, e, Out.toExcept], h.update_l k hq, ?_⟩
  intro j hj; exact Function.update_of_ne hj _ _

/-- Fixing momentum keeps all square spinors and every other particle. -/
theorem fixAxis1_spin [NeZero (2 : K)] {c : Ctx K} {ps : Point K n} {r l : Fin n → V2 K} (h : Spin c ps r l)
    {a b : Fin n} (hab : a ≠ b) (hd : SpecSquare (l a) (l b) ≠ 0) :
    ∃ ps' r', fixAxis1 c ps a b = .ok ps' ∧ Conserves ps' ∧ Spin c ps' r' l ∧
      (∀ k, k ≠ a → k ≠ b → ps' k = ps k ∧ r' k = r k) := by
  obtain ⟨ps', e, hc, ma, mb, la, lb, ho, ca, cb⟩ := fixAxis1_spec c ps hab (h a).cons (h b).cons (h a).l_d (h b).l_d hd
  have get : ∀ p : Particle K, Consistent c p → ∀ x, p.l_d = some x → ∃ y, p.r_d = some y := by
    intro p hp x hx
    rcases hr : p.r_d with _ | y
    · rw [hp.spin.both.mp hr] at hx; cases hx
    · exact ⟨y, rfl⟩
  obtain ⟨ra, hra⟩ := get _ ca _ la
  obtain ⟨rb, hrb⟩ := get _ cb _ lb
  refine ⟨ps', Function.update (Function.update r a ra) b rb, e, hc, ?_, ?_⟩
  · intro k
    by_cases eb : k = b
    · subst eb; rw [Function.update_self]; exact ⟨⟨cb, hrb, lb⟩, mb⟩
    · rw [Function.update_of_ne eb]
      by_cases ea : k = a
      · subst ea; rw [Function.update_self]; exact ⟨⟨ca, hra, la⟩, ma⟩
      · rw [Function.update_of_ne ea, ho k ea eb]; exact h k
  · intro k h1 h2
    exact ⟨ho k h1 h2, by rw [Function.update_of_ne h2, Function.update_of_ne h1]⟩

theorem fixAxis2_spin [NeZero (2 : K)] {c : Ctx K} {ps : Point K n} {r l : Fin n → V2 K} (h : Spin c ps r l)
    {a b : Fin n} (hab : a ≠ b) (hd : SpecAngle (r a) (r b) ≠ 0) :
    ∃ ps' l', fixAxis2 c ps a b = .ok ps' ∧ Conserves ps' ∧ Spin c ps' r l' ∧
      (∀ k, k ≠ a → k ≠ b → ps' k = ps k ∧ l' k = l k) := by
  obtain ⟨ps', e, hc, ma, mb, la, lb, ho, ca, cb⟩ := fixAxis2_spec c ps hab (h a).cons (h b).cons (h a).r_d (h b).r_d hd
  have get : ∀ p : Particle K, Consistent c p → ∀ x, p.r_d = some x → ∃ y, p.l_d = some y := by
    intro p hp x hx
    rcases hr : p.l_d with _ | y
    · rw [hp.spin.both.mpr hr] at hx; cases hx
    · exact ⟨y, rfl⟩
  obtain ⟨ra, hra⟩ := get _ ca _ la
  obtain ⟨rb, hrb⟩ := get _ cb _ lb
  refine ⟨ps', Function.update (Function.update l a ra) b rb, e, hc, ?_, ?_⟩
  · intro k
    by_cases eb : k = b
    · subst eb; rw [Function.update_self]; exact ⟨⟨cb, lb, hrb⟩, mb⟩
    · rw [Function.update_of_ne eb]
      by_cases ea : k = a
      · subst ea; rw [Function.update_self]; exact ⟨⟨ca, la, hra⟩, ma⟩
      · rw [Function.update_of_ne ea, ho k ea eb]; exact h k
  · intro k h1 h2
    exact ⟨ho k h1 h2, by rw [Function.update_of_ne h2, Function.update_of_ne h1]⟩

/-! ### Free labels -/

/-- `p` and `q` are the two smallest labels outside `used`. -/
def FirstTwoFree (used : List (Fin n)) (p q : Fin n) : Prop :=
  p ∉ used ∧ q ∉ used ∧ p < q ∧ ∀ k, k ∉ used → k < q → k = p

theorem mem_freeLabels (used : List (Fin n)) (k : Fin n) : k ∈ freeLabels used ↔ k ∉ used := by
  simp [freeLabels]

theorem freeLabels_sorted (used : List (Fin n)) : (freeLabels used).Pairwise (· < ·) :=
  (List.pairwise_lt_finRange n).filter _

theorem freeLabels_firstTwo {used : List (Fin n)} {p q : Fin n} (h : FirstTwoFree used p q) :
    ∃ rest, freeLabels used = p :: q :: rest := by
  obtain ⟨hp, hq, hlt, hmin⟩ := h
  have sp := freeLabels_sorted used
  have mp := (mem_freeLabels used p).mpr hp
  have mq := (mem_freeLabels used q).mpr hq
  have hm : ∀ k ∈ freeLabels used, k < q → k = p := fun k hk => hmin k ((mem_freeLabels used k).mp hk)
  revert sp mp mq hm
  generalize freeLabels used = L
  intro sp mp mq hm
  match L, sp, mp, mq, hm with
  | [], _, mp, _, _ => simp at mp
  | x :: xs, sp, mp, mq, hm =>
    rw [List.pairwise_cons] at sp
    have hx : x = p := by
      rcases List.mem_cons.mp mp with e | e
      · exact e.symm
      · exact hm x List.mem_cons_self ((sp.1 p e).trans hlt)
    subst hx
    have mq' : q ∈ xs := by
      rcases List.mem_cons.mp mq with e | e
      · exact absurd e hlt.ne'
      · exact e
    match xs, sp, mq', hm with
    | y :: ys, sp, mq', hm =>
      have hy : y = q := by
        rcases List.mem_cons.mp mq' with e | e
        · exact e.symm
        · have l1 : y < q := (List.pairwise_cons.mp sp.2).1 q e
          have := hm y (by simp) l1
          exact absurd this (sp.1 y List.mem_cons_self).ne'
      exact ⟨ys, by rw [hy]⟩

theorem firstTwo_of_freeLabels {used : List (Fin n)} {p q : Fin n} {rest : List (Fin n)}
    (h : freeLabels used = p :: q :: rest) : FirstTwoFree used p q := by
  have sp := freeLabels_sorted used
  rw [h, List.pairwise_cons, List.pairwise_cons] at sp
  refine ⟨(mem_freeLabels used p).mp (by simp [h]), (mem_freeLabels used q).mp (by simp [h]), sp.1 q (by simp), ?_⟩
  intro k hk hlt
  have := (mem_freeLabels used k).mpr hk
  rw [h, List.mem_cons, List.mem_cons] at this
  rcases this with e | e | e
  · exact e
  · exact absurd e hlt.ne
  · exact absurd (sp.2.1 k e) (lt_asymm hlt)

/-- With at least two labels more than are used there are two free ones. -/
theorem exists_firstTwoFree {used : List (Fin n)} (h : used.dedup.length + 2 ≤ n) :
    ∃ p q, FirstTwoFree used p q := by
  have hl : 2 ≤ (freeLabels used).length := by
    have e : (freeLabels used).toFinset = Finset.univ \ used.toFinset := by
      ext k; simp [mem_freeLabels]
    have nd : (freeLabels used).Nodup := (List.nodup_finRange n).filter _
    rw [← List.toFinset_card_of_nodup nd, e, Finset.card_sdiff_of_subset (Finset.subset_univ _),
      Finset.card_univ, Fintype.card_fin, List.card_toFinset]
    omega
  match hL : freeLabels used, hl with
  | p :: q :: rest, _ => exact ⟨p, q, firstTwo_of_freeLabels hL⟩

/-- The labels of the complement, for the integers of the code. -/
theorem firstTwoFree_ne {used : List (Fin n)} {p q : Fin n} (h : FirstTwoFree used p q) {k : Fin n} (hk : k ∈ used) :
    k ≠ p ∧ k ≠ q := ⟨fun e => h.1 (e ▸ hk), fun e => h.2.1 (e ▸ hk)⟩

/-! ### Values depend on the particles that occur only -/

theorem slotMat_congr' (f : Particle K → M2 K) {ps ps' : Point K n} {s : Slot n}
    (h : ∀ b k, (b, k) ∈ s → ps' k = ps k) : slotMat f ps' s = slotMat f ps s := by
  unfold slotMat
  congr 1
  refine List.map_congr_left fun t ht => ?_
  rw [h t.1 t.2 ht]

theorem chain_congr' {ps ps' : Point K n} {mid : List (Slot n)} (h : ∀ k, Occurs k mid → ps' k = ps k) (b : Bool) :
    chain ps' b mid = chain ps b mid := by
  induction mid generalizing b with
  | nil => rfl
  | cons s ss ih =>
    rw [chain_cons, chain_cons, slotMat_congr' _ fun b k hk => h k ⟨s, List.mem_cons_self, b, hk⟩,
      ih fun k hk => h k (by obtain ⟨s', hs', b, hb⟩ := hk; exact ⟨s', List.mem_cons_of_mem _ hs', b, hb⟩)]

theorem computeNB_congr {ps ps' : Point K n} {a d : Fin n} {mid : List (Slot n)} (f g : Char)
    (ha : ps' a = ps a) (hd : ps' d = ps d) (h : ∀ k, Occurs k mid → ps' k = ps k) :
    computeNB ps' f a mid d g = computeNB ps f a mid d g := by
  unfold computeNB
  rw [ha, hd, chain_congr' h]

theorem sumR2_congr {ps ps' : Point K n} {ls : List (Fin n)} (h : ∀ k ∈ ls, ps' k = ps k) :
    sumR2 ps' ls = sumR2 ps ls := by
  unfold sumR2
  congr 1
  exact List.map_congr_left fun k hk => by rw [h k hk]

theorem pyDiv_ok {a b : K} (h : b ≠ 0) : pyDiv a b = .ok (a / b) := by simp [pyDiv, h]

theorem fixFirstTwo_eq (c : Ctx K) (ps : Point K n) {used : List (Fin n)} {p q : Fin n} (h : FirstTwoFree used p q)
    (b : Bool) : fixFirstTwo c ps (freeLabels used) b = if b then fixAxis2 c ps p q else fixAxis1 c ps p q := by
  obtain ⟨rest, e⟩ := freeLabels_firstTwo h
  rw [e]; rfl

end Lips

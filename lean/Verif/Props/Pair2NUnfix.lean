import Verif.Props.Pair2N
import Verif.Props.Slices

/-! Property C98, the remaining case: there is no way to restore momentum conservation. -/

namespace Lips

open Matrix

variable {K Γ : Type*} [Field K] [LinearOrder Γ] {n : ℕ}

theorem reverse_twice {t : Str n} (w : t.Wf) : t.reverse.reverse = t := by
  obtain ⟨f, s, ms, e, g⟩ := t
  obtain ⟨h1, h2⟩ := w.chars
  simp only at h1 h2
  have hm : ∀ ch, (ch = '⟨' ∨ ch = '[' ∨ ch = '⟩' ∨ ch = ']') → mirror (mirror ch) = ch := by rintro ch (rfl | rfl | rfl | rfl) <;> decide
  simp only [Str.reverse, hm f (by tauto), hm g (by tauto), List.map_reverse, List.reverse_reverse, List.map_map, Function.comp_def, List.map_id']

theorem canFix_reverse_iff {ang : Bool} {a b : Fin n} {t : Str n} (w : t.Wf) :
    (canFix ang a b t.reverse).isSome = true ↔ (canFix ang a b t).isSome = true := by
  refine ⟨fun h => ?_, canFix_reverse w⟩
  have := canFix_reverse (Str.reverse_wf w) h
  rwa [reverse_twice w] at this

/-- The string that is set in place of the given one has a way exactly when the given one has. -/
theorem plan_fixable {ang : Bool} {a b : Fin n} {t u : Str n} (w : t.Wf) {mode : ℕ} (hp : plan2N ang a b t = .ok (u, mode)) :
    (canFix ang a b u).isSome = true ↔ Fixable ang a b t := by
  unfold plan2N at hp
  split at hp
  · cases hp
  rename_i t1 h1
  injection hp with hp
  obtain ⟨e1, f1⟩ := fixable_spec h1
  have w1 : t1.Wf := by
    rcases e1 with rfl | ⟨i, hi, rfl⟩
    · exact w
    · exact swapSlot_wf w i
  have i1 : (canFix ang a b t1).isSome = true ↔ Fixable ang a b t := by
    refine ⟨fun h => ?_, f1⟩
    rcases e1 with rfl | ⟨i, hi, rfl⟩
    · exact .inl h
    · exact .inr ⟨i, hi, h⟩
  generalize ht2 : (if turns ang a t1 = true then t1.reverse else t1) = t2 at hp
  have w2 : t2.Wf := by rw [← ht2]; split_ifs; exacts [Str.reverse_wf w1, w1]
  have i2 : (canFix ang a b t2).isSome = true ↔ Fixable ang a b t := by
    rw [← ht2]; split_ifs
    · rw [canFix_reverse_iff w1, i1]
    · exact i1
  have hu : u = (chooseMode a b t2).1 := (congrArg Prod.fst hp).symm
  rcases (chooseMode_spec a b t2).1 with hc | hc <;> rw [← hu] at hc
  · rw [hc.canFix, i2]
  · rw [hc.canFix, canFix_reverse_iff w2, i2]

/-- Setting a two-bracket changes one component of one spinor. -/
theorem setTwo_component [NeZero (2 : K)] {c : Ctx K} {T : Tol K Γ} {ps ps' : Point K n} {r l : Fin n → V2 K} (h : Spin c ps r l) {ang : Bool}
    {a b : Fin n} {X : K} (e : setTwo c T ang a b X ps = .ok ps') :
    ∃ r' l', OneSpinor c ps ps' r l r' l' b ang ∧ if ang then r' b 1 = r b 1 else l' b 0 = l b 0 := by
  obtain ⟨e, -⟩ := setThen_inv e
  cases ang
  · simp only [Bool.false_eq_true, if_false] at e ⊢
    obtain ⟨l', o⟩ := setS2_only h e
    refine ⟨r, l', o, ?_⟩
    simp only [setS2, (h a).l_d, (h b).l_u, need_some, fixIf] at e
    split at e
    · cases e
    · split at e
      · cases e
      · rename_i x _ _ q hs
        simp only [Bool.false_eq_true, if_false] at e
        injection e with e; subst e
        obtain ⟨q', e1, hq⟩ := setLu_massless (h b) ![x, ![l b 1, -l b 0] 1]
        obtain ⟨ps1, e2, h1, -⟩ := store_l h b e1 hq
        rw [e2] at hs; injection hs with hs; subst hs
        have := (o.after b).l_d
        rw [(h1 b).l_d, Function.update_self] at this
        injection this with this
        rw [← this]; simp
  · simp only [if_true] at e ⊢
    obtain ⟨r', o⟩ := setA2_only h e
    refine ⟨r', l, o, ?_⟩
    simp only [setA2, (h a).r_u, (h b).r_d, need_some, fixIf] at e
    split at e
    · cases e
    · split at e
      · cases e
      · rename_i x _ _ q hs
        simp only [Bool.false_eq_true, if_false] at e
        injection e with e; subst e
        obtain ⟨q', e1, hq⟩ := setRd_massless (h b) ![x, r b 1]
        obtain ⟨ps1, e2, h1, -⟩ := store_r h b e1 hq
        rw [e2] at hs; injection hs with hs; subst hs
        have := (o.after b).r_d
        rw [(h1 b).r_d, Function.update_self] at this
        injection this with this
        rw [← this]; simp

/-- Momentum conservation before and after changes of two particles. -/
theorem sum_two {r l r' l' : Fin n → V2 K} {b m : Fin n} (hbm : b ≠ m) (ho : ∀ k, k ≠ b → k ≠ m → r' k = r k ∧ l' k = l k)
    (h : ∀ i j, ∑ k, r k i * l k j = 0) (h' : ∀ i j, ∑ k, r' k i * l' k j = 0) (i j : Fin 2) :
    r' b i * l' b j - r b i * l b j + (r' m i * l' m j - r m i * l m j) = 0 := by
  have e : ∑ k, (r' k i * l' k j - r k i * l k j) = 0 := by rw [Finset.sum_sub_distrib, h, h', sub_zero]
  rwa [Finset.sum_eq_add b m hbm (fun k _ hk => by rw [(ho k hk.1 hk.2).1, (ho k hk.1 hk.2).2, sub_self]) (by simp) (by simp)] at e

/-- The spinors of the particle changed for the string are not in a special position. -/
def SpinorsApart (ang : Bool) (r l : Fin n → V2 K) (b : Fin n) (m : Fin n × Bool) : Prop :=
  if ang then if m.2 then SpecSquare (l b) (l m.1) ≠ 0 else r m.1 1 ≠ 0 ∧ l b ≠ 0
  else if m.2 then l m.1 0 ≠ 0 ∧ r b ≠ 0 else SpecAngle (r b) (r m.1) ≠ 0

/-- C98 fails when neither the string nor any of those with one slot rewritten leaves a way to restore momentum conservation: whenever the method returns,
compared exactly, momentum is not conserved, unless the two-bracket had its value before, both are set through the same particle, or spinors are in a
special position. -/
theorem C98_unfixable_partial [NeZero (2 : K)] (c : Ctx K) (T : Tol K Γ) (hT : ∀ x, T.abs x ≤ T.tol → x = 0) (ps : Point K n)
    (r l : Fin n → V2 K) (h : ∀ k, IsMassless c (ps k) (r k) (l k)) (hc : Conserves ps) (ang : Bool) (a b : Fin n) (hab : a ≠ b) (v : K)
    (hv : twoVal ang a b ps ≠ .ok v) (t : Str n) (w : t.Wf) (hnd : ∀ m ∈ t.ms, m.Nodup) (hf : ¬Fixable ang a b t) (z : K) (u : Str n) (mode : ℕ)
    (hp : plan2N ang a b t = .ok (u, mode)) (hm : (u.moved mode).1 ≠ b) (ha : SpinorsApart ang r l b (u.moved mode))
    (ps' : Point K n) (hr : pair2N c T ps ang a b v t z = .ok ps') : ¬Conserves ps' := by
  intro hc'
  have hs : Spin c ps r l := h
  obtain ⟨wu, -⟩ := C98_plan (K := K) ang a b t w hnd u mode hp
  have hcan : canFix ang a b u = none := by
    rw [← Option.not_isSome_iff_eq_none, plan_fixable w hp]; exact hf
  unfold pair2N at hr
  rw [hp] at hr
  obtain ⟨ps2, hr, e3⟩ := andThen_inv hr
  obtain ⟨ps1, e1, e2⟩ := andThen_inv hr
  unfold fixStr at e3
  rw [hcan] at e3
  injection e3 with e3
  subst e3
  obtain ⟨r1, l1, o1, c1⟩ := setTwo_component hs e1
  obtain ⟨e2, -⟩ := setThen_inv e2
  obtain ⟨r2, l2, o2⟩ := setNB_only o1.after wu e2
  obtain ⟨-, y, hy, hy'⟩ := setThen_inv e1
  have hyv : y = v := sub_eq_zero.mp (hT _ hy')
  subst hyv
  generalize hmm : u.moved mode = m at o2 ha hm
  obtain ⟨m, k⟩ := m
  simp only at o2 hm
  have s := sum_two (Ne.symm hm) (fun k hb hk => ⟨(o2.rest k hk).2.1.trans (o1.rest k hb).2.1, (o2.rest k hk).2.2.trans (o1.rest k hb).2.2⟩)
    (hs.conserves_iff.mp hc) (o2.after.conserves_iff.mp hc')
  rw [(o2.rest b (Ne.symm hm)).2.1, (o2.rest b (Ne.symm hm)).2.2] at s
  rw [twoVal_eq hs] at hv
  rw [twoVal_eq o1.after] at hy
  have k1 := o1.kept
  have k2 := o2.kept
  have m1 := (o1.rest m hm).2
  have a1 := (o1.rest a hab).2
  cases ang
  · simp only [Bool.false_eq_true, if_false] at k1 hv hy c1
    subst k1
    have hne : l1 b 1 ≠ l b 1 := by
      intro e
      apply hv
      injection hy with hy
      rw [← hy, a1.2]
      simp only [SpecSquare, c1, e]
    cases k
    · simp only [Bool.false_eq_true, if_false, SpinorsApart] at k2 ha
      subst k2
      have h01 := s 0 1
      have h11 := s 1 1
      have : (l1 b 1 - l b 1) * SpecAngle (r2 b) (r2 m) = 0 := by
        simp only [SpecAngle]
        linear_combination r2 m 0 * h11 - r2 m 1 * h01
      rcases mul_eq_zero.mp this with h | h
      · exact hne (sub_eq_zero.mp h)
      · exact ha h
    · simp only [if_true, Bool.false_eq_true, if_false, SpinorsApart] at k2 ha
      rw [k2, m1.2] at s
      have hz : ∀ i, r2 m i = r1 m i := fun i => by
        have h0 := s i 0
        rw [c1] at h0
        have : (r2 m i - r1 m i) * l m 0 = 0 := by linear_combination h0
        exact sub_eq_zero.mp ((mul_eq_zero.mp this).resolve_right ha.1)
      refine ha.2 (funext fun i => ?_)
      have h1 := s i 1
      rw [hz] at h1
      have : r1 b i * (l1 b 1 - l b 1) = 0 := by linear_combination h1
      exact (mul_eq_zero.mp this).resolve_right (sub_ne_zero.mpr hne)
  · simp only [if_true] at k1 hv hy c1
    subst k1
    have hne : r1 b 0 ≠ r b 0 := by
      intro e
      apply hv
      injection hy with hy
      rw [← hy, a1.1]
      simp only [SpecAngle, c1, e]
    cases k
    · simp only [Bool.false_eq_true, if_false, if_true, SpinorsApart] at k2 ha
      rw [k2, m1.1] at s
      have hz : ∀ i, l2 m i = l1 m i := fun i => by
        have h0 := s 1 i
        rw [c1] at h0
        have : r m 1 * (l2 m i - l1 m i) = 0 := by linear_combination h0
        exact sub_eq_zero.mp ((mul_eq_zero.mp this).resolve_left ha.1)
      refine ha.2 (funext fun i => ?_)
      have h1 := s 0 i
      rw [hz] at h1
      have : (r1 b 0 - r b 0) * l1 b i = 0 := by linear_combination h1
      exact (mul_eq_zero.mp this).resolve_left (sub_ne_zero.mpr hne)
    · simp only [if_true, SpinorsApart] at k2 ha
      subst k2
      have h00 := s 0 0
      have h01 := s 0 1
      have : (r1 b 0 - r b 0) * SpecSquare (l2 b) (l2 m) = 0 := by
        simp only [SpecSquare]
        linear_combination l2 m 1 * h00 - l2 m 0 * h01
      rcases mul_eq_zero.mp this with h | h
      · exact hne (sub_eq_zero.mp h)
      · exact ha h

end Lips

import Verif.Props.SetString

/-!
C91: setting the difference of five-brackets `(⟨a|b|(x+y)|e|a]-⟨b|f|(x+y)|e|b])`.
-/

namespace Lips

variable {K : Type*} [Field K] {n : ℕ}

/-- `⟨a|b|(x+y)|e⟩` in terms of spinor products. -/
def SpecHalf5 (r l : Fin n → V2 K) (a b x y e : Fin n) : K :=
  SpecAngle (r a) (r b) * (SpecSquare (l b) (l x) * SpecAngle (r x) (r e) + SpecSquare (l b) (l y) * SpecAngle (r y) (r e))

/-- The difference in terms of spinor products. -/
def SpecDiff5 (r l : Fin n → V2 K) (a b x y e f : Fin n) : K :=
  SpecHalf5 r l a b x y e * SpecSquare (l e) (l a) - SpecHalf5 r l b f x y e * SpecSquare (l e) (l b)

theorem half5_eq {c : Ctx K} {ps : Point K n} {r l : Fin n → V2 K} (h : Spin c ps r l) (a b x y e : Fin n) :
    computeNB ps '⟨' a [plusOf [b], plusOf [x, y]] e '⟩' = .ok (SpecHalf5 r l a b x y e) := by
  obtain ⟨h1, -, -, -⟩ := computeNB_ok c ps (h a).toHasSpinors (h e).toHasSpinors [plusOf [b], plusOf [x, y]]
  rw [h1 (by simp)]
  congr 1
  simp only [chain, plusOf, List.map_cons, List.map_nil, slotMat_cons, slotMat_nil, if_true, add_zero, mul_one, (h b).r2b, (h x).r2, (h y).r2]
  rw [bil_eq]
  simp only [Matrix.mul_apply, Fin.sum_univ_two, Matrix.add_apply, outer_apply, Matrix.cons_val_zero, Matrix.cons_val_one]
  unfold SpecHalf5 SpecAngle SpecSquare
  ring

theorem five_eq {c : Ctx K} {ps : Point K n} {r l : Fin n → V2 K} (h : Spin c ps r l) (a b x y e d : Fin n) :
    (⟨'⟨', a, [[b], [x, y], [e]], d, ']'⟩ : Str n).value ps = .ok (SpecHalf5 r l a b x y e * SpecSquare (l e) (l d)) := by
  obtain ⟨-, h1, -, -⟩ := computeNB_ok c ps (h a).toHasSpinors (h d).toHasSpinors [plusOf [b], plusOf [x, y], plusOf [e]]
  unfold Str.value
  rw [show ([[b], [x, y], [e]] : List (List (Fin n))).map plusOf = [plusOf [b], plusOf [x, y], plusOf [e]] from rfl, h1 (by simp)]
  congr 1
  simp only [chain, plusOf, List.map_cons, List.map_nil, slotMat_cons, slotMat_nil, if_true, add_zero, mul_one, (h b).r2b, (h x).r2, (h y).r2, (h e).r2b]
  rw [bil_eq]
  simp only [Matrix.mul_apply, Fin.sum_univ_two, Matrix.add_apply, outer_apply, Matrix.cons_val_zero, Matrix.cons_val_one]
  unfold SpecHalf5 SpecAngle SpecSquare
  ring

/-- How `[b|(x+y)|e⟩` changes when `e` gets another square spinor and `x`, `y` restore momentum conservation. -/
theorem half5_moved {c : Ctx K} {ps ps' : Point K n} {r l r' l' : Fin n → V2 K} (h : Spin c ps r l) (h' : Spin c ps' r' l')
    {D : M2 K} (hc : ∀ i j, ∑ k, (ps k).r2 i j = D i j) (hc' : Conserves ps') {a b x y e : Fin n} (hxy : x ≠ y) (hex : e ≠ x) (hey : e ≠ y)
    (ho : ∀ k, k ≠ e → k ≠ x → k ≠ y → ps' k = ps k) (re : r' e = r e) (ra : r' a = r a) (rb : r' b = r b) (lb : l' b = l b) :
    SpecHalf5 r' l' a b x y e = SpecHalf5 r l a b x y e - SpecAngle (r a) (r b) * bil (l b) D (r e) := by
  have key : ∀ i j, (ps' x).r2 i j + (ps' y).r2 i j + (ps' e).r2 i j = (ps x).r2 i j + (ps y).r2 i j + (ps e).r2 i j - D i j := by
    intro i j
    have h0 : ∑ k, ((ps' k).r2 i j - (ps k).r2 i j) = -D i j := by rw [Finset.sum_sub_distrib, hc, hc', zero_sub]
    have h1 : ∑ k, ((ps' k).r2 i j - (ps k).r2 i j) = ∑ k ∈ ({e, x, y} : Finset (Fin n)), ((ps' k).r2 i j - (ps k).r2 i j) := by
      symm
      apply Finset.sum_subset (Finset.subset_univ _)
      intro k _ hk
      simp only [Finset.mem_insert, Finset.mem_singleton, not_or] at hk
      rw [ho k hk.1 hk.2.1 hk.2.2, sub_self]
    rw [h1, Finset.sum_insert (by simp [hex, hey]), Finset.sum_insert (by simp [hxy]), Finset.sum_singleton] at h0
    linear_combination h0
  have k00 := key 0 0
  have k01 := key 0 1
  have k10 := key 1 0
  have k11 := key 1 1
  simp only [(h x).r2, (h y).r2, (h e).r2, (h' x).r2, (h' y).r2, (h' e).r2, outer_apply, Matrix.cons_val_zero, Matrix.cons_val_one, re] at k00 k01 k10 k11
  unfold SpecHalf5
  rw [ra, rb, lb, re, ← mul_sub, bil_eq]
  congr 1
  unfold SpecAngle SpecSquare
  linear_combination l b 0 * r e 0 * k00 + l b 0 * r e 1 * k01 + l b 1 * r e 0 * k10 + l b 1 * r e 1 * k11

theorem half5_kept {c : Ctx K} {ps ps' : Point K n} {r l r' l' : Fin n → V2 K} (h : Spin c ps r l) (h' : Spin c ps' r' l')
    (hc : Conserves ps) (hc' : Conserves ps') {a b x y e : Fin n} (hxy : x ≠ y) (hex : e ≠ x) (hey : e ≠ y)
    (ho : ∀ k, k ≠ e → k ≠ x → k ≠ y → ps' k = ps k) (re : r' e = r e) (ra : r' a = r a) (rb : r' b = r b) (lb : l' b = l b) :
    SpecHalf5 r' l' a b x y e = SpecHalf5 r l a b x y e := by
  rw [half5_moved h h' (D := 0) (fun i j => hc i j) hc' hxy hex hey ho re ra rb lb, bil_eq]
  simp

/-- The step that changes `|e]`. -/
theorem set5B_step [NeZero (2 : K)] {c : Ctx K} {ps : Point K n} {r l : Fin n → V2 K} (h : Spin c ps r l) {a b x y e f : Fin n}
    (X : K)
    (g : SpecHalf5 r l a b x y e * l a 0 - SpecHalf5 r l b f x y e * l b 0 ≠ 0) :
    ∃ ps1 s, (∀ fix, set5B c ps a b x y e f X fix = fixIf c fix false [x, y] (.ok ps1)) ∧ Spin c ps1 r (Function.update l e s) ∧
      (∀ k, k ≠ e → ps1 k = ps k) ∧
      SpecHalf5 r l a b x y e * SpecSquare s (l a) - SpecHalf5 r l b f x y e * SpecSquare s (l b) = X := by
  set p := SpecHalf5 r l a b x y e with hp
  set q := SpecHalf5 r l b f x y e with hq
  set v := (-X - (p * l a 1 - q * l b 1) * (-l e 0)) / (p * l a 0 - q * l b 0) with hv
  obtain ⟨o, e1, m1⟩ := setLu_massless (h e) ![v, -l e 0]
  obtain ⟨ps1, e2, s1, o1⟩ := store_l h e e1 m1
  refine ⟨ps1, _, fun fix => ?_, s1, o1, ?_⟩
  · unfold set5B
    rw [half5_eq h, half5_eq h, (h a).l_d, (h b).l_d, (h e).l_u]
    simp only [need_some, Matrix.cons_val_zero, Matrix.cons_val_one, ← hp, ← hq]
    rw [pyDiv_ok g]
    simp only [← hv, e2]
  · have : v * (p * l a 0 - q * l b 0) = -X - (p * l a 1 - q * l b 1) * (-l e 0) := div_mul_cancel₀ _ g
    simp only [SpecSquare, Matrix.cons_val_zero, Matrix.cons_val_one]
    linear_combination -this

/-- C91: from a point that conserves momentum, setting the difference to `X` ends at a point that conserves momentum,
is massless and consistent, and where the difference of the two five-brackets is `X`; only `e`, `x`, `y` change. -/
theorem C91_set [NeZero (2 : K)] {c : Ctx K} {ps : Point K n} {r l : Fin n → V2 K}
    (h : ∀ k, IsMassless c (ps k) (r k) (l k)) (hc : Conserves ps) {a b x y e f : Fin n} (hxy : x ≠ y)
    (he : e ∉ [a, b, x, y, f]) (hx : x ∉ [a, b, f]) (hy : y ∉ [a, b, f]) (X : K)
    (g : SpecHalf5 r l a b x y e * l a 0 - SpecHalf5 r l b f x y e * l b 0 ≠ 0) (hd : SpecSquare (l x) (l y) ≠ 0) :
    ∃ ps' u v, set5B c ps a b x y e f X true = .ok ps' ∧ GoodPoint c ps' ∧
      (⟨'⟨', a, [[b], [x, y], [e]], a, ']'⟩ : Str n).value ps' = .ok u ∧
      (⟨'⟨', b, [[f], [x, y], [e]], b, ']'⟩ : Str n).value ps' = .ok v ∧ u - v = X ∧
      ∀ k, k ≠ e → k ≠ x → k ≠ y → ps' k = ps k := by
  simp only [List.mem_cons, List.not_mem_nil, or_false, not_or] at he hx hy
  obtain ⟨ps1, s, e1, s1, o1, v1⟩ := set5B_step h X g
  obtain ⟨ps2, r2, e2, c2, s2, o2⟩ := fixAxis1_spin s1 hxy (by
    rwa [Function.update_of_ne (Ne.symm he.2.2.1), Function.update_of_ne (Ne.symm he.2.2.2.1)])
  have ra := (o2 a (Ne.symm hx.1) (Ne.symm hy.1)).2
  have rb := (o2 b (Ne.symm hx.2.1) (Ne.symm hy.2.1)).2
  have rf := (o2 f (Ne.symm hx.2.2) (Ne.symm hy.2.2)).2
  have re := (o2 e he.2.2.1 he.2.2.2.1).2
  have hk : ∀ k, k ≠ e → k ≠ x → k ≠ y → ps2 k = ps k := fun k k1 k2 k3 => (o2 k k2 k3).1.trans (o1 k k1)
  refine ⟨ps2, _, _, ?_, s2.good c2, five_eq s2 .., five_eq s2 .., ?_, hk⟩
  · rw [e1 true]
    simp only [fixIf, if_true, fixFirstTwo, Bool.false_eq_true, if_false]
    exact e2
  · rw [half5_kept h s2 hc c2 hxy he.2.2.1 he.2.2.2.1 hk re ra rb (Function.update_of_ne (Ne.symm he.2.1) _ _),
      half5_kept h s2 hc c2 hxy he.2.2.1 he.2.2.2.1 hk re rb rf (Function.update_of_ne (Ne.symm he.2.2.2.2) _ _),
      Function.update_self, Function.update_of_ne (Ne.symm he.1), Function.update_of_ne (Ne.symm he.2.1)]
    exact v1

/-- C91: without restoring momentum conservation the difference is `X` as well, from every massless point; only `e`
changes. -/
theorem C91_set_without_fix [NeZero (2 : K)] {c : Ctx K} {ps : Point K n} {r l : Fin n → V2 K}
    (h : ∀ k, IsMassless c (ps k) (r k) (l k)) {a b x y e f : Fin n} (he : e ∉ [a, b, x, y, f]) (X : K)
    (g : SpecHalf5 r l a b x y e * l a 0 - SpecHalf5 r l b f x y e * l b 0 ≠ 0) :
    ∃ ps' u v, set5B c ps a b x y e f X false = .ok ps' ∧
      (⟨'⟨', a, [[b], [x, y], [e]], a, ']'⟩ : Str n).value ps' = .ok u ∧
      (⟨'⟨', b, [[f], [x, y], [e]], b, ']'⟩ : Str n).value ps' = .ok v ∧ u - v = X ∧ ∀ k, k ≠ e → ps' k = ps k := by
  simp only [List.mem_cons, List.not_mem_nil, or_false, not_or] at he
  obtain ⟨ps1, s, e1, s1, o1, v1⟩ := set5B_step h X g
  refine ⟨ps1, _, _, ?_, five_eq s1 .., five_eq s1 .., ?_, o1⟩
  · rw [e1 false]; simp [fixIf]
  · have up : ∀ k, k ≠ e → Function.update l e s k = l k := fun k hk => Function.update_of_ne hk _ _
    unfold SpecHalf5 at v1 ⊢
    rw [Function.update_self, up a (Ne.symm he.1), up b (Ne.symm he.2.1), up x (Ne.symm he.2.2.1), up y (Ne.symm he.2.2.2.1), up f (Ne.symm he.2.2.2.2)]
    exact v1

/-- C91: the momentum that restores conservation is that of `x` and `y`, which occur in the difference. From a point
that does not conserve momentum the difference ends elsewhere: the strings get the additional slots of the
missing momentum `D`. -/
theorem C91_not_conserving_partial [NeZero (2 : K)] {c : Ctx K} {ps : Point K n} {r l : Fin n → V2 K}
    (h : ∀ k, IsMassless c (ps k) (r k) (l k)) {a b x y e f : Fin n} (hxy : x ≠ y)
    (he : e ∉ [a, b, x, y, f]) (hx : x ∉ [a, b, f]) (hy : y ∉ [a, b, f]) (X : K)
    (g : SpecHalf5 r l a b x y e * l a 0 - SpecHalf5 r l b f x y e * l b 0 ≠ 0) (hd : SpecSquare (l x) (l y) ≠ 0)
    (D : M2 K) (hD : ∀ i j, ∑ k, (ps k).r2 i j = D i j) :
    ∃ ps' u v s, set5B c ps a b x y e f X true = .ok ps' ∧
      (⟨'⟨', a, [[b], [x, y], [e]], a, ']'⟩ : Str n).value ps' = .ok u ∧
      (⟨'⟨', b, [[f], [x, y], [e]], b, ']'⟩ : Str n).value ps' = .ok v ∧ (ps' e).l_d = some s ∧
      u - v = X - (SpecAngle (r a) (r b) * bil (l b) D (r e) * SpecSquare s (l a) -
        SpecAngle (r b) (r f) * bil (l f) D (r e) * SpecSquare s (l b)) := by
  simp only [List.mem_cons, List.not_mem_nil, or_false, not_or] at he hx hy
  obtain ⟨ps1, s, e1, s1, o1, v1⟩ := set5B_step h X g
  obtain ⟨ps2, r2, e2, c2, s2, o2⟩ := fixAxis1_spin s1 hxy (by
    rwa [Function.update_of_ne (Ne.symm he.2.2.1), Function.update_of_ne (Ne.symm he.2.2.2.1)])
  have ra := (o2 a (Ne.symm hx.1) (Ne.symm hy.1)).2
  have rb := (o2 b (Ne.symm hx.2.1) (Ne.symm hy.2.1)).2
  have rf := (o2 f (Ne.symm hx.2.2) (Ne.symm hy.2.2)).2
  have re := (o2 e he.2.2.1 he.2.2.2.1).2
  have hk : ∀ k, k ≠ e → k ≠ x → k ≠ y → ps2 k = ps k := fun k k1 k2 k3 => (o2 k k2 k3).1.trans (o1 k k1)
  refine ⟨ps2, _, _, s, ?_, five_eq s2 .., five_eq s2 .., ?_, ?_⟩
  · rw [e1 true]
    simp only [fixIf, if_true, fixFirstTwo, Bool.false_eq_true, if_false]
    exact e2
  · rw [(s2 e).l_d, Function.update_self]
  · rw [half5_moved h s2 hD c2 hxy he.2.2.1 he.2.2.2.1 hk re ra rb (Function.update_of_ne (Ne.symm he.2.1) _ _),
      half5_moved h s2 hD c2 hxy he.2.2.1 he.2.2.2.1 hk re rb rf (Function.update_of_ne (Ne.symm he.2.2.2.2) _ _),
      Function.update_self, Function.update_of_ne (Ne.symm he.1), Function.update_of_ne (Ne.symm he.2.1), ← v1]
    ring

end Lips

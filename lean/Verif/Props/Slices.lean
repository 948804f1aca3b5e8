import Verif.Props.Components
import Mathlib.Algebra.Polynomial.Eval.Coeff
import Mathlib.Algebra.Polynomial.Bivariate
import Mathlib.Algebra.Polynomial.Roots

/-!
C77 and C78: shifting all spinors of a point along fixed directions.
-/

namespace Lips

open Matrix Polynomial

set_option linter.unusedSectionVars false

variable {K : Type*} [Field K] {n : ℕ}

theorem shiftLoop_ok (c : Ctx K) (dr dl : Fin n → V2 K) (r l : Fin n → V2 K) (ks : List (Fin n)) (hk : ks.Nodup)
    (ps : Point K n) (hp : ∀ k ∈ ks, ps k = (ofSpinors c (r k) (l k)).st) :
    shiftLoop c dr dl ks ps = .ok (assign (fun k => (ofSpinors c (r k + dr k) (l k + dl k)).st) ks ps) := by
  induction ks generalizing ps with
  | nil => rfl
  | cons k ks ih =>
    rw [List.nodup_cons] at hk
    simp only [shiftLoop, hp k List.mem_cons_self, (ofSpinors_fields c _ _).1, setRd_ofSpinors, store_ok,
      Function.update_self, (ofSpinors_fields c _ _).2.1, setLd_ofSpinors, Function.update_idem]
    rw [ih hk.2, ← assign_cons]
    intro k' hk'
    rw [Function.update_of_ne (by rintro rfl; exact hk.1 hk')]
    exact hp k' (List.mem_cons_of_mem _ hk')

/-- Momentum conservation of a massless point in terms of its spinors. -/
theorem Spin.conserves_iff {c : Ctx K} {ps : Point K n} {r l : Fin n → V2 K} (h : Spin c ps r l) :
    Conserves ps ↔ ∀ a b, ∑ k, r k a * l k b = 0 := by
  have e : ∀ i j k, (ps k).r2 i j = ![l k 1, -l k 0] i * ![r k 1, -r k 0] j := fun i j k => by rw [(h k).r2, outer_apply]
  constructor
  · intro hc
    have h00 := hc 0 0
    have h01 := hc 0 1
    have h10 := hc 1 0
    have h11 := hc 1 1
    simp only [e] at h00 h01 h10 h11
    simp at h00 h01 h10 h11
    intro a b
    fin_cases a <;> fin_cases b
    · simpa [mul_comm] using h11
    · simpa [mul_comm] using h01
    · simpa [mul_comm] using h10
    · simpa [mul_comm] using h00
  · intro hs i j
    simp only [e]
    fin_cases i <;> fin_cases j
    · simpa [mul_comm] using hs 1 1
    · simpa [mul_comm] using hs 0 1
    · simpa [mul_comm] using hs 1 0
    · simpa [mul_comm] using hs 0 0

theorem Spin.angle {c : Ctx K} {ps : Point K n} {r l : Fin n → V2 K} (h : Spin c ps r l) (i j : Fin n) :
    Lips.angle (ps i) (ps j) = .ok (SpecAngle (r i) (r j)) := by
  simp [Lips.angle, (h i).r_u, (h j).r_d, dot2, SpecAngle]; ring

theorem Spin.square {c : Ctx K} {ps : Point K n} {r l : Fin n → V2 K} (h : Spin c ps r l) (i j : Fin n) :
    Lips.square (ps i) (ps j) = .ok (SpecSquare (l i) (l j)) := by
  simp [Lips.square, (h i).l_d, (h j).l_u, dot2, SpecSquare]; ring

/-! ### One parameter -/

/-- Entry `a`, `b` of the total momentum of the shifted point as a polynomial in `t`. -/
noncomputable def momPoly (r l : Fin n → V2 K) (η ηt : V2 K) (x y : Fin n → K) (a b : Fin 2) : K[X] :=
  ∑ k, (C (r k a) + X * C (x k * η a)) * (C (l k b) + X * C (y k * ηt b))

theorem univariateShift_ok [NeZero (2 : K)] (c : Ctx K) (ps : Point K n) (r l : Fin n → V2 K) (h : Spin c ps r l)
    (η ηt : V2 K) (x y : Fin n → K) (t : K) : ∃ ps', univariateShift c ps η ηt x y t = .ok ps' ∧
      Spin c ps' (fun k => r k + (t * x k) • η) (fun k => l k + (t * y k) • ηt) := by
  refine ⟨_, by rw [univariateShift, shiftLoop_ok c _ _ r l _ (List.nodup_finRange n) ps fun k _ => (h k).eq_ofSpinors,
    assign_finRange], fun k => ofSpinors_isMassless c _ _⟩

/-- C77: if all the coefficients in `t` of the total momentum of the shifted point vanish, then for every
value of `t` the shift returns, conserves momentum, leaves every particle massless and consistent, and every
bracket is a polynomial of degree at most one in `t`. -/
theorem C77_univariate_slice [NeZero (2 : K)] (c : Ctx K) (ps : Point K n) (r l : Fin n → V2 K) (h : Spin c ps r l)
    (η ηt : V2 K) (x y : Fin n → K) (hc : ∀ a b m, (momPoly r l η ηt x y a b).coeff m = 0) :
    ∃ sh : K → Point K n, (∀ t, univariateShift c ps η ηt x y t = .ok (sh t)) ∧ (∀ t, Conserves (sh t)) ∧
      (∀ t k, Consistent c (sh t k) ∧ Massless (sh t k)) ∧
      (∀ i j, ∃ α β : K, ∀ t, angle (sh t i) (sh t j) = .ok (α + t * β)) ∧
      ∀ i j, ∃ α β : K, ∀ t, square (sh t i) (sh t j) = .ok (α + t * β) := by
  choose sh e hs using univariateShift_ok c ps r l h η ηt x y
  refine ⟨sh, e, ?_, fun t k => ⟨(hs t k).cons, (hs t k).massless⟩, ?_, ?_⟩
  · intro t
    rw [(hs t).conserves_iff]
    intro a b
    have h0 : momPoly r l η ηt x y a b = 0 := Polynomial.ext fun m => by rw [hc a b m, coeff_zero]
    have h1 := congrArg (eval t) h0
    rw [momPoly, eval_finsetSum, eval_zero] at h1
    rw [← h1]
    refine Finset.sum_congr rfl fun k _ => ?_
    simp only [Pi.add_apply, Pi.smul_apply, smul_eq_mul, eval_mul, eval_add, eval_C, eval_X]
    ring
  · intro i j
    refine ⟨SpecAngle (r i) (r j), x j * SpecAngle (r i) η + x i * SpecAngle η (r j), fun t => ?_⟩
    rw [(hs t).angle]
    simp only [SpecAngle, Pi.add_apply, Pi.smul_apply, smul_eq_mul]
    congr 1; ring
  · intro i j
    refine ⟨SpecSquare (l i) (l j), y j * SpecSquare (l i) ηt + y i * SpecSquare ηt (l j), fun t => ?_⟩
    rw [(hs t).square]
    simp only [SpecSquare, Pi.add_apply, Pi.smul_apply, smul_eq_mul]
    congr 1; ring

/-- C77, converse: over an infinite field no condition is imposed in vain. If momentum is conserved for every
`t`, all the coefficients vanish. -/
theorem C77_conditions_necessary [NeZero (2 : K)] [Infinite K] (c : Ctx K) (ps : Point K n) (r l : Fin n → V2 K)
    (h : Spin c ps r l) (η ηt : V2 K) (x y : Fin n → K)
    (hc : ∀ t, ∃ ps', univariateShift c ps η ηt x y t = .ok ps' ∧ Conserves ps') (a b : Fin 2) (m : ℕ) :
    (momPoly r l η ηt x y a b).coeff m = 0 := by
  have h0 : momPoly r l η ηt x y a b = 0 := by
    refine Polynomial.funext fun t => ?_
    obtain ⟨ps', e, hcons⟩ := hc t
    obtain ⟨ps'', e', hs⟩ := univariateShift_ok c ps r l h η ηt x y t
    rw [e] at e'; cases e'
    have := hs.conserves_iff.mp hcons a b
    rw [momPoly, eval_finsetSum, eval_zero, ← this]
    refine Finset.sum_congr rfl fun k _ => ?_
    simp only [Pi.add_apply, Pi.smul_apply, smul_eq_mul, eval_mul, eval_add, eval_C, eval_X]
    ring
  rw [h0, coeff_zero]

/-! ### Two parameters -/

/-- Entry `a`, `b` of the total momentum of the shifted point as a polynomial in `t2` over polynomials in `t1`.
The left spinors are shifted as in the code. -/
noncomputable def momPoly₂ (r l : Fin n → V2 K) (η₁ ηt₁ η₂ ηt₂ : V2 K) (x₁ y₁ x₂ : Fin n → K) (a b : Fin 2) : K[X][X] :=
  ∑ k, (C (C (r k a)) + C (X * C (x₁ k * η₁ a)) + X * C (C (x₂ k * η₂ a))) *
    (C (C (l k b)) + C (X * C (y₁ k * ηt₁ b)) + X * C (C (x₂ k * ηt₂ b)))

theorem bivariateShift_ok [NeZero (2 : K)] (c : Ctx K) (ps : Point K n) (r l : Fin n → V2 K) (h : Spin c ps r l)
    (η₁ ηt₁ η₂ ηt₂ : V2 K) (x₁ y₁ x₂ y₂ : Fin n → K) (t₁ t₂ : K) :
    ∃ ps', bivariateShift c ps η₁ ηt₁ η₂ ηt₂ x₁ y₁ x₂ y₂ t₁ t₂ = .ok ps' ∧
      Spin c ps' (fun k => r k + ((t₁ * x₁ k) • η₁ + (t₂ * x₂ k) • η₂))
        (fun k => l k + ((t₁ * y₁ k) • ηt₁ + (t₂ * x₂ k) • ηt₂)) := by
  refine ⟨_, by rw [bivariateShift, shiftLoop_ok c _ _ r l _ (List.nodup_finRange n) ps fun k _ => (h k).eq_ofSpinors,
    assign_finRange], fun k => ofSpinors_isMassless c _ _⟩

/-- C78 (finding): the parameters `y2` never enter, in no point and for no values: lips/particles_slices.py:78 has
`xs2` in their place. -/
theorem C78_y2_never_enters (c : Ctx K) (ps : Point K n) (η₁ ηt₁ η₂ ηt₂ : V2 K) (x₁ y₁ x₂ y₂ y₂' : Fin n → K) (t₁ t₂ : K) :
    bivariateShift c ps η₁ ηt₁ η₂ ηt₂ x₁ y₁ x₂ y₂ t₁ t₂ = bivariateShift c ps η₁ ηt₁ η₂ ηt₂ x₁ y₁ x₂ y₂' t₁ t₂ := rfl

/-- C78: a parameter enters the shifted point at `t₁ = t₂ = 1` if changing it changes the spinors. The other
three families of parameters do enter, each of their members: the shifted points differ as soon as the
parameters do, if the directions are not zero. -/
theorem C78_others_enter_partial [NeZero (2 : K)] (c : Ctx K) (ps : Point K n) (r l : Fin n → V2 K) (h : Spin c ps r l)
    (η₁ ηt₁ η₂ ηt₂ : V2 K) (hη₁ : η₁ ≠ 0) (hηt₁ : ηt₁ ≠ 0) (hη₂ : η₂ ≠ 0) (x₁ y₁ x₂ y₂ : Fin n → K) :
    (∀ x₁', bivariateShift c ps η₁ ηt₁ η₂ ηt₂ x₁ y₁ x₂ y₂ 1 1 = bivariateShift c ps η₁ ηt₁ η₂ ηt₂ x₁' y₁ x₂ y₂ 1 1 → x₁ = x₁') ∧
    (∀ y₁', bivariateShift c ps η₁ ηt₁ η₂ ηt₂ x₁ y₁ x₂ y₂ 1 1 = bivariateShift c ps η₁ ηt₁ η₂ ηt₂ x₁ y₁' x₂ y₂ 1 1 → y₁ = y₁') ∧
    ∀ x₂', bivariateShift c ps η₁ ηt₁ η₂ ηt₂ x₁ y₁ x₂ y₂ 1 1 = bivariateShift c ps η₁ ηt₁ η₂ ηt₂ x₁ y₁ x₂' y₂ 1 1 → x₂ = x₂' := by
  obtain ⟨p, e, hs⟩ := bivariateShift_ok c ps r l h η₁ ηt₁ η₂ ηt₂ x₁ y₁ x₂ y₂ 1 1
  have canc : ∀ {v : V2 K} {a b : K}, v ≠ 0 → a • v = b • v → a = b := fun hv hab => smul_left_injective K hv hab
  refine ⟨?_, ?_, ?_⟩
  · intro x' hx
    obtain ⟨p', e', hs'⟩ := bivariateShift_ok c ps r l h η₁ ηt₁ η₂ ηt₂ x' y₁ x₂ y₂ 1 1
    rw [e, e'] at hx; cases hx
    funext k
    have := Option.some.inj ((hs k).r_d.symm.trans (hs' k).r_d)
    simp only [one_mul, add_right_inj, add_left_inj] at this
    exact canc hη₁ this
  · intro x' hx
    obtain ⟨p', e', hs'⟩ := bivariateShift_ok c ps r l h η₁ ηt₁ η₂ ηt₂ x₁ x' x₂ y₂ 1 1
    rw [e, e'] at hx; cases hx
    funext k
    have := Option.some.inj ((hs k).l_d.symm.trans (hs' k).l_d)
    simp only [one_mul, add_right_inj, add_left_inj] at this
    exact canc hηt₁ this
  · intro x' hx
    obtain ⟨p', e', hs'⟩ := bivariateShift_ok c ps r l h η₁ ηt₁ η₂ ηt₂ x₁ y₁ x' y₂ 1 1
    rw [e, e'] at hx; cases hx
    funext k
    have := Option.some.inj ((hs k).r_d.symm.trans (hs' k).r_d)
    simp only [one_mul, add_right_inj] at this
    exact canc hη₂ this

/-- C78: in spite of the wrong parameter the point is good for all values of `t1` and `t2`, once the
coefficients of the total momentum that the code computes vanish. Brackets are not linear: the angle bracket has
the mixed term `t1 t2 (x1_i x2_j - x2_i x1_j) ⟨η1|η2⟩`. -/
theorem C78_bivariate_slice [NeZero (2 : K)] (c : Ctx K) (ps : Point K n) (r l : Fin n → V2 K) (h : Spin c ps r l)
    (η₁ ηt₁ η₂ ηt₂ : V2 K) (x₁ y₁ x₂ y₂ : Fin n → K)
    (hc : ∀ a b i j, ((momPoly₂ r l η₁ ηt₁ η₂ ηt₂ x₁ y₁ x₂ a b).coeff i).coeff j = 0) (t₁ t₂ : K) :
    ∃ ps', bivariateShift c ps η₁ ηt₁ η₂ ηt₂ x₁ y₁ x₂ y₂ t₁ t₂ = .ok ps' ∧ Conserves ps' ∧
      (∀ k, Consistent c (ps' k) ∧ Massless (ps' k)) ∧
      ∀ i j, angle (ps' i) (ps' j) = .ok (SpecAngle (r i) (r j)
        + t₁ * (x₁ j * SpecAngle (r i) η₁ + x₁ i * SpecAngle η₁ (r j))
        + t₂ * (x₂ j * SpecAngle (r i) η₂ + x₂ i * SpecAngle η₂ (r j))
        + t₁ * t₂ * ((x₁ i * x₂ j - x₂ i * x₁ j) * SpecAngle η₁ η₂)) := by
  obtain ⟨ps', e, hs⟩ := bivariateShift_ok c ps r l h η₁ ηt₁ η₂ ηt₂ x₁ y₁ x₂ y₂ t₁ t₂
  refine ⟨ps', e, ?_, fun k => ⟨(hs k).cons, (hs k).massless⟩, ?_⟩
  · rw [hs.conserves_iff]
    intro a b
    have h0 : momPoly₂ r l η₁ ηt₁ η₂ ηt₂ x₁ y₁ x₂ a b = 0 :=
      Polynomial.ext fun i => Polynomial.ext fun j => by rw [hc a b i j, coeff_zero, coeff_zero]
    have h1 := congrArg (fun p => eval t₁ (eval (C t₂) p)) h0
    simp only [momPoly₂, eval_finsetSum, eval_zero] at h1
    rw [← h1]
    refine Finset.sum_congr rfl fun k _ => ?_
    simp only [Pi.add_apply, Pi.smul_apply, smul_eq_mul, eval_mul, eval_add, eval_C, eval_X]
    ring
  · intro i j
    rw [hs.angle]
    simp only [SpecAngle, Pi.add_apply, Pi.smul_apply, smul_eq_mul]
    congr 1; ring

/-! ### Concrete cases -/

theorem momPoly_eq (r l : Fin n → V2 K) (η ηt : V2 K) (x y : Fin n → K) (a b : Fin 2) :
    momPoly r l η ηt x y a b = C (∑ k, r k a * l k b) + X * C (η a * ∑ k, x k * l k b + ηt b * ∑ k, y k * r k a)
      + X ^ 2 * C (η a * ηt b * ∑ k, x k * y k) := by
  simp only [momPoly, map_sum, map_add, map_mul, Finset.mul_sum, ← Finset.sum_add_distrib]
  refine Finset.sum_congr rfl fun k _ => ?_
  ring

theorem momPoly₂_eq (r l : Fin n → V2 K) (η₁ ηt₁ η₂ ηt₂ : V2 K) (x₁ y₁ x₂ : Fin n → K) (a b : Fin 2) :
    momPoly₂ r l η₁ ηt₁ η₂ ηt₂ x₁ y₁ x₂ a b = C (C (∑ k, r k a * l k b))
      + C X * C (C (η₁ a * ∑ k, x₁ k * l k b + ηt₁ b * ∑ k, y₁ k * r k a))
      + X * C (C (η₂ a * ∑ k, x₂ k * l k b + ηt₂ b * ∑ k, x₂ k * r k a))
      + C X ^ 2 * C (C (η₁ a * ηt₁ b * ∑ k, x₁ k * y₁ k)) + X ^ 2 * C (C (η₂ a * ηt₂ b * ∑ k, x₂ k * x₂ k))
      + C X * X * C (C (η₁ a * ηt₂ b * ∑ k, x₁ k * x₂ k + η₂ a * ηt₁ b * ∑ k, x₂ k * y₁ k)) := by
  simp only [momPoly₂, map_sum, map_add, map_mul, Finset.mul_sum, ← Finset.sum_add_distrib]
  refine Finset.sum_congr rfl fun k _ => ?_
  ring

/-- C77: five particles shifted along arbitrary directions, no parameter being zero. -/
example (η ηt : V2 F13) (t : F13) : ∃ ps', univariateShift (f13 .symmetric) pt5 η ηt ![1, 1, 1, 8, 4] ![1, 1, 6, 10, 4] t = .ok ps' ∧
    Conserves ps' := by
  obtain ⟨sh, h1, h2, -⟩ := C77_univariate_slice (f13 .symmetric) pt5 (fun k => (spin5 k).1) (fun k => (spin5 k).2) pt5_massless η ηt
    ![1, 1, 1, 8, 4] ![1, 1, 6, 10, 4] (by
      intro a b m
      have h0 : ∀ a b : Fin 2, ∑ k, (spin5 k).1 a * (spin5 k).2 b = 0 := by decide
      have h1 : ∀ b : Fin 2, ∑ k, (![1, 1, 1, 8, 4] : Fin 5 → F13) k * (spin5 k).2 b = 0 := by decide
      have h2 : ∀ a : Fin 2, ∑ k, (![1, 1, 6, 10, 4] : Fin 5 → F13) k * (spin5 k).1 a = 0 := by decide
      have h3 : ∑ k, (![1, 1, 1, 8, 4] : Fin 5 → F13) k * (![1, 1, 6, 10, 4] : Fin 5 → F13) k = 0 := by decide
      rw [momPoly_eq, h0, h1, h2, h3]; simp)
  exact ⟨sh t, h1 t, h2 t⟩

/-- C78: six particles, no parameter being zero. -/
example (η₁ ηt₁ η₂ ηt₂ : V2 F13) (y₂ : Fin 6 → F13) (t₁ t₂ : F13) : ∃ ps', bivariateShift (f13 .symmetric) pt6 η₁ ηt₁ η₂ ηt₂
    ![2, 3, 3, 1, 1, 1] ![10, 6, 8, 1, 1, 1] ![12, 9, 4, 12, 1, 2] y₂ t₁ t₂ = .ok ps' ∧ Conserves ps' := by
  obtain ⟨ps', h1, h2, -⟩ := C78_bivariate_slice (f13 .symmetric) pt6 (fun k => (spin6 k).1) (fun k => (spin6 k).2) pt6_massless
    η₁ ηt₁ η₂ ηt₂ ![2, 3, 3, 1, 1, 1] ![10, 6, 8, 1, 1, 1] ![12, 9, 4, 12, 1, 2] y₂ (by
      intro a b i j
      have h0 : ∀ a b : Fin 2, ∑ k, (spin6 k).1 a * (spin6 k).2 b = 0 := by decide
      have h1 : ∀ b : Fin 2, ∑ k, (![2, 3, 3, 1, 1, 1] : Fin 6 → F13) k * (spin6 k).2 b = 0 := by decide
      have h2 : ∀ a : Fin 2, ∑ k, (![10, 6, 8, 1, 1, 1] : Fin 6 → F13) k * (spin6 k).1 a = 0 := by decide
      have h3 : ∑ k, (![2, 3, 3, 1, 1, 1] : Fin 6 → F13) k * (![10, 6, 8, 1, 1, 1] : Fin 6 → F13) k = 0 := by decide
      have h4 : ∀ b : Fin 2, ∑ k, (![12, 9, 4, 12, 1, 2] : Fin 6 → F13) k * (spin6 k).2 b = 0 := by decide
      have h5 : ∀ b : Fin 2, ∑ k, (![12, 9, 4, 12, 1, 2] : Fin 6 → F13) k * (spin6 k).1 b = 0 := by decide
      have h6 : ∑ k, (![12, 9, 4, 12, 1, 2] : Fin 6 → F13) k * (![12, 9, 4, 12, 1, 2] : Fin 6 → F13) k = 0 := by decide
      have h7 : ∑ k, (![2, 3, 3, 1, 1, 1] : Fin 6 → F13) k * (![12, 9, 4, 12, 1, 2] : Fin 6 → F13) k = 0 := by decide
      have h8 : ∑ k, (![12, 9, 4, 12, 1, 2] : Fin 6 → F13) k * (![10, 6, 8, 1, 1, 1] : Fin 6 → F13) k = 0 := by decide
      rw [momPoly₂_eq, h0, h1, h2, h3, h4, h5, h6, h7, h8]; simp) t₁ t₂
  exact ⟨ps', h1, h2⟩

end Lips

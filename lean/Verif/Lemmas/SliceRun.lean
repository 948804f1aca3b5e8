import Verif.Model.SliceRun
import Verif.Props.Ideal
import Mathlib.Algebra.MvPolynomial.Equiv
import Mathlib.RingTheory.AlgebraicIndependent.Basic

/-! Helper lemmas on whole slices: reading expressions as polynomials in `t` and the parameters. -/

namespace Lips

open Matrix MvPolynomial

theorem mem_coeffList {R : Type*} [Semiring R] {Q : Polynomial R} {P : R} : P ∈ coeffList Q → ∃ i, P = Q.coeff i := by
  intro h
  obtain ⟨i, -, rfl⟩ := List.mem_map.mp h
  exact ⟨i, rfl⟩

theorem coeff_mem_coeffList {R : Type*} [Semiring R] (Q : Polynomial R) (i : ℕ) : Q.coeff i ∈ coeffList Q ∨ Q.coeff i = 0 := by
  by_cases h : i ≤ Q.natDegree
  · exact .inl (List.mem_map.mpr ⟨i, by simp; omega, rfl⟩)
  · exact .inr (Polynomial.coeff_eq_zero_of_natDegree_lt (by omega))

/-- All coefficients vanish under a map exactly if the image is zero. -/
theorem coeffList_map_zero {R S : Type*} [Semiring R] [Semiring S] (f : R →+* S) (Q : Polynomial R) :
    (∀ P ∈ coeffList Q, f P = 0) ↔ Q.map f = 0 := by
  constructor
  · intro h
    ext i
    rw [Polynomial.coeff_map, Polynomial.coeff_zero]
    rcases coeff_mem_coeffList Q i with hi | hi
    · exact h _ hi
    · rw [hi, map_zero]
  · intro h P hP
    obtain ⟨i, rfl⟩ := mem_coeffList hP
    rw [← Polynomial.coeff_map, h, Polynomial.coeff_zero]

theorem coeffList₂_map_zero {R S : Type*} [Semiring R] [Semiring S] (f : R →+* S) (Q : Polynomial (Polynomial R)) :
    (∀ P ∈ coeffList₂ Q, f P = 0) ↔ Q.map (Polynomial.mapRingHom f) = 0 := by
  rw [← coeffList_map_zero]
  simp only [coeffList₂, List.mem_flatMap]
  constructor
  · intro h Q' hQ'
    exact (coeffList_map_zero f Q').mp fun P hP => h P ⟨Q', hQ', hP⟩
  · rintro h P ⟨Q', hQ', hP⟩
    exact (coeffList_map_zero f Q').mpr (h Q' hQ') P hP

section
variable {K F : Type*} [Field K] [Field F] [Algebra K F] {n : ℕ} {σ : Type*}

theorem readUni_eq (t : F) (x : σ → F) (Q : Polynomial (MvPolynomial σ K)) :
    readUni t x Q = aeval (fun o : Option σ => o.elim t x) ((optionEquivLeft K σ).symm Q) := by
  have : (readUni (K := K) t x).comp (optionEquivLeft K σ).toRingHom = (aeval (R := K) fun o : Option σ => o.elim t x).toRingHom := by
    refine MvPolynomial.ringHom_ext (fun a => ?_) fun o => ?_
    · simp [readUni]
    · cases o <;> simp [readUni]
  have h := congrArg (fun g => g ((optionEquivLeft K σ).symm Q)) this
  simpa using h

theorem readUni_injective {t : F} {x : σ → F} (h : AlgebraicIndependent K fun o : Option σ => o.elim t x) :
    Function.Injective (readUni (K := K) t x) := by
  intro P Q e
  rw [readUni_eq, readUni_eq] at e
  exact (optionEquivLeft K σ).symm.injective (h e)

/-- With values for the parameters. -/
theorem readUni_values (t : F) (v : σ → K) (Q : Polynomial (MvPolynomial σ K)) :
    readUni t (fun i => algebraMap K F (v i)) Q = Polynomial.aeval t (Q.map (eval v)) := by
  have e : (aeval (R := K) fun i => algebraMap K F (v i)).toRingHom = (algebraMap K F).comp (eval v) := by
    refine MvPolynomial.ringHom_ext (fun a => ?_) fun o => ?_ <;> simp
  rw [readUni, e, Polynomial.coe_eval₂RingHom, Polynomial.aeval_def, Polynomial.eval₂_map]

theorem transcendental_of {t : F} {x : σ → F} (h : AlgebraicIndependent K fun o : Option σ => o.elim t x) :
    Function.Injective (Polynomial.aeval (R := K) t) := by
  have e : ∀ P : Polynomial K, Polynomial.aeval t P = readUni t x (P.map MvPolynomial.C) := fun P => by
    rw [readUni, Polynomial.coe_eval₂RingHom, Polynomial.eval₂_map, Polynomial.aeval_def]
    congr 1
    refine RingHom.ext fun a => ?_
    simp
  intro P Q hPQ
  rw [e, e] at hPQ
  exact Polynomial.map_injective _ (MvPolynomial.C_injective σ K) (readUni_injective h hPQ)

theorem readUni_zero {t : F} {x : σ → F} (h : AlgebraicIndependent K fun o : Option σ => o.elim t x) (v : σ → K)
    (Q : Polynomial (MvPolynomial σ K)) :
    readUni t (fun i => algebraMap K F (v i)) Q = 0 ↔ ∀ P ∈ coeffList Q, eval v P = 0 := by
  rw [coeffList_map_zero, readUni_values]
  exact map_eq_zero_iff _ (transcendental_of h)

/-- If it vanishes as an expression in `t`, then for every value of `t`. -/
theorem readUni_all {t : F} {x : σ → F} (h : AlgebraicIndependent K fun o : Option σ => o.elim t x) {v : σ → K}
    {Q : Polynomial (MvPolynomial σ K)} (hq : readUni t (fun i => algebraMap K F (v i)) Q = 0) (τ : K) :
    readUni (F := K) τ v Q = 0 := by
  rw [readUni_values] at hq
  have e := readUni_values (F := K) τ v Q
  simp only [Algebra.algebraMap_self, RingHom.id_apply] at e
  rw [e, (map_eq_zero_iff _ (transcendental_of h)).mp hq, map_zero]

/-! ### Two variables -/

theorem readBi_eq (t₁ t₂ : F) (x : σ → F) (Q : Polynomial (MvPolynomial (Option σ) K)) :
    readBi t₁ t₂ x (Q.map (optionEquivLeft K σ).toRingHom) = readUni t₁ (fun o : Option σ => o.elim t₂ x) Q := by
  rw [readBi, Polynomial.coe_eval₂RingHom, Polynomial.eval₂_map]
  change _ = Polynomial.eval₂ _ _ _
  congr 1
  refine RingHom.ext fun P => ?_
  rw [RingHom.comp_apply, readUni_eq]
  simp

theorem readBi_injective {t₁ t₂ : F} {x : σ → F}
    (h : AlgebraicIndependent K fun o : Option (Option σ) => o.elim t₁ fun o => o.elim t₂ x) :
    Function.Injective (readBi (K := K) t₁ t₂ x) := by
  have s : Function.Surjective (Polynomial.map (optionEquivLeft K σ).toRingHom) :=
    Polynomial.map_surjective _ (optionEquivLeft K σ).surjective
  intro P Q e
  obtain ⟨P, rfl⟩ := s P
  obtain ⟨Q, rfl⟩ := s Q
  rw [readBi_eq, readBi_eq] at e
  rw [readUni_injective h e]

/-- With values for the parameters. -/
theorem readBi_values (t₁ t₂ : F) (v : σ → K) (Q : Polynomial (Polynomial (MvPolynomial σ K))) :
    readBi t₁ t₂ (fun i => algebraMap K F (v i)) Q =
      Polynomial.eval₂ (Polynomial.aeval (R := K) t₂).toRingHom t₁ (Q.map (Polynomial.mapRingHom (eval v))) := by
  rw [readBi, Polynomial.coe_eval₂RingHom, Polynomial.eval₂_map]
  congr 1
  refine RingHom.ext fun P => ?_
  rw [readUni_values]
  rfl

theorem eval₂_injective {t₁ t₂ : F} {x : σ → F}
    (h : AlgebraicIndependent K fun o : Option (Option σ) => o.elim t₁ fun o => o.elim t₂ x) {Q : Polynomial (Polynomial K)}
    (hq : Polynomial.eval₂ (Polynomial.aeval (R := K) t₂).toRingHom t₁ Q = 0) : Q = 0 := by
  have e : Polynomial.eval₂ (Polynomial.aeval (R := K) t₂).toRingHom t₁ Q =
      readBi t₁ t₂ x (Q.map (Polynomial.mapRingHom MvPolynomial.C)) := by
    rw [readBi, Polynomial.coe_eval₂RingHom, Polynomial.eval₂_map]
    congr 1
    refine Polynomial.ringHom_ext (fun a => ?_) ?_ <;> simp [readUni]
  rw [e] at hq
  have := (map_eq_zero_iff _ (readBi_injective h)).mp hq
  refine (Polynomial.map_eq_zero_iff ?_).mp this
  exact Polynomial.map_injective _ (MvPolynomial.C_injective σ K)

theorem readBi_zero {t₁ t₂ : F} {x : σ → F}
    (h : AlgebraicIndependent K fun o : Option (Option σ) => o.elim t₁ fun o => o.elim t₂ x) (v : σ → K)
    (Q : Polynomial (Polynomial (MvPolynomial σ K))) :
    readBi t₁ t₂ (fun i => algebraMap K F (v i)) Q = 0 ↔ ∀ P ∈ coeffList₂ Q, eval v P = 0 := by
  rw [coeffList₂_map_zero, readBi_values]
  exact ⟨eval₂_injective h, fun e => by rw [e, Polynomial.eval₂_zero]⟩

theorem readBi_all {t₁ t₂ : F} {x : σ → F}
    (h : AlgebraicIndependent K fun o : Option (Option σ) => o.elim t₁ fun o => o.elim t₂ x) {v : σ → K}
    {Q : Polynomial (Polynomial (MvPolynomial σ K))} (hq : readBi t₁ t₂ (fun i => algebraMap K F (v i)) Q = 0) (τ₁ τ₂ : K) :
    readBi (F := K) τ₁ τ₂ v Q = 0 := by
  rw [readBi_values] at hq
  have e := readBi_values (F := K) τ₁ τ₂ v Q
  simp only [Algebra.algebraMap_self, RingHom.id_apply] at e
  rw [e, eval₂_injective h hq, Polynomial.eval₂_zero]

end

/-! ### Constraints over a ring -/

section
variable {K : Type*} [Field K] {n : ℕ}

/-- A constraint over an algebra. -/
noncomputable def constraintOver {A : Type*} [CommRing A] (K : Type*) [Field K] [Algebra K A] (r l : Fin n → V2 A) :
    Cov n → Except Err A
  | .scal s => s.over r l
  | .delta A B C => match Cov.over4 r l (.delta A B C) with
    | .ok [y] => .ok (algebraMap K _ 4⁻¹ * y)
    | _ => .error .exception
  | _ => .error .attributeError

theorem constraintValue_over [NeZero (2 : K)] {F A : Type*} [Field F] [Algebra K F] [CommRing A] [Algebra K A] {cF : Ctx F}
    (f : A →+* F) (hf : ∀ z : K, f (algebraMap K A z) = algebraMap K F z) (r l : Fin n → V2 A) {qs : Point F n}
    (h : Spin cF qs (mapV f r) (mapV f l)) (s : Cov n) : constraintValue qs s = (constraintOver K r l s).map f := by
  have h2 : NeZero (2 : F) := ⟨fun e => NeZero.ne (2 : K) ((algebraMap K F).injective (by rw [map_ofNat, map_zero]; exact e))⟩
  cases s with
  | scal s => rw [constraintValue, h.value_eq, Scal.over_map]; rfl
  | delta X Y Z =>
    have e := h.cov_eq (.delta X Y Z)
    rw [Cov.over4_map] at e
    simp only [Cov.value, Except.map, List.map_cons, List.map_nil, Cov.over4, Except.ok.injEq, List.cons.injEq, and_true] at e
    simp only [constraintValue, constraintOver, Cov.over4, Except.map, map_mul, hf]
    rw [← e, map_inv₀, map_ofNat, ← mul_assoc, inv_mul_cancel₀ (four_ne (K := F)), one_mul]
  | openBegin => rfl
  | openEnd => rfl
  | doubleOpen => rfl

/-- A constraint that has a value has one entry. -/
theorem constraintValue_covZero {F : Type*} [Field F] {qs : Point F n} {s : Cov n} :
    constraintValue qs s = .ok 0 → CovZero qs s := by
  intro h
  cases s with
  | scal s =>
    refine ⟨[0], ?_, by simp⟩
    rw [Cov.value, show s.value qs = .ok 0 from h]; rfl
  | delta X Y Z =>
    refine ⟨[0], ?_, by simp⟩
    rw [Cov.value]
    rw [constraintValue] at h
    rw [Except.ok.inj h]
  | openBegin => cases h
  | openEnd => cases h
  | doubleOpen => cases h

theorem constraintValue_of_covZero {F : Type*} [Field F] {qs : Point F n} {s : Cov n} {y : F} (h : constraintValue qs s = .ok y)
    (hz : CovZero qs s) : y = 0 := by
  obtain ⟨vs, e, hv⟩ := hz
  cases s with
  | scal s =>
    rw [Cov.value, show s.value qs = .ok y from h] at e
    cases e
    exact hv y (by simp)
  | delta X Y Z =>
    rw [Cov.value] at e
    rw [constraintValue] at h
    cases e; cases h
    exact hv _ (by simp)
  | openBegin => cases h
  | openEnd => cases h
  | doubleOpen => cases h

end

end Lips

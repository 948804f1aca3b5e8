import Verif.Lemmas.SliceRun

/-!
# C105: a slice stays on its variety for every value of its variables

Covered code: `univariate_slice`, `bivariate_slice` (lips/particles_slices.py:17-99).
-/

namespace Lips

open Matrix MvPolynomial

set_option linter.unusedSectionVars false

/-! ### Specification -/

section spec
variable {K : Type*} [Field K] {n : ℕ} {σ : Type*}

/-- What `point_on_variety` returns for the parameters is a common zero. -/
def SolvesParams (solve : List (MvPolynomial σ K) → Option ℤ → Except Err (σ → K)) : Prop :=
  ∀ G s v, solve G s = .ok v → ∀ P ∈ G, eval v P = 0

/-- Momentum is conserved and all the constraints hold. -/
def OnVariety (covs : List (Cov n)) (ps : Point K n) : Prop := Conserves ps ∧ ∀ s ∈ covs, CovZero ps s

end spec

/-! ### Helper lemmas -/

section
variable {K F : Type*} [Field K] [Field F] [Algebra K F] {n : ℕ} {σ : Type*}

theorem drawPoint_ok {R : Type*} {solve : List R → Option ℤ → Except Err (σ → K)} {G : List R} {seed : Option ℤ} {fuel counter : ℕ}
    {v : σ → K} (h : drawPoint solve G seed fuel counter = some (.ok v)) : (∃ s, solve G s = .ok v) ∧ ∀ i, v i ≠ 0 := by
  induction fuel generalizing counter with
  | zero => cases h
  | succ fuel ih =>
    rw [drawPoint] at h
    rcases hs : solve G (seed.map (· + (counter : ℤ))) with e | w
    · rw [hs] at h; cases h
    rw [hs] at h
    simp only at h
    split at h
    · split at h
      · cases h
      · exact ih h
    · rename_i hne
      cases h
      exact ⟨⟨_, hs⟩, fun i hi => hne ⟨i, hi⟩⟩

theorem eachOf_mem {α β : Type*} {f : α → Except Err β} {xs : List α} {ys : List β} (h : eachOf f xs = .ok ys) (a : α) (ha : a ∈ xs) :
    ∃ b, f a = .ok b := by
  obtain ⟨hl, hg⟩ := List.forall₂_iff_get.mp (eachOf_ok.mp h)
  obtain ⟨i, hi, rfl⟩ := List.mem_iff_getElem.mp ha
  exact ⟨_, hg i hi (hl ▸ hi)⟩

theorem substituted_eq {A : Type*} {ev : (σ → F) → A → F} {x : σ → F} (hinj : Function.Injective (ev x)) (y : σ → F) (Q : A) :
    substituted (ev x) (ev y) (ev x Q) = ev y Q := by
  have h : ∃ Q', ev x Q' = ev x Q := ⟨Q, rfl⟩
  rw [substituted, dif_pos h, hinj h.choose_spec]

section generic
variable {A : Type*} [CommRing A] [Algebra K A] {ev : (σ → F) → A →+* F} {coeffs : A → List (MvPolynomial σ K)} {x : σ → F}

theorem exprCoeffs_ok (hinj : Function.Injective (ev x))
    (hz : ∀ (v : σ → K) Q, ev (fun i => algebraMap K F (v i)) Q = 0 ↔ ∀ P ∈ coeffs Q, eval v P = 0) {Q : A}
    {G : List (MvPolynomial σ K)} (h : exprCoeffs K (ev x) coeffs (ev x Q) = .ok G) (v : σ → K) :
    (∀ P ∈ G, eval v P = 0) ↔ ev (fun i => algebraMap K F (v i)) Q = 0 := by
  unfold exprCoeffs at h
  split at h
  · cases h
  · split at h
    · rename_i hh
      cases h
      rw [hinj hh.choose_spec, hz]
      constructor
      · intro h P hP
        by_cases h0 : P = 0
        · rw [h0, map_zero]
        · exact h P (List.mem_filter.mpr ⟨hP, by simpa using h0⟩)
      · intro h P hP
        exact h P (List.mem_filter.mp hP).1
    · cases h

/-- Being on the variety, for a point whose spinors come from a ring. -/
theorem onVariety_iff [NeZero (2 : K)] {L : Type*} [Field L] [Algebra K L] {c : Ctx L} (f : A →+* L)
    (hf : ∀ z : K, f (algebraMap K A z) = algebraMap K L z) {r l : Fin n → V2 A} {q : Point L n} (h : Spin c q (mapV f r) (mapV f l))
    {covs : List (Cov n)} {Qs : List A} (hQ : List.Forall₂ (fun s Q => constraintOver K r l s = .ok Q) covs Qs) :
    OnVariety covs q ↔ (∀ Q ∈ rMom r l, f Q = 0) ∧ ∀ Q ∈ Qs, f Q = 0 := by
  refine and_congr ?_ ?_
  · rw [← momEntries_zero, h.mom_eq, rMom_map]
    simp
  · induction hQ with
    | nil => simp
    | @cons s Q covs' Qs' h1 _ ih =>
      rw [List.forall_mem_cons, List.forall_mem_cons]
      refine and_congr ?_ ih
      have e := constraintValue_over f hf r l h s
      rw [h1] at e
      constructor
      · intro hz; exact constraintValue_of_covZero e hz
      · intro hz; exact constraintValue_covZero (by rw [e, Except.map, hz])

theorem sliceEquations_ok [NeZero (2 : K)] (hk : ∀ y (z : K), ev y (algebraMap K A z) = algebraMap K F z)
    (hinj : Function.Injective (ev x))
    (hz : ∀ (v : σ → K) Q, ev (fun i => algebraMap K F (v i)) Q = 0 ↔ ∀ P ∈ coeffs Q, eval v P = 0)
    {cF : Ctx F} {r l : Fin n → V2 A} {qs : Point F n} (hq : Spin cF qs (mapV (ev x) r) (mapV (ev x) l)) {covs : List (Cov n)}
    {G : List (MvPolynomial σ K)} (h : sliceEquations K (ev x) coeffs qs covs = .ok G) :
    ∃ Qs, List.Forall₂ (fun s Q => constraintOver K r l s = .ok Q) covs Qs ∧ ∀ v : σ → K, (∀ P ∈ G, eval v P = 0) ↔
      (∀ Q ∈ rMom r l, ev (fun i => algebraMap K F (v i)) Q = 0) ∧ ∀ Q ∈ Qs, ev (fun i => algebraMap K F (v i)) Q = 0 := by
  obtain ⟨M, C, hM, hC, rfl⟩ := both_ok.mp h
  replace hM := eachOf_ok.mp hM
  replace hC := eachOf_ok.mp hC
  rw [hq.mom_eq, rMom_map] at hM
  have m : ∀ v : σ → K, (∀ P ∈ M.flatten, eval v P = 0) ↔ ∀ Q ∈ rMom r l, ev (fun i => algebraMap K F (v i)) Q = 0 := by
    intro v
    clear h hC
    generalize rMom r l = Rs at hM
    induction Rs generalizing M with
    | nil => cases hM; simp
    | cons Q Rs ih =>
      rw [List.map_cons, List.forall₂_cons_left_iff] at hM
      obtain ⟨g, M', h1, h2, rfl⟩ := hM
      rw [List.flatten_cons, List.forall_mem_append, List.forall_mem_cons]
      exact and_congr (exprCoeffs_ok hinj hz h1 v) (ih M' h2)
  have cs : ∃ Qs, List.Forall₂ (fun s Q => constraintOver K r l s = .ok Q) covs Qs ∧ ∀ v : σ → K, (∀ P ∈ C.flatten, eval v P = 0) ↔
      ∀ Q ∈ Qs, ev (fun i => algebraMap K F (v i)) Q = 0 := by
    clear h hM m
    induction hC with
    | nil => exact ⟨[], .nil, by simp⟩
    | @cons s g covs' C' h1 _ ih =>
      obtain ⟨Qs, i1, i2⟩ := ih
      have e := constraintValue_over (ev x) (hk x) r l hq s
      rcases ho : constraintOver K r l s with er | Q
      · rw [ho] at e
        rw [constraintCoeffs, e] at h1
        cases h1
      · rw [ho] at e
        rw [constraintCoeffs, e] at h1
        refine ⟨Q :: Qs, .cons ho i1, fun v => ?_⟩
        rw [List.flatten_cons, List.forall_mem_append, List.forall_mem_cons]
        exact and_congr (exprCoeffs_ok hinj hz h1 v) (i2 v)
  obtain ⟨Qs, c1, c2⟩ := cs
  refine ⟨Qs, c1, fun v => ?_⟩
  rw [List.forall_mem_append]
  exact and_congr (m v) (c2 v)

end generic

theorem sliceFrom_ok [NeZero (2 : F)] {A : Type*} {ev : (σ → F) → A → F} {coeffs : A → List (MvPolynomial σ K)} {x : σ → F}
    (hinj : Function.Injective (ev x)) {cF : Ctx F} {r l : Fin n → V2 A} {qs : Point F n}
    (hq : Spin cF qs (fun k j => ev x (r k j)) (fun k j => ev x (l k j))) {covs : List (Cov n)}
    {solve : List (MvPolynomial σ K) → Option ℤ → Except Err (σ → K)} {seed : Option ℤ} {fuel : ℕ} {ps' : Point F n}
    (h : sliceFrom cF ev coeffs x solve covs seed fuel qs = some (.ok ps')) :
    ∃ G v s, sliceEquations K (ev x) coeffs qs covs = .ok G ∧ solve G s = .ok v ∧ (∀ i, v i ≠ 0) ∧
      Spin cF ps' (fun k j => ev (fun i => algebraMap K F (v i)) (r k j)) (fun k j => ev (fun i => algebraMap K F (v i)) (l k j)) := by
  unfold sliceFrom at h
  rcases hG : sliceEquations K (ev x) coeffs qs covs with e | G
  · rw [hG] at h; cases h
  rw [hG] at h
  simp only at h
  rcases hd : drawPoint solve G seed fuel 0 with _ | (e | v)
  · rw [hd] at h; cases h
  · rw [hd] at h; cases h
  rw [hd] at h
  obtain ⟨⟨s, hs⟩, hv⟩ := drawPoint_ok hd
  simp only [Option.map_some, Option.some.injEq] at h
  rw [subsPoint, subsLoop_ok cF _ _ _ _ (List.nodup_finRange n) qs fun k _ => (hq k).eq_ofSpinors, assign_finRange] at h
  obtain rfl := Except.ok.inj h
  refine ⟨G, v, s, rfl, hs, hv, fun k => ?_⟩
  have e : ∀ w : Fin n → V2 A, ![substituted (ev x) (ev fun i => algebraMap K F (v i)) (ev x (w k 0)),
      substituted (ev x) (ev fun i => algebraMap K F (v i)) (ev x (w k 1))] = fun j => ev (fun i => algebraMap K F (v i)) (w k j) := by
    intro w
    funext j
    fin_cases j <;> exact substituted_eq hinj _ _
  simp only [e]
  exact ofSpinors_isMassless cF _ _


/-- The shift of a point with numbers, in expressions. -/
theorem shiftLift_ok [NeZero (2 : F)] {c : Ctx K} {ps : Point K n} {r l : Fin n → V2 K} (h : Spin c ps r l) (cF : Ctx F) (dr dl : Fin n → V2 F) :
    ∃ qs, shiftLoop cF dr dl (List.finRange n) (fun k => (ps k).lift F) = .ok qs ∧
      Spin cF qs (fun k => liftV F (r k) + dr k) (fun k => liftV F (l k) + dl k) := by
  have key : ∀ (ks : List (Fin n)) (qs : Point F n), ks.Nodup → (∀ k ∈ ks, qs k = (ps k).lift F) →
      shiftLoop cF dr dl ks qs =
        .ok (assign (fun k => (ofSpinors cF (liftV F (r k) + dr k) (liftV F (l k) + dl k)).st) ks qs) := by
    intro ks
    induction ks with
    | nil => intro qs _ _; rfl
    | cons k ks ih =>
      intro qs hk hp
      rw [List.nodup_cons] at hk
      have e := hp k List.mem_cons_self
      have e1 : (qs k).r_d = some (liftV F (r k)) := by rw [e, Particle.lift, (h k).r_d]; rfl
      have e2 : (qs k).l_d = some (liftV F (l k)) := by rw [e, Particle.lift, (h k).l_d]; rfl
      have e3 : (qs k).l_u = some (lDownUp (liftV F (l k))) := by
        rw [e, Particle.lift, (h k).toHasSpinors.l_u]
        simp only [Option.map_some, Option.some.injEq]
        funext j
        fin_cases j <;> simp [liftV, lDownUp, eps, vecMul, dotProduct, Fin.sum_univ_two]
      simp only [shiftLoop, e1, setRd_of_l cF _ _ e2 e3, store_ok, Function.update_self, (ofSpinors_fields cF _ _).2.1, setLd_ofSpinors,
        Function.update_idem]
      rw [ih _ hk.2, ← assign_cons]
      intro k' hk'
      rw [Function.update_of_ne (by rintro rfl; exact hk.1 hk')]
      exact hp k' (List.mem_cons_of_mem _ hk')
  refine ⟨_, by rw [key _ _ (List.nodup_finRange n) fun k _ => rfl, assign_finRange], fun k => ofSpinors_isMassless cF _ _⟩

/-- The shifted spinors as polynomials. -/
noncomputable def uniSpinor (side : Fin n → Fin n ⊕ Fin n) (r : Fin n → V2 K) (η : V2 K) (k : Fin n) :
    V2 (Polynomial (MvPolynomial (Fin n ⊕ Fin n) K)) :=
  fun j => Polynomial.C (C (r k j)) + Polynomial.X * Polynomial.C (X (side k)) * Polynomial.C (C (η j))

theorem uniSpinor_map (side : Fin n → Fin n ⊕ Fin n) (r : Fin n → V2 K) (η : V2 K) (t : F) (x : Fin n ⊕ Fin n → F) :
    mapV (readUni t x) (uniSpinor side r η) = fun k => liftV F (r k) + (t * x (side k)) • liftV F η := by
  funext k j
  simp only [mapV, uniSpinor, readUni, liftV, map_add, map_mul, Polynomial.coe_eval₂RingHom, Polynomial.eval₂_C, Polynomial.eval₂_X, Pi.add_apply,
    Pi.smul_apply, smul_eq_mul]
  simp

theorem readUni_const (t : F) (x : σ → F) (z : K) : readUni t x (algebraMap K (Polynomial (MvPolynomial σ K)) z) = algebraMap K F z := by
  simp [readUni, Polynomial.algebraMap_apply, MvPolynomial.algebraMap_eq]

/-- The same for two variables. -/
noncomputable def biSpinor (a b : Fin 4) (r : Fin n → V2 K) (η₁ η₂ : V2 K) (k : Fin n) :
    V2 (Polynomial (Polynomial (MvPolynomial (Fin 4 × Fin n) K))) :=
  fun j => Polynomial.C (Polynomial.C (C (r k j))) +
    (Polynomial.X * Polynomial.C (Polynomial.C (X (a, k))) * Polynomial.C (Polynomial.C (C (η₁ j))) +
      Polynomial.C Polynomial.X * Polynomial.C (Polynomial.C (X (b, k))) * Polynomial.C (Polynomial.C (C (η₂ j))))

theorem biSpinor_map (a b : Fin 4) (r : Fin n → V2 K) (η₁ η₂ : V2 K) (t₁ t₂ : F) (x : Fin 4 × Fin n → F) :
    mapV (readBi t₁ t₂ x) (biSpinor a b r η₁ η₂) =
      fun k => liftV F (r k) + ((t₁ * x (a, k)) • liftV F η₁ + (t₂ * x (b, k)) • liftV F η₂) := by
  funext k j
  simp only [mapV, biSpinor, readBi, readUni, liftV, map_add, map_mul, Polynomial.coe_eval₂RingHom, Polynomial.eval₂_C, Polynomial.eval₂_X,
    Pi.add_apply, Pi.smul_apply, smul_eq_mul]
  simp

theorem readBi_const (t₁ t₂ : F) (x : σ → F) (z : K) : readBi t₁ t₂ x (algebraMap K (Polynomial (Polynomial (MvPolynomial σ K))) z) = algebraMap K F z := by
  simp [readBi, readUni, Polynomial.algebraMap_apply, MvPolynomial.algebraMap_eq]

theorem liftV_self (s : V2 K) : liftV K s = s := rfl

end

/-! ### Theorems -/

section
variable {S K F : Type*} [Field S] [Field K] [Field F] [Algebra K F] {n : ℕ}

/-- C105: values of the parameters solve the equations of `univariate_slice` exactly if the point shifted with these values
conserves momentum and satisfies the constraints, as an expression in `t`. -/
theorem C105_equations [NeZero (2 : K)] (c : Ctx K) (ps : Point K n) (r l : Fin n → V2 K) (hs : Spin c ps r l) (cF : Ctx F) (t : F)
    (x : Fin n ⊕ Fin n → F) (hind : AlgebraicIndependent K fun o : Option (Fin n ⊕ Fin n) => o.elim t x) (η ηt : V2 K)
    (covs : List (Cov n)) (G : List (MvPolynomial (Fin n ⊕ Fin n) K)) (qs : Point F n)
    (hq : univariateShift cF (fun k => (ps k).lift F) (liftV F η) (liftV F ηt) (fun k => x (.inl k)) (fun k => x (.inr k)) t = .ok qs)
    (h : sliceEquations K (readUni t x) coeffList qs covs = .ok G) (v : Fin n ⊕ Fin n → K) :
    ∃ q, univariateShift cF (fun k => (ps k).lift F) (liftV F η) (liftV F ηt) (fun k => algebraMap K F (v (.inl k)))
      (fun k => algebraMap K F (v (.inr k))) t = .ok q ∧ ((∀ P ∈ G, eval v P = 0) ↔ OnVariety covs q) := by
  have hF : NeZero (2 : F) := ⟨fun e => NeZero.ne (2 : K) ((algebraMap K F).injective (by rw [map_ofNat, map_zero]; exact e))⟩
  obtain ⟨qs', e, hqs⟩ := shiftLift_ok hs cF (fun k => (t * x (.inl k)) • liftV F η) (fun k => (t * x (.inr k)) • liftV F ηt)
  obtain rfl : qs' = qs := Except.ok.inj (e.symm.trans hq)
  rw [← uniSpinor_map, ← uniSpinor_map] at hqs
  obtain ⟨q, eq, hsq⟩ := shiftLift_ok hs cF (fun k => (t * algebraMap K F (v (.inl k))) • liftV F η)
    (fun k => (t * algebraMap K F (v (.inr k))) • liftV F ηt)
  rw [← uniSpinor_map .inl r η t fun i => algebraMap K F (v i), ← uniSpinor_map .inr l ηt t fun i => algebraMap K F (v i)] at hsq
  obtain ⟨Qs, h1, h2⟩ := sliceEquations_ok (ev := fun y => readUni t y) (readUni_const t) (readUni_injective hind) (readUni_zero hind) hqs h
  exact ⟨q, eq, (h2 v).trans (onVariety_iff _ (readUni_const t _) hsq h1).symm⟩

/-- C105: the equations can be made exactly if the constraints are numbers, and neither one of them nor an entry of the total
momentum of the shifted point is free of symbols. -/
theorem C105_defined [NeZero (2 : K)] (c : Ctx K) (ps : Point K n) (r l : Fin n → V2 K) (hs : Spin c ps r l) (cF : Ctx F) (t : F)
    (x : Fin n ⊕ Fin n → F) (η ηt : V2 K) (covs : List (Cov n)) (qs : Point F n)
    (hq : univariateShift cF (fun k => (ps k).lift F) (liftV F η) (liftV F ηt) (fun k => x (.inl k)) (fun k => x (.inr k)) t = .ok qs) :
    (∃ G, sliceEquations K (readUni (K := K) t x) coeffList qs covs = .ok G) ↔ (∀ i j (z : K), ∑ k, (qs k).r2 i j ≠ algebraMap K F z) ∧
      ∀ s ∈ covs, ∃ y, constraintValue qs s = .ok y ∧ ∀ z : K, y ≠ algebraMap K F z := by
  have hF : NeZero (2 : F) := ⟨fun e => NeZero.ne (2 : K) ((algebraMap K F).injective (by rw [map_ofNat, map_zero]; exact e))⟩
  obtain ⟨qs', e, hqs⟩ := shiftLift_ok hs cF (fun k => (t * x (.inl k)) • liftV F η) (fun k => (t * x (.inr k)) • liftV F ηt)
  obtain rfl : qs' = qs := Except.ok.inj (e.symm.trans hq)
  rw [← uniSpinor_map, ← uniSpinor_map] at hqs
  have ex : ∀ Q : Polynomial (MvPolynomial (Fin n ⊕ Fin n) K), (∃ G, exprCoeffs K (readUni (K := K) t x) coeffList (readUni t x Q) = .ok G) ↔
      ∀ z : K, readUni t x Q ≠ algebraMap K F z := by
    intro Q
    constructor
    · rintro ⟨G, hG⟩ z hz
      rw [exprCoeffs, if_pos ⟨z, hz⟩] at hG
      cases hG
    · intro h
      rw [exprCoeffs, if_neg (fun ⟨z, hz⟩ => h z hz), dif_pos ⟨Q, rfl⟩]
      exact ⟨_, rfl⟩
  have em : ∀ y ∈ momEntries qs', ∃ Q, y = readUni (K := K) t x Q := by
    intro y hy
    rw [hqs.mom_eq, rMom_map] at hy
    obtain ⟨Q, -, rfl⟩ := List.mem_map.mp hy
    exact ⟨Q, rfl⟩
  have es : ∀ i j, ∑ k, (qs' k).r2 i j ∈ momEntries qs' := by
    have e : ∀ i j, totalMom qs' i j = ∑ k, (qs' k).r2 i j := fun i j => by rw [totalMom, Matrix.sum_apply]
    intro i j
    rw [← e]
    fin_cases i <;> fin_cases j <;> simp [momEntries]
  have es' : ∀ y ∈ momEntries qs', ∃ i j, y = ∑ k, (qs' k).r2 i j := by
    have e : ∀ i j, totalMom qs' i j = ∑ k, (qs' k).r2 i j := fun i j => by rw [totalMom, Matrix.sum_apply]
    intro y hy
    simp only [momEntries, e, List.mem_cons, List.not_mem_nil, or_false] at hy
    rcases hy with rfl | rfl | rfl | rfl <;> exact ⟨_, _, rfl⟩
  have hc : ∀ s y, constraintValue qs' s = .ok y → ∃ Q, y = readUni (K := K) t x Q := by
    intro s y hy
    rw [constraintValue_over (readUni t x) (readUni_const t x) _ _ hqs s] at hy
    obtain ⟨Q, -, rfl⟩ := map_ok.mp hy
    exact ⟨Q, rfl⟩
  constructor
  · rintro ⟨G, h⟩
    obtain ⟨M, C, hM, hC, rfl⟩ := both_ok.mp h
    refine ⟨fun i j => ?_, fun s hs => ?_⟩
    · obtain ⟨Q, hQ⟩ := em _ (es i j)
      obtain ⟨g, hg⟩ := eachOf_mem hM _ (es i j)
      rw [hQ] at hg ⊢
      exact (ex Q).mp ⟨g, hg⟩
    · obtain ⟨g, hg⟩ := eachOf_mem hC s hs
      rcases hy : constraintValue qs' s with er | y
      · rw [constraintCoeffs, hy] at hg; cases hg
      · rw [constraintCoeffs, hy] at hg
        obtain ⟨Q, rfl⟩ := hc s y hy
        exact ⟨_, rfl, (ex Q).mp ⟨g, hg⟩⟩
  · rintro ⟨h1, h2⟩
    obtain ⟨M, hM⟩ := eachOf_exists (f := exprCoeffs K (readUni (K := K) t x) coeffList) (xs := momEntries qs') fun y hy => by
      obtain ⟨i, j, hij⟩ := es' y hy
      obtain ⟨Q, hQ⟩ := em y hy
      rw [hQ]
      refine (ex Q).mpr fun z => ?_
      rw [← hQ, hij]
      exact h1 i j z
    obtain ⟨C, hC⟩ := eachOf_exists (f := constraintCoeffs K (readUni (K := K) t x) coeffList qs') (xs := covs) fun s hs => by
      obtain ⟨y, hy, hz⟩ := h2 s hs
      obtain ⟨Q, rfl⟩ := hc s y hy
      rw [constraintCoeffs, hy]
      exact (ex Q).mpr hz
    exact ⟨_, by rw [sliceEquations, hM, hC]; rfl⟩

/-- C105: the point left by `univariate_slice` is a point on the variety shifted by multiples of `t`, none of them zero; it
conserves momentum and satisfies the constraints as an expression in `t`, and so does the point with a number in place of `t`, for every number. -/
theorem C105_univariate [NeZero (2 : S)] [NeZero (2 : K)] (E : SliceEnv S K n) (hx : AlgebraicIndependent ℤ E.x)
    (h0 : ∃ r l, Spin E.cS E.ps₀ r l) (hE : Solves E.solve) (cF : Ctx F) (t : F) (x : Fin n ⊕ Fin n → F)
    (hind : AlgebraicIndependent K fun o : Option (Fin n ⊕ Fin n) => o.elim t x) (η ηt : V2 K)
    (solve : List (MvPolynomial (Fin n ⊕ Fin n) K) → Option ℤ → Except Err (Fin n ⊕ Fin n → K)) (hsolve : SolvesParams solve)
    (covs : List (Cov n)) (seed : Option ℤ) (indep : Bool) (fuel : ℕ) (ps : Point K n) (ps' : Point F n)
    (h : univariateSlice E cF t x η ηt solve covs seed indep fuel ps = some (.ok ps')) :
    ∃ (ps1 : Point K n) (r l : Fin n → V2 K) (v : Fin n ⊕ Fin n → K), Spin E.c ps1 r l ∧ OnVariety covs ps1 ∧ (∀ i, v i ≠ 0) ∧
      Spin cF ps' (fun k => liftV F (r k) + (t * algebraMap K F (v (.inl k))) • liftV F η)
        (fun k => liftV F (l k) + (t * algebraMap K F (v (.inr k))) • liftV F ηt) ∧
      OnVariety covs ps' ∧
      ∀ τ : K, ∃ q, univariateShift E.c ps1 η ηt (fun k => v (.inl k)) (fun k => v (.inr k)) τ = .ok q ∧ OnVariety covs q := by
  have hF : NeZero (2 : F) := ⟨fun e => NeZero.ne (2 : K) ((algebraMap K F).injective (by rw [map_ofNat, map_zero]; exact e))⟩
  unfold univariateSlice at h
  split at h
  · cases h
  rcases hv : singularVariety E.cS E.x E.ps₀ E.c E.solve covs [] ps with e | ps1
  · rw [hv] at h; cases h
  rw [hv] at h
  simp only at h
  obtain ⟨c1, r, l, hs, c2, -⟩ := C102_singular_variety E.cS E.x hx E.ps₀ h0 E.c E.solve hE covs [] ps ps1 hv
  obtain ⟨qs, e, hqs⟩ := shiftLift_ok hs cF (fun k => (t * x (.inl k)) • liftV F η) (fun k => (t * x (.inr k)) • liftV F ηt)
  rw [univariateShift, e] at h
  simp only at h
  rw [← uniSpinor_map, ← uniSpinor_map] at hqs
  obtain ⟨G, v, s, hG, hsv, hne, hp⟩ := sliceFrom_ok (ev := fun y Q => readUni t y Q) (readUni_injective hind) hqs h
  replace hp : Spin cF ps' (mapV (readUni t fun i => algebraMap K F (v i)) (uniSpinor .inl r η))
    (mapV (readUni t fun i => algebraMap K F (v i)) (uniSpinor .inr l ηt)) := hp
  obtain ⟨Qs, h1, h2⟩ := sliceEquations_ok (ev := fun y => readUni t y) (readUni_const t) (readUni_injective hind) (readUni_zero hind) hqs hG
  have z := (h2 v).mp (hsolve G s v hsv)
  refine ⟨ps1, r, l, v, hs, ⟨c1, c2 rfl⟩, hne, by rw [uniSpinor_map, uniSpinor_map] at hp; exact hp,
    (onVariety_iff _ (readUni_const t _) hp h1).mpr z, fun τ => ?_⟩
  obtain ⟨q, eq, hq⟩ := univariateShift_ok E.c ps1 r l hs η ηt (fun k => v (.inl k)) (fun k => v (.inr k)) τ
  refine ⟨q, eq, ?_⟩
  have m1 := uniSpinor_map (F := K) .inl r η τ v
  have m2 := uniSpinor_map (F := K) .inr l ηt τ v
  simp only [liftV_self] at m1 m2
  rw [← m1, ← m2] at hq
  exact (onVariety_iff _ (readUni_const τ _) hq h1).mpr
    ⟨fun Q hQ => readUni_all hind (z.1 Q hQ) τ, fun Q hQ => readUni_all hind (z.2 Q hQ) τ⟩

/-- C105: the same for `bivariate_slice`, whose parameters `y2` are not used. -/
theorem C105_bivariate [NeZero (2 : S)] [NeZero (2 : K)] (E : SliceEnv S K n) (hx : AlgebraicIndependent ℤ E.x)
    (h0 : ∃ r l, Spin E.cS E.ps₀ r l) (hE : Solves E.solve) (cF : Ctx F) (t₁ t₂ : F) (x : Fin 4 × Fin n → F)
    (hind : AlgebraicIndependent K fun o : Option (Option (Fin 4 × Fin n)) => o.elim t₁ fun o => o.elim t₂ x) (η₁ ηt₁ η₂ ηt₂ : V2 K)
    (solve : List (MvPolynomial (Fin 4 × Fin n) K) → Option ℤ → Except Err (Fin 4 × Fin n → K)) (hsolve : SolvesParams solve)
    (covs : List (Cov n)) (seed : Option ℤ) (indep : Bool) (fuel : ℕ) (ps : Point K n) (ps' : Point F n)
    (h : bivariateSlice E cF t₁ t₂ x η₁ ηt₁ η₂ ηt₂ solve covs seed indep fuel ps = some (.ok ps')) :
    ∃ (ps1 : Point K n) (r l : Fin n → V2 K) (v : Fin 4 × Fin n → K), Spin E.c ps1 r l ∧ OnVariety covs ps1 ∧ (∀ i, v i ≠ 0) ∧
      Spin cF ps' (fun k => liftV F (r k) + ((t₁ * algebraMap K F (v (0, k))) • liftV F η₁ + (t₂ * algebraMap K F (v (2, k))) • liftV F η₂))
        (fun k => liftV F (l k) + ((t₁ * algebraMap K F (v (1, k))) • liftV F ηt₁ + (t₂ * algebraMap K F (v (2, k))) • liftV F ηt₂)) ∧
      OnVariety covs ps' ∧
      ∀ τ₁ τ₂ : K, ∃ q, bivariateShift E.c ps1 η₁ ηt₁ η₂ ηt₂ (fun k => v (0, k)) (fun k => v (1, k)) (fun k => v (2, k))
        (fun k => v (3, k)) τ₁ τ₂ = .ok q ∧ OnVariety covs q := by
  have hF : NeZero (2 : F) := ⟨fun e => NeZero.ne (2 : K) ((algebraMap K F).injective (by rw [map_ofNat, map_zero]; exact e))⟩
  unfold bivariateSlice at h
  split at h
  · cases h
  rcases hv : singularVariety E.cS E.x E.ps₀ E.c E.solve covs [] ps with e | ps1
  · rw [hv] at h; cases h
  rw [hv] at h
  simp only at h
  obtain ⟨c1, r, l, hs, c2, -⟩ := C102_singular_variety E.cS E.x hx E.ps₀ h0 E.c E.solve hE covs [] ps ps1 hv
  obtain ⟨qs, e, hqs⟩ := shiftLift_ok hs cF (fun k => (t₁ * x (0, k)) • liftV F η₁ + (t₂ * x (2, k)) • liftV F η₂)
    (fun k => (t₁ * x (1, k)) • liftV F ηt₁ + (t₂ * x (2, k)) • liftV F ηt₂)
  rw [bivariateShift, e] at h
  simp only at h
  rw [← biSpinor_map, ← biSpinor_map] at hqs
  obtain ⟨G, v, s, hG, hsv, hne, hp⟩ := sliceFrom_ok (ev := fun y Q => readBi t₁ t₂ y Q) (readBi_injective hind) hqs h
  replace hp : Spin cF ps' (mapV (readBi t₁ t₂ fun i => algebraMap K F (v i)) (biSpinor 0 2 r η₁ η₂))
    (mapV (readBi t₁ t₂ fun i => algebraMap K F (v i)) (biSpinor 1 2 l ηt₁ ηt₂)) := hp
  have key := @sliceEquations_ok K F _ _ _ n (Fin 4 × Fin n) (Polynomial (Polynomial (MvPolynomial (Fin 4 × Fin n) K))) _ _
    (fun y => readBi t₁ t₂ y) coeffList₂ x _ (readBi_const t₁ t₂) (readBi_injective hind) (readBi_zero hind) cF (biSpinor 0 2 r η₁ η₂)
    (biSpinor 1 2 l ηt₁ ηt₂) qs
  replace key := key hqs (covs := covs) (G := G)
  obtain ⟨Qs, h1, h2⟩ := key hG
  have z := (h2 v).mp (hsolve G s v hsv)
  refine ⟨ps1, r, l, v, hs, ⟨c1, c2 rfl⟩, hne, by rw [biSpinor_map, biSpinor_map] at hp; exact hp,
    (onVariety_iff _ (readBi_const t₁ t₂ _) hp h1).mpr z, fun τ₁ τ₂ => ?_⟩
  obtain ⟨q, eq, hq⟩ := bivariateShift_ok E.c ps1 r l hs η₁ ηt₁ η₂ ηt₂ (fun k => v (0, k)) (fun k => v (1, k)) (fun k => v (2, k))
    (fun k => v (3, k)) τ₁ τ₂
  refine ⟨q, eq, ?_⟩
  have m1 := biSpinor_map (F := K) 0 2 r η₁ η₂ τ₁ τ₂ v
  have m2 := biSpinor_map (F := K) 1 2 l ηt₁ ηt₂ τ₁ τ₂ v
  simp only [liftV_self, ← add_assoc] at m1 m2
  simp only [← add_assoc] at hq
  rw [← m1, ← m2] at hq
  exact (onVariety_iff _ (readBi_const τ₁ τ₂ _) hq h1).mpr
    ⟨fun Q hQ => readBi_all hind (z.1 Q hQ) τ₁ τ₂, fun Q hQ => readBi_all hind (z.2 Q hQ) τ₁ τ₂⟩

/-- C105: with `algorithm='generic'`, provided the slice of syngular is on the variety, the point is massless and on the variety too. -/
theorem C105_generic [NeZero (2 : S)] [NeZero (2 : F)] (E : SliceEnv S K n) (hx : AlgebraicIndependent ℤ E.x)
    (h0 : ∃ r l, Spin E.cS E.ps₀ r l) (cF : Ctx F) (slice : List (MvPolynomial (Comp n) ℤ) → Except Err (Dict F))
    (hslice : ∀ G d, slice G = .ok d → ∃ v : Comp n → F, Lists d v ∧ ZeroOf G v) (covs : List (Cov n)) (ps : Point K n) (ps' : Point F n)
    (h : univariateSliceGeneric E cF slice covs ps = .ok ps') : (∃ r l, Spin cF ps' r l) ∧ OnVariety covs ps' := by
  unfold univariateSliceGeneric at h
  rcases hG : lipsGens E.cS E.x E.ps₀ covs true with e | G
  · rw [hG] at h; cases h
  rw [hG] at h
  simp only at h
  rcases hd : slice G with e | d
  · rw [hd] at h; cases h
  rw [hd] at h
  obtain ⟨v, hl, g⟩ := hslice G d hd
  obtain ⟨q, e, hs, hv⟩ := lists_comps (c := cF) (ps := fun k => (ps k).lift F) hl
  simp only [e] at h
  obtain rfl := Except.ok.inj h
  rw [← hv] at g
  have := (C102_zero_locus E.cS E.x hx E.ps₀ h0 covs true G hG cF q _ _ hs).mp g
  exact ⟨⟨_, _, hs⟩, this.2 rfl, this.1⟩

/-- C105: without a seed, a first solution with a parameter that is zero ends in a TypeError; with one, the next seed is tried. -/
theorem C105_retry {σ : Type*} (solve : List (MvPolynomial σ K) → Option ℤ → Except Err (σ → K)) (G : List (MvPolynomial σ K))
    (seed : Option ℤ) (v : σ → K) (i : σ) (hi : v i = 0) (hs : solve G seed = .ok v) (fuel : ℕ) :
    drawPoint solve G seed (fuel + 1) 0 =
      if seed = none then some (.error .typeError) else drawPoint solve G seed fuel 1 := by
  have e : seed.map (· + ((0 : ℕ) : ℤ)) = seed := by cases seed <;> simp
  rw [drawPoint, e, hs]
  simp only
  rw [if_pos ⟨i, hi⟩]

end

end Lips

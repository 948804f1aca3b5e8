import Verif.Model.SpinorIdeal
import Verif.Props.Ideal
import Verif.Props.PolyImageInv
import Mathlib.RingTheory.Ideal.Quotient.Operations

/-!
# C103: the ideal in brackets is the ideal in components

Covered code: `conversionIdeal` (lips/algebraic_geometry/tools.py:32-42), `SpinorIdeal.__init__`, `to_momentum_and_schouten_qring`
(lips/algebraic_geometry/invariant_ideal.py:15-31, 56-58), `LipsIdeal.invariant_slice` (covariant_ideal.py:96-100).
-/

namespace Lips

open Matrix MvPolynomial

/-! ### Specification -/

section spec
variable {n : ℕ}

/-- The ideal over the rational numbers. -/
noncomputable def SpecIdeal {σ : Type*} (G : List (MvPolynomial σ ℤ)) : Ideal (MvPolynomial σ ℚ) :=
  Ideal.span {Q | ∃ P ∈ G, Q = P.map (Int.castRingHom ℚ)}

/-- What `eliminate` has to do: the polynomials in the brackets alone that are in the ideal. -/
def Eliminates (elim : List (MvPolynomial (Mixed n) ℤ) → List (MvPolynomial (BrkVar n) ℤ)) : Prop :=
  ∀ G Q, Q ∈ SpecIdeal (elim G) ↔ rename Sum.inr Q ∈ SpecIdeal G

/-- The pair of labels at a position, `(1, 2), (1, 3), ...`. -/
def SpecPairAt (t : Fin (pairsList n).length) (i j : Fin n) : Prop := (pairsList n)[t] = ((i : ℕ) + 1, (j : ℕ) + 1)

/-- The value of a bracket of a point. -/
def SpecBrk {K : Type*} [Field K] (r l : Fin n → V2 K) (ang : Bool) (i j : Fin n) : K :=
  if ang then SpecAngle (r i) (r j) else SpecSquare (l i) (l j)

/-- Values of the bracket variables at a point. -/
def BrkVals {K : Type*} [Field K] (r l : Fin n → V2 K) (w : BrkVar n → K) : Prop :=
  ∀ ang t i j, SpecPairAt t i j → w (ang, t) = SpecBrk r l ang i j

/-- The bracket `⟨i|j⟩` or `[i|j]` as a polynomial in the bracket variables. -/
def SpecVar (ang : Bool) (i j : Fin n) (Q : MvPolynomial (BrkVar n) ℚ) : Prop :=
  (∃ t, SpecPairAt t i j ∧ Q = X (ang, t)) ∨ (∃ t, SpecPairAt t j i ∧ Q = -X (ang, t)) ∨ (i = j ∧ Q = 0)

end spec

/-! ### Helper lemmas -/

section pairs
variable {n : ℕ}

theorem pairAt_exists (t : Fin (pairsList n).length) : ∃ i j : Fin n, SpecPairAt t i j ∧ i < j := by
  have h : (pairsList n)[t] ∈ pairsList n := List.getElem_mem t.isLt
  rcases hp : (pairsList n)[t] with ⟨a, b⟩
  rw [hp, mem_pairsList] at h
  exact ⟨⟨a - 1, by omega⟩, ⟨b - 1, by omega⟩, by rw [SpecPairAt, hp]; simp; omega, by rw [Fin.lt_def]; simp; omega⟩

theorem pairAt_unique {t : Fin (pairsList n).length} {i j i' j' : Fin n} (h : SpecPairAt t i j) (h' : SpecPairAt t i' j') : i = i' ∧ j = j' := by
  rw [SpecPairAt] at h h'
  rw [h] at h'
  simp only [Prod.mk.injEq, add_left_inj] at h'
  exact ⟨Fin.ext h'.1, Fin.ext h'.2⟩

theorem pairAt_of {i j : Fin n} (h : i < j) : ∃ t, SpecPairAt t i j := by
  have hm : ((i : ℕ) + 1, (j : ℕ) + 1) ∈ pairsList n := mem_pairsList.mpr ⟨by omega, by rw [Fin.lt_def] at h; omega, by omega⟩
  obtain ⟨t, ht, e⟩ := List.mem_iff_getElem.mp hm
  exact ⟨⟨t, ht⟩, e⟩

/-- The first and second label of a position. -/
noncomputable def pairFst (t : Fin (pairsList n).length) : Fin n := (pairAt_exists t).choose
noncomputable def pairSnd (t : Fin (pairsList n).length) : Fin n := (pairAt_exists t).choose_spec.choose

theorem pair_spec (t : Fin (pairsList n).length) : SpecPairAt t (pairFst t) (pairSnd t) := (pairAt_exists t).choose_spec.choose_spec.1

theorem label_pair {t : Fin (pairsList n).length} {i j : Fin n} (h : SpecPairAt t i j) :
    label n (pairsList n)[t].1 = .ok i ∧ label n (pairsList n)[t].2 = .ok j := by
  rw [SpecPairAt] at h
  rw [h]
  constructor
  · rw [label, dif_pos ⟨by omega, by omega⟩]; simp
  · rw [label, dif_pos ⟨by omega, by omega⟩]; simp

/-- The polynomial of a bracket in the components. -/
noncomputable def brkPoly (ang : Bool) (i j : Fin n) : MvPolynomial (Comp n) ℤ :=
  if ang then X (i, 1) * X (j, 0) - X (i, 0) * X (j, 1) else X (i, 2) * X (j, 3) - X (i, 3) * X (j, 2)

/-- The expected generators of `conversionIdeal`. -/
noncomputable def convPoly (b : BrkVar n) : MvPolynomial (Mixed n) ℤ :=
  rename Sum.inl (brkPoly b.1 (pairFst b.2) (pairSnd b.2)) - X (Sum.inr b)

theorem brkPoly_aeval {K : Type*} [Field K] (v : Comp n → K) (ang : Bool) (i j : Fin n) : aeval v (brkPoly ang i j) =
    if ang then v (i, 1) * v (j, 0) - v (i, 0) * v (j, 1) else v (i, 2) * v (j, 3) - v (i, 3) * v (j, 2) := by
  cases ang <;> simp [brkPoly]

theorem brkPoly_comps {K : Type*} [Field K] (r l : Fin n → V2 K) (ang : Bool) (i j : Fin n) :
    aeval (SpecComps r l) (brkPoly ang i j) = SpecBrk r l ang i j := by
  rw [brkPoly_aeval]
  cases ang <;> simp [SpecComps, SpecBrk, SpecAngle, SpecSquare]

variable {F : Type*} [Field F] [NeZero (2 : F)]

theorem conversionGens_eq {cF : Ctx F} {x : Comp n → F} (hx : AlgebraicIndependent ℤ x) {ps₀ : Point F n} (h0 : ∃ r l, Spin cF ps₀ r l) :
    conversionGens cF x ps₀ = .ok ((((List.finRange _).map fun t => (true, t)) ++ (List.finRange _).map fun t => (false, t)).map convPoly) := by
  obtain ⟨r₀, l₀, hs⟩ := h0
  obtain ⟨qs, e, hq⟩ := C84_default cF ps₀ r₀ l₀ hs fun k j => x (k, j)
  rw [conversionGens, e]
  simp only
  rw [eachOf_ok]
  rw [List.forall₂_map_right_iff, List.forall₂_same]
  intro b _
  obtain ⟨h1, h2⟩ := label_pair (pair_spec b.2)
  rw [conversionGen, h1, h2]
  simp only
  have hv : (if b.1 then angle (qs (pairFst b.2)) (qs (pairSnd b.2)) else square (qs (pairFst b.2)) (qs (pairSnd b.2))) =
      .ok (aeval x (brkPoly b.1 (pairFst b.2) (pairSnd b.2))) := by
    have := hq.value_eq (.two b.1 (pairFst b.2) (pairSnd b.2))
    rw [Scal.value, Scal.over] at this
    rw [this, brkPoly_aeval]
    cases b.1 <;> simp
  rw [hv]
  simp only
  rw [(polyOf_ok hx).mpr rfl]
  rfl

end pairs

section elim
variable {n : ℕ}

/-- Brackets replaced by their components. -/
noncomputable def substB : MvPolynomial (Mixed n) ℚ →ₐ[ℚ] MvPolynomial (Comp n) ℚ :=
  aeval (Sum.elim X fun b => (brkPoly b.1 (pairFst b.2) (pairSnd b.2)).map (Int.castRingHom ℚ))

theorem substB_inl (P : MvPolynomial (Comp n) ℚ) : substB (rename Sum.inl P) = P := by
  rw [substB, aeval_rename, Sum.elim_comp_inl]
  exact aeval_X_left_apply P

theorem mem_elim (L : List (MvPolynomial (Comp n) ℤ)) (C : List (MvPolynomial (Mixed n) ℤ)) (hC : ∀ P, P ∈ C ↔ ∃ b, P = convPoly b)
    (Q : MvPolynomial (Mixed n) ℚ) : Q ∈ SpecIdeal (C ++ L.map (rename Sum.inl)) ↔ substB Q ∈ SpecIdeal L := by
  constructor
  · intro h
    refine Ideal.span_le (I := (SpecIdeal L).comap substB.toRingHom).mpr ?_ h
    rintro R ⟨P, hP, rfl⟩
    rw [SetLike.mem_coe, Ideal.mem_comap]
    rcases List.mem_append.mp hP with hP | hP
    · obtain ⟨b, rfl⟩ := (hC P).mp hP
      have : substB ((convPoly b).map (Int.castRingHom ℚ)) = 0 := by
        rw [convPoly, map_sub, map_rename, map_sub, substB_inl, map_X, substB, aeval_X]
        simp
      exact this ▸ Submodule.zero_mem _
    · obtain ⟨P, hP', rfl⟩ := List.mem_map.mp hP
      have : substB ((rename Sum.inl P).map (Int.castRingHom ℚ)) = P.map (Int.castRingHom ℚ) := by
        rw [map_rename, substB_inl]
      exact this ▸ Ideal.subset_span ⟨P, hP', rfl⟩
  · intro h
    have h1 : rename Sum.inl (substB Q) ∈ SpecIdeal (C ++ L.map (rename Sum.inl)) := by
      refine Ideal.span_le (I := (SpecIdeal (C ++ L.map (rename Sum.inl))).comap (rename (R := ℚ) Sum.inl).toRingHom).mpr ?_ h
      rintro R ⟨P, hP, rfl⟩
      rw [SetLike.mem_coe, Ideal.mem_comap]
      refine Ideal.subset_span ⟨rename Sum.inl P, List.mem_append_right _ (List.mem_map_of_mem hP), ?_⟩
      exact (map_rename _ _ _).symm
    have h2 : Ideal.Quotient.mk (SpecIdeal (C ++ L.map (rename Sum.inl))) (rename Sum.inl (substB Q)) =
        Ideal.Quotient.mk (SpecIdeal (C ++ L.map (rename Sum.inl))) Q := by
      have : (Ideal.Quotient.mkₐ ℚ (SpecIdeal (C ++ L.map (rename Sum.inl)))).comp ((rename Sum.inl).comp substB) =
          Ideal.Quotient.mkₐ ℚ (SpecIdeal (C ++ L.map (rename Sum.inl))) := by
        refine MvPolynomial.algHom_ext fun z => ?_
        rcases z with z | b
        · simp [substB]
        · simp only [AlgHom.comp_apply, substB, aeval_X, Sum.elim_inr, Ideal.Quotient.mkₐ_eq_mk]
          rw [Ideal.Quotient.eq]
          refine Ideal.subset_span ⟨convPoly b, List.mem_append_left _ ((hC _).mpr ⟨b, rfl⟩), ?_⟩
          rw [convPoly, map_sub, map_rename, map_X]
      exact congrArg (fun f => f Q) this
    rw [Ideal.Quotient.eq] at h2
    have := Submodule.sub_mem _ h1 h2
    rwa [sub_sub_cancel] at this

end elim

section
variable {F : Type*} [Field F] [NeZero (2 : F)] {n : ℕ}

theorem spinorGens_inv {cF : Ctx F} {x : Comp n → F} (hx : AlgebraicIndependent ℤ x) {ps₀ : Point F n} (h0 : ∃ r l, Spin cF ps₀ r l)
    {elim : List (MvPolynomial (Mixed n) ℤ) → List (MvPolynomial (BrkVar n) ℤ)} (he : Eliminates elim) {covs : List (Cov n)} {mc : Bool}
    {J : List (MvPolynomial (BrkVar n) ℤ)} (h : spinorGens cF x ps₀ elim covs mc = .ok J) :
    ∃ L, lipsGens cF x ps₀ covs mc = .ok L ∧ ∀ Q, Q ∈ SpecIdeal J ↔ substB (rename Sum.inr Q) ∈ SpecIdeal L := by
  obtain ⟨C, L, h1, h2, rfl⟩ := both_ok.mp h
  rw [conversionGens_eq hx h0] at h1
  cases h1
  refine ⟨L, h2, fun Q => (he _ Q).trans (mem_elim L _ ?_ _)⟩
  intro P
  rw [List.mem_map]
  constructor
  · rintro ⟨b, -, rfl⟩; exact ⟨b, rfl⟩
  · rintro ⟨⟨ang, t⟩, rfl⟩
    refine ⟨(ang, t), ?_, rfl⟩
    rw [List.mem_append]
    cases ang
    · exact .inr (List.mem_map_of_mem (List.mem_finRange t))
    · exact .inl (List.mem_map_of_mem (List.mem_finRange t))

/-! ### Theorems -/

/-- **C103.** The zeros of `conversionIdeal` are the points with the values of their brackets, numbered in lexicographic order. -/
theorem C103_conversion {K : Type*} [Field K] (cF : Ctx F) (x : Comp n → F) (hx : AlgebraicIndependent ℤ x) (ps₀ : Point F n)
    (h0 : ∃ r l, Spin cF ps₀ r l) : ∃ C, conversionGens cF x ps₀ = .ok C ∧
      ∀ (r l : Fin n → V2 K) (w : BrkVar n → K), (∀ P ∈ C, aeval (Sum.elim (SpecComps r l) w) P = 0) ↔ BrkVals r l w := by
  refine ⟨_, conversionGens_eq hx h0, fun r l w => ?_⟩
  have key : ∀ b, aeval (Sum.elim (SpecComps r l) w) (convPoly b) = 0 ↔ w b = SpecBrk r l b.1 (pairFst b.2) (pairSnd b.2) := by
    intro b
    rw [convPoly, map_sub, aeval_rename, aeval_X, Sum.elim_comp_inl, brkPoly_comps, Sum.elim_inr, sub_eq_zero, eq_comm]
  constructor
  · intro h ang t i j hij
    obtain ⟨rfl, rfl⟩ := pairAt_unique hij (pair_spec t)
    refine (key (ang, t)).mp (h _ (List.mem_map_of_mem ?_))
    rw [List.mem_append]
    cases ang
    · exact .inr (List.mem_map_of_mem (List.mem_finRange t))
    · exact .inl (List.mem_map_of_mem (List.mem_finRange t))
  · intro h P hP
    obtain ⟨b, -, rfl⟩ := List.mem_map.mp hP
    exact (key b).mpr (h b.1 b.2 _ _ (pair_spec b.2))

/-- **C103.** A polynomial in the brackets is in `SpinorIdeal(n, invariants)` exactly if, with the brackets written in components, it
is in `LipsIdeal(n, invariants)`. -/
theorem C103_membership (cF : Ctx F) (x : Comp n → F) (hx : AlgebraicIndependent ℤ x) (ps₀ : Point F n) (h0 : ∃ r l, Spin cF ps₀ r l)
    (elim : List (MvPolynomial (Mixed n) ℤ) → List (MvPolynomial (BrkVar n) ℤ)) (he : Eliminates elim) (covs : List (Cov n)) (mc : Bool)
    (J : List (MvPolynomial (BrkVar n) ℤ)) (h : spinorGens cF x ps₀ elim covs mc = .ok J)
    (β : BrkVar n → MvPolynomial (Comp n) ℚ)
    (hβ : ∀ t i j, SpecPairAt t i j → β (true, t) = X (i, 1) * X (j, 0) - X (i, 0) * X (j, 1) ∧
      β (false, t) = X (i, 2) * X (j, 3) - X (i, 3) * X (j, 2)) :
    ∃ L, lipsGens cF x ps₀ covs mc = .ok L ∧ ∀ Q, Q ∈ SpecIdeal J ↔ aeval β Q ∈ SpecIdeal L := by
  obtain ⟨L, hL, hm⟩ := spinorGens_inv hx h0 he h
  refine ⟨L, hL, fun Q => (hm Q).trans ?_⟩
  have e : substB (rename Sum.inr Q) = aeval β Q := by
    rw [substB, aeval_rename, Sum.elim_comp_inr]
    congr 1
    congr 1
    funext ⟨ang, t⟩
    obtain ⟨h1, h2⟩ := hβ t _ _ (pair_spec t)
    cases ang
    · rw [h2]; simp [brkPoly]
    · rw [h1]; simp [brkPoly]
  rw [e]

/-- **C103.** Every element of `SpinorIdeal(n, invariants)` vanishes on the brackets of every massless point, over a field of
characteristic zero, at which the invariants vanish and, unless momentum conservation is switched off, momentum is conserved. -/
theorem C103_vanishes {K : Type*} [Field K] [CharZero K] (cF : Ctx F) (x : Comp n → F) (hx : AlgebraicIndependent ℤ x) (ps₀ : Point F n)
    (h0 : ∃ r l, Spin cF ps₀ r l) (elim : List (MvPolynomial (Mixed n) ℤ) → List (MvPolynomial (BrkVar n) ℤ)) (he : Eliminates elim)
    (covs : List (Cov n)) (mc : Bool) (J : List (MvPolynomial (BrkVar n) ℤ)) (h : spinorGens cF x ps₀ elim covs mc = .ok J)
    (c : Ctx K) (ps : Point K n) (r l : Fin n → V2 K) (hs : Spin c ps r l) (hz : ∀ s ∈ covs, CovZero ps s) (hc : mc = true → Conserves ps)
    (w : BrkVar n → K) (hw : BrkVals r l w) (Q : MvPolynomial (BrkVar n) ℚ) (hQ : Q ∈ SpecIdeal J) : eval₂ (Rat.castHom K) w Q = 0 := by
  have : NeZero (2 : K) := ⟨two_ne_zero⟩
  obtain ⟨L, hL, hm⟩ := spinorGens_inv hx h0 he h
  have hzero := (C102_zero_locus cF x hx ps₀ h0 covs mc L hL c ps r l hs).mpr ⟨hz, hc⟩
  have hker : substB (rename Sum.inr Q) ∈ RingHom.ker (eval₂Hom (Rat.castHom K) (SpecComps r l)) := by
    refine Ideal.span_le.mpr ?_ ((hm Q).mp hQ)
    rintro R ⟨P', hP', rfl⟩
    have := hzero P' hP'
    rw [SetLike.mem_coe, RingHom.mem_ker, coe_eval₂Hom, eval₂_map]
    rw [aeval_def] at this
    rw [← this]
    congr 1
    exact RingHom.ext_int _ _
  rw [RingHom.mem_ker] at hker
  rw [← hker, substB, aeval_rename, Sum.elim_comp_inr]
  have : ((eval₂Hom (Rat.castHom K) (SpecComps r l)).comp
      (aeval (R := ℚ) fun b : BrkVar n => (brkPoly b.1 (pairFst b.2) (pairSnd b.2)).map (Int.castRingHom ℚ)).toRingHom) = eval₂Hom (Rat.castHom K) w := by
    refine MvPolynomial.ringHom_ext (fun q => ?_) fun b => ?_
    · simp
    · rw [RingHom.comp_apply]
      have e1 : (aeval (R := ℚ) fun b : BrkVar n => (brkPoly b.1 (pairFst b.2) (pairSnd b.2)).map (Int.castRingHom ℚ)).toRingHom (X b) =
          (brkPoly b.1 (pairFst b.2) (pairSnd b.2)).map (Int.castRingHom ℚ) := by simp
      rw [e1, coe_eval₂Hom, eval₂_map, coe_eval₂Hom, eval₂_X, hw b.1 b.2 _ _ (pair_spec b.2), ← brkPoly_comps, aeval_def]
      congr 1
      exact RingHom.ext_int _ _
  exact (congrArg (fun f => f Q) this).symm

omit [NeZero (2 : F)] in
theorem specVar_subst {ang : Bool} {i j : Fin n} {Q : MvPolynomial (BrkVar n) ℚ} (h : SpecVar ang i j Q) :
    substB (rename Sum.inr Q) = (brkPoly ang i j).map (Int.castRingHom ℚ) := by
  rcases h with ⟨t, ht, rfl⟩ | ⟨t, ht, rfl⟩ | ⟨rfl, rfl⟩
  · obtain ⟨rfl, rfl⟩ := pairAt_unique ht (pair_spec t)
    simp [substB]
  · obtain ⟨rfl, rfl⟩ := pairAt_unique ht (pair_spec t)
    cases ang <;> simp [substB, brkPoly] <;> ring
  · cases ang <;> simp [brkPoly] <;> ring

/-- **C103.** The Schouten identities are in every `SpinorIdeal`. -/
theorem C103_schouten (cF : Ctx F) (x : Comp n → F) (hx : AlgebraicIndependent ℤ x) (ps₀ : Point F n) (h0 : ∃ r l, Spin cF ps₀ r l)
    (elim : List (MvPolynomial (Mixed n) ℤ) → List (MvPolynomial (BrkVar n) ℤ)) (he : Eliminates elim) (covs : List (Cov n)) (mc : Bool)
    (J : List (MvPolynomial (BrkVar n) ℤ)) (h : spinorGens cF x ps₀ elim covs mc = .ok J) (ang : Bool) (i j k m : Fin n)
    (ij km ik mj im jk : MvPolynomial (BrkVar n) ℚ) (h1 : SpecVar ang i j ij) (h2 : SpecVar ang k m km) (h3 : SpecVar ang i k ik)
    (h4 : SpecVar ang m j mj) (h5 : SpecVar ang i m im) (h6 : SpecVar ang j k jk) : ij * km + ik * mj + im * jk ∈ SpecIdeal J := by
  obtain ⟨L, -, hm⟩ := spinorGens_inv hx h0 he h
  rw [hm]
  simp only [map_add, map_mul, specVar_subst h1, specVar_subst h2, specVar_subst h3, specVar_subst h4, specVar_subst h5, specVar_subst h6]
  have : (brkPoly ang i j).map (Int.castRingHom ℚ) * (brkPoly ang k m).map (Int.castRingHom ℚ) +
      (brkPoly ang i k).map (Int.castRingHom ℚ) * (brkPoly ang m j).map (Int.castRingHom ℚ) +
      (brkPoly ang i m).map (Int.castRingHom ℚ) * (brkPoly ang j k).map (Int.castRingHom ℚ) = 0 := by
    cases ang <;> simp [brkPoly] <;> ring
  rw [this]
  exact Submodule.zero_mem _

/-- **C103.** So is momentum conservation `∑ ⟨i|k⟩[k|j] = 0`, unless it is switched off. -/
theorem C103_momentum (cF : Ctx F) (x : Comp n → F) (hx : AlgebraicIndependent ℤ x) (ps₀ : Point F n) (h0 : ∃ r l, Spin cF ps₀ r l)
    (elim : List (MvPolynomial (Mixed n) ℤ) → List (MvPolynomial (BrkVar n) ℤ)) (he : Eliminates elim) (covs : List (Cov n))
    (J : List (MvPolynomial (BrkVar n) ℤ)) (h : spinorGens cF x ps₀ elim covs true = .ok J) (i j : Fin n)
    (A B : Fin n → MvPolynomial (BrkVar n) ℚ) (hA : ∀ k, SpecVar true i k (A k)) (hB : ∀ k, SpecVar false k j (B k)) :
    ∑ k, A k * B k ∈ SpecIdeal J := by
  obtain ⟨L, hL, hm⟩ := spinorGens_inv hx h0 he h
  obtain ⟨Gs, -, rfl⟩ := lipsGens_inv hx h0 hL
  rw [hm]
  simp only [map_sum, map_mul, specVar_subst (hA _), specVar_subst (hB _)]
  have mem : ∀ P ∈ rMom (n := n) genR genL, P.map (Int.castRingHom ℚ) ∈ SpecIdeal (Gs.flatten ++ if true then rMom genR genL else []) :=
    fun P hP => Ideal.subset_span ⟨P, List.mem_append_right _ hP, rfl⟩
  have e : ∑ k, (brkPoly true i k).map (Int.castRingHom ℚ) * (brkPoly false k j).map (Int.castRingHom ℚ) =
      X (i, 1) * X (j, 3) * ((∑ k, rMat genR genL false k : M2 (MvPolynomial (Comp n) ℤ)) 1 1).map (Int.castRingHom ℚ) +
      X (i, 1) * X (j, 2) * ((∑ k, rMat genR genL false k : M2 (MvPolynomial (Comp n) ℤ)) 0 1).map (Int.castRingHom ℚ) +
      X (i, 0) * X (j, 3) * ((∑ k, rMat genR genL false k : M2 (MvPolynomial (Comp n) ℤ)) 1 0).map (Int.castRingHom ℚ) +
      X (i, 0) * X (j, 2) * ((∑ k, rMat genR genL false k : M2 (MvPolynomial (Comp n) ℤ)) 0 0).map (Int.castRingHom ℚ) := by
    simp only [Matrix.sum_apply, map_sum, Finset.mul_sum, ← Finset.sum_add_distrib]
    refine Finset.sum_congr rfl fun k _ => ?_
    simp [brkPoly, rMat, genR, genL]
    ring
  rw [e]
  refine Submodule.add_mem _ (Submodule.add_mem _ (Submodule.add_mem _ ?_ ?_) ?_) ?_ <;>
    exact Ideal.mul_mem_left _ _ (mem _ (by simp [rMom]))

end

end Lips

import Verif.Lemmas.Ideal
import Verif.Props.SetString
import Mathlib.Algebra.MvPolynomial.CommRing

/-!
# C102: the equations handed to Singular are those of the covariants

Covered code: `LipsIdeal.__init__`, `LipsIdeal.__contains__` (lips/algebraic_geometry/covariant_ideal.py:20-69), `_singular_variety`
(lips/algebraic_geometry/particles_singular_variety.py:15-37).
-/

namespace Lips

open Matrix MvPolynomial

/-! ### Specification -/

section spec
variable {K : Type*} [Field K] {n : ℕ}

/-- The components `a`, `b`, `c`, `d` of all particles. -/
def SpecComps (r l : Fin n → V2 K) (t : Comp n) : K := ![r t.1 0, r t.1 1, l t.1 0, l t.1 1] t.2

/-- A covariant can be computed and all its entries are zero. -/
def CovZero (ps : Point K n) (s : Cov n) : Prop := ∃ vs, s.value ps = .ok vs ∧ ∀ v ∈ vs, v = 0

/-- A common zero of some polynomials. -/
def ZeroOf (G : List (MvPolynomial (Comp n) ℤ)) (v : Comp n → K) : Prop := ∀ P ∈ G, aeval v P = 0

/-- A dictionary has the values `v` for the components. -/
def Lists (d : Dict K) (v : Comp n → K) : Prop := ∀ (k : Fin n) (j : Fin 4), d (symbolName (SpecLetter j) k) = some (v (k, j))

/-- What `point_on_variety` returns is a common zero of the ideal and of the ideal divided out. -/
def Solves (solve : List (MvPolynomial (Comp n) ℤ) → List (MvPolynomial (Comp n) ℤ) → Except Err (Dict K)) : Prop :=
  ∀ G Z d, solve G Z = .ok d → ∃ v : Comp n → K, Lists d v ∧ ZeroOf G v ∧ ZeroOf Z v

end spec

/-! ### Helper lemmas -/

theorem both_ok {α β γ : Type*} {f : α → β → γ} {x : Except Err α} {y : Except Err β} {z : γ} :
    both f x y = .ok z ↔ ∃ a b, x = .ok a ∧ y = .ok b ∧ z = f a b := by
  cases x <;> cases y <;> simp [both, eq_comm]

theorem map_ok {α β : Type*} {f : α → β} {x : Except Err α} {z : β} : x.map f = .ok z ↔ ∃ a, x = .ok a ∧ z = f a := by
  cases x <;> simp [Except.map, eq_comm]

theorem eachOf_ok {α β : Type*} {f : α → Except Err β} {xs : List α} {ys : List β} :
    eachOf f xs = .ok ys ↔ List.Forall₂ (fun x y => f x = .ok y) xs ys := by
  induction xs generalizing ys with
  | nil => cases ys <;> simp [eachOf]
  | cons x xs ih =>
    rw [eachOf, both_ok, List.forall₂_cons_left_iff]
    constructor
    · rintro ⟨a, b, h1, h2, rfl⟩; exact ⟨a, b, h1, ih.mp h2, rfl⟩
    · rintro ⟨a, b, h1, h2, rfl⟩; exact ⟨a, b, h1, ih.mpr h2, rfl⟩

theorem eachOf_exists {α β : Type*} {f : α → Except Err β} {xs : List α} (h : ∀ x ∈ xs, ∃ y, f x = .ok y) :
    ∃ ys, eachOf f xs = .ok ys := by
  induction xs with
  | nil => exact ⟨[], rfl⟩
  | cons x xs ih =>
    obtain ⟨y, hy⟩ := h x List.mem_cons_self
    obtain ⟨ys, hys⟩ := ih fun z hz => h z (List.mem_cons_of_mem _ hz)
    exact ⟨y :: ys, by rw [eachOf, hy, hys]; rfl⟩

section
variable {F : Type*} [Field F] {n : ℕ}

/-- The spinors made of variables. -/
noncomputable def genR (k : Fin n) : V2 (MvPolynomial (Comp n) ℤ) := ![X (k, 0), X (k, 1)]

noncomputable def genL (k : Fin n) : V2 (MvPolynomial (Comp n) ℤ) := ![X (k, 2), X (k, 3)]

theorem genR_map {K : Type*} [CommRing K] (v : Comp n → K) : mapV (aeval (R := ℤ) v).toRingHom genR = fun k => ![v (k, 0), v (k, 1)] := by
  funext k j; fin_cases j <;> simp [mapV, genR]

theorem genL_map {K : Type*} [CommRing K] (v : Comp n → K) : mapV (aeval (R := ℤ) v).toRingHom genL = fun k => ![v (k, 2), v (k, 3)] := by
  funext k j; fin_cases j <;> simp [mapV, genL]

theorem genR_comps {K : Type*} [Field K] (r l : Fin n → V2 K) : mapV (aeval (R := ℤ) (SpecComps r l)).toRingHom genR = r := by
  rw [genR_map]; funext k j; fin_cases j <;> simp [SpecComps]

theorem genL_comps {K : Type*} [Field K] (r l : Fin n → V2 K) : mapV (aeval (R := ℤ) (SpecComps r l)).toRingHom genL = l := by
  rw [genL_map]; funext k j; fin_cases j <;> simp [SpecComps]

theorem polyOf_ok {x : Comp n → F} (hx : AlgebraicIndependent ℤ x) {y : F} {P : MvPolynomial (Comp n) ℤ} :
    polyOf x y = .ok P ↔ aeval x P = y := by
  constructor
  · intro h
    unfold polyOf at h
    split at h
    · rename_i hh; cases h; exact hh.choose_spec
    · cases h
  · intro h
    have hh : ∃ P : MvPolynomial (Comp n) ℤ, aeval x P = y := ⟨P, h⟩
    rw [polyOf, dif_pos hh]
    exact congrArg Except.ok (hx (hh.choose_spec.trans h.symm))

theorem polyText_ok {x : Comp n → F} (hx : AlgebraicIndependent ℤ x) {y : F} {P : MvPolynomial (Comp n) ℤ} :
    polyText x y = .ok P ↔ aeval x P = y ∧ ∀ z : ℤ, y ≠ z := by
  unfold polyText
  by_cases h : ∃ z : ℤ, y = z
  · rw [if_pos h]
    obtain ⟨z, hz⟩ := h
    constructor
    · intro h; cases h
    · intro h; exact absurd hz (h.2 z)
  · rw [if_neg h, polyOf_ok hx]
    exact ⟨fun h' => ⟨h', fun z hz => h ⟨z, hz⟩⟩, fun h' => h'.1⟩

theorem forall₂_polyText {x : Comp n → F} (hx : AlgebraicIndependent ℤ x) {Ps Qs : List (MvPolynomial (Comp n) ℤ)} :
    List.Forall₂ (fun y P => polyText x y = .ok P) (Ps.map (aeval x)) Qs ↔ Qs = Ps ∧ ∀ y ∈ Ps.map (aeval x), ∀ z : ℤ, y ≠ z := by
  induction Ps generalizing Qs with
  | nil => simp
  | cons P Ps ih =>
    rw [List.map_cons, List.forall₂_cons_left_iff]
    constructor
    · rintro ⟨b, u, h1, h2, rfl⟩
      obtain ⟨e1, e2⟩ := (polyText_ok hx).mp h1
      obtain ⟨rfl, h3⟩ := ih.mp h2
      rw [hx e1]
      exact ⟨rfl, by simpa using ⟨e2, by simpa using h3⟩⟩
    · rintro ⟨rfl, h⟩
      exact ⟨P, Ps, (polyText_ok hx).mpr ⟨rfl, h _ List.mem_cons_self⟩, ih.mpr ⟨rfl, fun y hy => h y (List.mem_cons_of_mem _ hy)⟩, rfl⟩

theorem forall₂_polyOf {x : Comp n → F} (hx : AlgebraicIndependent ℤ x) {Ps Qs : List (MvPolynomial (Comp n) ℤ)} :
    List.Forall₂ (fun y P => polyOf x y = .ok P) (Ps.map (aeval x)) Qs ↔ Qs = Ps := by
  induction Ps generalizing Qs with
  | nil => simp
  | cons P Ps ih =>
    rw [List.map_cons, List.forall₂_cons_left_iff]
    constructor
    · rintro ⟨b, u, h1, h2, rfl⟩
      rw [hx ((polyOf_ok hx).mp h1), ih.mp h2]
    · rintro rfl
      exact ⟨P, Ps, (polyOf_ok hx).mpr rfl, ih.mpr rfl, rfl⟩

/-- Four times a covariant at the point made of symbols. -/
theorem over4_sym [NeZero (2 : F)] {cF : Ctx F} {x : Comp n → F} {qs : Point F n}
    (hq : Spin cF qs (fun k => ![x (k, 0), x (k, 1)]) (fun k => ![x (k, 2), x (k, 3)])) (s : Cov n) :
    (s.value qs).map (List.map (4 * ·)) = (s.over4 genR genL).map (List.map (aeval x)) := by
  rw [hq.cov_eq, ← genR_map x, ← genL_map x, Cov.over4_map]
  rfl

theorem covGens_ok [NeZero (2 : F)] {cF : Ctx F} {x : Comp n → F} (hx : AlgebraicIndependent ℤ x) {qs : Point F n}
    (hq : Spin cF qs (fun k => ![x (k, 0), x (k, 1)]) (fun k => ![x (k, 2), x (k, 3)])) (s : Cov n) (Ps : List (MvPolynomial (Comp n) ℤ)) :
    covGens x qs s = .ok Ps ↔ s.over4 genR genL = .ok Ps ∧ ∃ vs, s.value qs = .ok vs ∧ ∀ v ∈ vs, ∀ z : ℤ, 4 * v ≠ z := by
  have e := over4_sym hq s
  unfold covGens
  rcases hv : s.value qs with er | vs
  · rw [hv] at e
    simp
  · rw [hv] at e
    obtain ⟨Qs, hQ, hQ'⟩ := map_ok.mp (e.symm : Except.map _ _ = .ok (vs.map (4 * ·)))
    simp only [eachOf_ok]
    rw [hQ', forall₂_polyText hx, hQ, ← hQ']
    constructor
    · rintro ⟨rfl, h⟩
      exact ⟨rfl, vs, rfl, fun v hv z => h _ (List.mem_map_of_mem hv) z⟩
    · rintro ⟨h, vs', h', h2⟩
      cases h; cases h'
      refine ⟨rfl, fun y hy z => ?_⟩
      obtain ⟨v, hv, rfl⟩ := List.mem_map.mp hy
      exact h2 v hv z

theorem momGens_ok {cF : Ctx F} {x : Comp n → F} (hx : AlgebraicIndependent ℤ x) {qs : Point F n}
    (hq : Spin cF qs (fun k => ![x (k, 0), x (k, 1)]) (fun k => ![x (k, 2), x (k, 3)])) (Ps : List (MvPolynomial (Comp n) ℤ)) :
    eachOf (polyText x) (momEntries qs) = .ok Ps ↔ Ps = rMom genR genL ∧ ∀ v ∈ momEntries qs, ∀ z : ℤ, v ≠ z := by
  have e : momEntries qs = (rMom genR genL).map (aeval x) := by
    rw [hq.mom_eq, ← genR_map x, ← genL_map x, rMom_map]; rfl
  rw [e, eachOf_ok, forall₂_polyText hx]

end

section
variable {F K : Type*} [Field F] [Field K] {n : ℕ}

theorem over4_eval [NeZero (2 : K)] {c : Ctx K} {ps : Point K n} {r l : Fin n → V2 K} (h : Spin c ps r l) (s : Cov n) :
    (s.value ps).map (List.map (4 * ·)) = (s.over4 genR genL).map (List.map (aeval (SpecComps r l))) := by
  have e := Cov.over4_map (aeval (R := ℤ) (SpecComps r l)).toRingHom genR genL s
  rw [genR_comps, genL_comps] at e
  rw [h.cov_eq, e]
  rfl

theorem mom_eval {c : Ctx K} {ps : Point K n} {r l : Fin n → V2 K} (h : Spin c ps r l) :
    momEntries ps = (rMom genR genL).map (aeval (SpecComps r l)) := by
  have e := rMom_map (aeval (R := ℤ) (SpecComps r l)).toRingHom genR genL
  rw [genR_comps, genL_comps] at e
  rw [h.mom_eq, e]
  rfl

theorem momEntries_zero (ps : Point K n) : (∀ v ∈ momEntries ps, v = 0) ↔ Conserves ps := by
  have e : ∀ i j, totalMom ps i j = ∑ k, (ps k).r2 i j := fun i j => by rw [totalMom, Matrix.sum_apply]
  constructor
  · intro h i j
    rw [← e]
    fin_cases i <;> fin_cases j <;> exact h _ (by simp [momEntries])
  · intro h v hv
    simp only [momEntries, e, List.mem_cons, List.not_mem_nil, or_false] at hv
    rcases hv with rfl | rfl | rfl | rfl <;> exact h _ _

theorem four_ne [NeZero (2 : K)] : (4 : K) ≠ 0 := by
  have h2 : (2 : K) ≠ 0 := NeZero.ne _
  have : (4 : K) = 2 * 2 := by norm_num
  rw [this]; exact mul_ne_zero h2 h2

variable [NeZero (2 : F)]

/-- What a run of the constructor that ends gives. -/
theorem lipsGens_inv {cF : Ctx F} {x : Comp n → F} (hx : AlgebraicIndependent ℤ x) {ps₀ : Point F n} (h0 : ∃ r l, Spin cF ps₀ r l)
    {covs : List (Cov n)} {mc : Bool} {G : List (MvPolynomial (Comp n) ℤ)} (h : lipsGens cF x ps₀ covs mc = .ok G) :
    ∃ Gs, List.Forall₂ (fun s Ps => s.over4 genR genL = .ok Ps) covs Gs ∧ G = Gs.flatten ++ if mc then rMom genR genL else [] := by
  obtain ⟨r₀, l₀, hs⟩ := h0
  obtain ⟨qs, e, hq⟩ := C84_default cF ps₀ r₀ l₀ hs fun k j => x (k, j)
  rw [lipsGens, e] at h
  obtain ⟨Gs, M, h1, h2, rfl⟩ := both_ok.mp h
  refine ⟨Gs, (eachOf_ok.mp h1).imp fun s Ps hp => ((covGens_ok hx hq s Ps).mp hp).1, ?_⟩
  cases mc
  · simp only [Bool.false_eq_true, if_false, Except.ok.injEq] at h2 ⊢
    rw [h2]
  · simp only [if_true] at h2 ⊢
    rw [((momGens_ok hx hq M).mp h2).1]

/-! ### Theorems -/

/-- C102: the polynomials have, at the components of any point over any field, the values of four times the covariants, in
order, and then those of the entries of the total momentum. -/
theorem C102_values [NeZero (2 : K)] (cF : Ctx F) (x : Comp n → F) (hx : AlgebraicIndependent ℤ x) (ps₀ : Point F n)
    (h0 : ∃ r l, Spin cF ps₀ r l) (covs : List (Cov n)) (mc : Bool) (G : List (MvPolynomial (Comp n) ℤ))
    (h : lipsGens cF x ps₀ covs mc = .ok G) (c : Ctx K) (ps : Point K n) (r l : Fin n → V2 K) (hs : Spin c ps r l) :
    ∃ vss : List (List K), List.Forall₂ (fun s vs => s.value ps = .ok vs) covs vss ∧
      G.map (aeval (SpecComps r l)) = vss.flatten.map (4 * ·) ++
        if mc then [∑ k, (ps k).r2 0 0, ∑ k, (ps k).r2 0 1, ∑ k, (ps k).r2 1 0, ∑ k, (ps k).r2 1 1] else [] := by
  obtain ⟨Gs, hG, rfl⟩ := lipsGens_inv hx h0 h
  have key : ∃ vss : List (List K), List.Forall₂ (fun s vs => s.value ps = .ok vs) covs vss ∧
      Gs.flatten.map (aeval (SpecComps r l)) = vss.flatten.map (4 * ·) := by
    clear h
    induction hG with
    | nil => exact ⟨[], .nil, rfl⟩
    | @cons s Ps covs' Gs' h1 _ ih =>
      obtain ⟨vss, i1, i2⟩ := ih
      have e := over4_eval hs s
      rw [h1] at e
      obtain ⟨vs, hv, hv'⟩ := map_ok.mp (e : Except.map _ _ = .ok (Ps.map (aeval (SpecComps r l))))
      exact ⟨vs :: vss, .cons hv i1, by rw [List.flatten_cons, List.flatten_cons, List.map_append, List.map_append, i2, ← hv']⟩
  obtain ⟨vss, k1, k2⟩ := key
  refine ⟨vss, k1, ?_⟩
  rw [List.map_append, k2]
  congr 1
  cases mc
  · rfl
  · simp only [if_true]
    rw [← mom_eval hs]
    simp only [momEntries, totalMom, Matrix.sum_apply]

/-- C102: a point is a common zero of the polynomials exactly if all covariants vanish there and, when asked for, momentum is
conserved. -/
theorem C102_zero_locus [NeZero (2 : K)] (cF : Ctx F) (x : Comp n → F) (hx : AlgebraicIndependent ℤ x) (ps₀ : Point F n)
    (h0 : ∃ r l, Spin cF ps₀ r l) (covs : List (Cov n)) (mc : Bool) (G : List (MvPolynomial (Comp n) ℤ))
    (h : lipsGens cF x ps₀ covs mc = .ok G) (c : Ctx K) (ps : Point K n) (r l : Fin n → V2 K) (hs : Spin c ps r l) :
    ZeroOf G (SpecComps r l) ↔ (∀ s ∈ covs, CovZero ps s) ∧ (mc = true → Conserves ps) := by
  obtain ⟨vss, h1, h2⟩ := C102_values cF x hx ps₀ h0 covs mc G h c ps r l hs
  have z : ZeroOf G (SpecComps r l) ↔ ∀ v ∈ G.map (aeval (SpecComps r l)), v = 0 := by
    constructor
    · intro h v hv
      obtain ⟨P, hP, rfl⟩ := List.mem_map.mp hv
      exact h P hP
    · intro h P hP
      exact h _ (List.mem_map_of_mem hP)
  rw [z, h2]
  simp only [List.mem_append, or_imp, forall_and]
  refine and_congr ?_ ?_
  · clear h h2 z
    induction h1 with
    | nil => simp
    | @cons s vs covs' vss' e _ ih =>
      rw [List.flatten_cons, List.map_append, List.forall_mem_cons]
      simp only [List.mem_append, or_imp, forall_and]
      refine and_congr ?_ ih
      constructor
      · intro h
        refine ⟨vs, e, fun v hv => ?_⟩
        have := h (4 * v) (List.mem_map_of_mem hv)
        exact (mul_eq_zero.mp this).resolve_left four_ne
      · rintro ⟨vs', e', hz⟩ y hy
        rw [e] at e'
        cases e'
        obtain ⟨v, hv, rfl⟩ := List.mem_map.mp hy
        rw [hz v hv, mul_zero]
  · cases mc
    · simp
    · rw [← momEntries_zero]
      simp only [if_true, forall_const]
      simp only [momEntries, totalMom, Matrix.sum_apply]

/-- C102: the constructor ends without an error exactly if every covariant can be computed with symbols, and no entry of one, nor of the
total momentum if asked for, is a mere number. -/
theorem C102_defined (cF : Ctx F) (x : Comp n → F) (hx : AlgebraicIndependent ℤ x) (ps₀ : Point F n)
    (h0 : ∃ r l, Spin cF ps₀ r l) (covs : List (Cov n)) (mc : Bool) :
    ∃ qs, makeAnalytical cF ps₀ none (fun k j => x (k, j)) = .ok qs ∧
      ((∃ G, lipsGens cF x ps₀ covs mc = .ok G) ↔
        (∀ s ∈ covs, ∃ vs, s.value qs = .ok vs ∧ ∀ v ∈ vs, ∀ z : ℤ, 4 * v ≠ z) ∧
        (mc = true → ∀ i j, ∀ z : ℤ, ∑ k, (qs k).r2 i j ≠ z)) := by
  obtain ⟨r₀, l₀, hs⟩ := h0
  obtain ⟨qs, e, hq⟩ := C84_default cF ps₀ r₀ l₀ hs fun k j => x (k, j)
  have em : (∀ v ∈ momEntries qs, ∀ z : ℤ, v ≠ z) ↔ ∀ i j, ∀ z : ℤ, ∑ k, (qs k).r2 i j ≠ z := by
    have e : ∀ i j, totalMom qs i j = ∑ k, (qs k).r2 i j := fun i j => by rw [totalMom, Matrix.sum_apply]
    constructor
    · intro h i j z
      rw [← e]
      fin_cases i <;> fin_cases j <;> exact h _ (by simp [momEntries]) z
    · intro h v hv z
      simp only [momEntries, e, List.mem_cons, List.not_mem_nil, or_false] at hv
      rcases hv with rfl | rfl | rfl | rfl <;> exact h _ _ z
  refine ⟨qs, e, ?_⟩
  rw [lipsGens, e]
  simp only [both_ok]
  constructor
  · rintro ⟨_, Gs, M, h1, h2, rfl⟩
    constructor
    · intro s hs
      obtain ⟨hl, hg⟩ := List.forall₂_iff_get.mp (eachOf_ok.mp h1)
      obtain ⟨i, hi, rfl⟩ := List.mem_iff_getElem.mp hs
      exact ((covGens_ok hx hq _ _).mp (hg i hi (hl ▸ hi))).2
    · rintro rfl
      simp only [if_true] at h2
      exact em.mp ((momGens_ok hx hq M).mp h2).2
  · rintro ⟨h1, h2⟩
    obtain ⟨Gs, hG⟩ := eachOf_exists (f := covGens x qs) (xs := covs) fun s hs => by
      obtain ⟨vs, hv, hz⟩ := h1 s hs
      have e := over4_sym hq s
      rw [hv] at e
      obtain ⟨Qs, hQ, -⟩ := map_ok.mp (e.symm : Except.map _ _ = .ok (vs.map (4 * ·)))
      exact ⟨Qs, (covGens_ok hx hq s Qs).mpr ⟨hQ, vs, hv, hz⟩⟩
    cases mc
    · exact ⟨_, Gs, [], hG, rfl, rfl⟩
    · exact ⟨_, Gs, _, hG, (momGens_ok hx hq _).mpr ⟨rfl, em.mpr (h2 rfl)⟩, rfl⟩

omit [NeZero (2 : F)] in
theorem lists_comps {c : Ctx K} {ps : Point K n} {d : Dict K} {v : Comp n → K} [NeZero (2 : K)] (hd : Lists d v) :
    ∃ ps', updateParticles c ps d = .ok ps' ∧ Spin c ps' (fun k => ![v (k, 0), v (k, 1)]) (fun k => ![v (k, 2), v (k, 3)]) ∧
      SpecComps (fun k => ![v (k, 0), v (k, 1)]) (fun k => ![v (k, 2), v (k, 3)]) = v := by
  obtain ⟨ps', d', e, -, hm, -⟩ := C76_write_then_read c ps d (fun k j => v (k, j)) hd
  refine ⟨ps', e, hm, ?_⟩
  funext ⟨k, j⟩
  fin_cases j <;> simp [SpecComps]

/-- C102: `_singular_variety` leaves a massless point with conserved momentum at which all invariants vanish, or all the
generators when some are given; whatever the point was. -/
theorem C102_singular_variety [NeZero (2 : K)] (cF : Ctx F) (x : Comp n → F) (hx : AlgebraicIndependent ℤ x) (ps₀ : Point F n)
    (h0 : ∃ r l, Spin cF ps₀ r l) (c : Ctx K)
    (solve : List (MvPolynomial (Comp n) ℤ) → List (MvPolynomial (Comp n) ℤ) → Except Err (Dict K)) (hsolve : Solves solve)
    (covs : List (Cov n)) (own : List (MvPolynomial (Comp n) ℤ)) (ps ps' : Point K n)
    (h : singularVariety cF x ps₀ c solve covs own ps = .ok ps') :
    Conserves ps' ∧ ∃ r l, Spin c ps' r l ∧ (own = [] → ∀ s ∈ covs, CovZero ps' s) ∧ ZeroOf own (SpecComps r l) := by
  unfold singularVariety at h
  rcases hG : (if own = [] then lipsGens cF x ps₀ covs true else .ok own) with e | G
  · rw [hG] at h; cases h
  rcases hZ : lipsGens cF x ps₀ [] true with e | Z
  · rw [hG, hZ] at h; cases h
  rw [hG, hZ] at h
  simp only at h
  rcases hd : solve G Z with e | d
  · rw [hd] at h; cases h
  rw [hd] at h
  simp only at h
  obtain ⟨v, hl, g1, g2⟩ := hsolve G Z d hd
  obtain ⟨q, e, hs, hv⟩ := lists_comps (c := c) (ps := ps) hl
  rw [e] at h
  obtain rfl : q = ps' := Except.ok.inj h
  rw [← hv] at g1 g2
  refine ⟨((C102_zero_locus cF x hx ps₀ h0 [] true Z hZ c q _ _ hs).mp g2).2 rfl, _, _, hs, ?_, ?_⟩
  · intro ho
    rw [if_pos ho] at hG
    exact ((C102_zero_locus cF x hx ps₀ h0 covs true G hG c q _ _ hs).mp g1).1
  · by_cases ho : own = []
    · rw [ho]; intro P hP; cases hP
    · rw [if_neg ho] at hG
      cases hG
      exact g1

open Classical in
/-- C102: a covariant in the ideal of some polynomials vanishes at each of their common zeros over a field of characteristic zero. -/
theorem C102_contains [CharZero K] (cF : Ctx F) (x : Comp n → F) (hx : AlgebraicIndependent ℤ x) (ps₀ : Point F n)
    (h0 : ∃ r l, Spin cF ps₀ r l) (G : List (MvPolynomial (Comp n) ℤ)) (s : Cov n) (h : lipsContains cF x ps₀ G s = .ok true)
    (c : Ctx K) (ps : Point K n) (r l : Fin n → V2 K) (hs : Spin c ps r l) (hz : ZeroOf G (SpecComps r l)) : CovZero ps s := by
  have : NeZero (2 : K) := ⟨two_ne_zero⟩
  obtain ⟨r₀, l₀, hs₀⟩ := h0
  obtain ⟨qs, e, hq⟩ := C84_default cF ps₀ r₀ l₀ hs₀ fun k j => x (k, j)
  rw [lipsContains, e] at h
  rcases hv : s.value qs with er | vs
  · simp [hv] at h
  simp only [hv] at h
  obtain ⟨Ps, hP, hin⟩ := map_ok.mp h
  have hin := of_decide_eq_true hin.symm
  have e1 := over4_sym hq s
  rw [hv] at e1
  obtain ⟨Qs, hQ, hQ'⟩ := map_ok.mp (e1.symm : Except.map _ _ = .ok (vs.map (4 * ·)))
  rw [hQ', eachOf_ok, forall₂_polyOf hx] at hP
  subst hP
  have e2 := over4_eval hs s
  rw [hQ] at e2
  obtain ⟨ws, hw, hw'⟩ := map_ok.mp (e2 : Except.map _ _ = .ok (Ps.map (aeval (SpecComps r l))))
  refine ⟨ws, hw, fun w hmem => ?_⟩
  have h4 : 4 * w ∈ Ps.map (aeval (SpecComps r l)) := by rw [hw']; exact List.mem_map_of_mem hmem
  obtain ⟨P, hPm, hPw⟩ := List.mem_map.mp h4
  have hker : P.map (Int.castRingHom ℚ) ∈ RingHom.ker (eval₂Hom (Rat.castHom K) (SpecComps r l)) := by
    refine Ideal.span_le.mpr ?_ (hin P hPm)
    rintro Q ⟨P', hP', rfl⟩
    have := hz P' hP'
    rw [SetLike.mem_coe, RingHom.mem_ker, coe_eval₂Hom, eval₂_map]
    rw [aeval_def] at this
    rw [← this]
    congr 1
    exact RingHom.ext_int _ _
  rw [RingHom.mem_ker, coe_eval₂Hom, eval₂_map] at hker
  have : aeval (SpecComps r l) P = 0 := by
    rw [aeval_def, ← hker]
    congr 1
    exact RingHom.ext_int _ _
  rw [this] at hPw
  exact (mul_eq_zero.mp hPw.symm).resolve_left four_ne

open Classical in
/-- C102: an ideal contains the covariants it was made from. -/
theorem C102_members (cF : Ctx F) (x : Comp n → F) (hx : AlgebraicIndependent ℤ x) (ps₀ : Point F n)
    (h0 : ∃ r l, Spin cF ps₀ r l) (covs : List (Cov n)) (mc : Bool) (G : List (MvPolynomial (Comp n) ℤ))
    (h : lipsGens cF x ps₀ covs mc = .ok G) (s : Cov n) (hs : s ∈ covs) : lipsContains cF x ps₀ G s = .ok true := by
  obtain ⟨Gs, hG, rfl⟩ := lipsGens_inv hx h0 h
  obtain ⟨r₀, l₀, hs₀⟩ := h0
  obtain ⟨qs, e, hq⟩ := C84_default cF ps₀ r₀ l₀ hs₀ fun k j => x (k, j)
  obtain ⟨i, hi, rfl⟩ := List.mem_iff_getElem.mp hs
  obtain ⟨hl, hg⟩ := List.forall₂_iff_get.mp hG
  have hi' : i < Gs.length := hl ▸ hi
  have h4 : covs[i].over4 genR genL = .ok Gs[i] := hg i hi hi'
  have e1 := over4_sym hq covs[i]
  rw [h4] at e1
  obtain ⟨vs, hv, hv'⟩ := map_ok.mp (e1 : Except.map _ _ = .ok (Gs[i].map (aeval x)))
  rw [lipsContains, e]
  simp only [hv]
  rw [← hv', (eachOf_ok.mpr ((forall₂_polyOf hx).mpr rfl))]
  refine congrArg Except.ok (decide_eq_true fun P hP => Ideal.subset_span ⟨P, ?_, rfl⟩)
  exact List.mem_append_left _ (List.mem_flatten.mpr ⟨_, List.getElem_mem hi', hP⟩)

end

end Lips

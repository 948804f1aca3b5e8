import Verif.Props.SliceRun
import Verif.Examples.Ideal

/-! Concrete cases for C105. -/

namespace Lips

open Matrix MvPolynomial

/-- Rational functions over the field with thirteen elements in `t` and the parameters of two particles. -/
def SliceF := FractionRing (MvPolynomial (Option (Fin 2 ⊕ Fin 2)) F13)

noncomputable instance : Field SliceF := inferInstanceAs (Field (FractionRing (MvPolynomial (Option (Fin 2 ⊕ Fin 2)) F13)))

noncomputable instance : Algebra (MvPolynomial (Option (Fin 2 ⊕ Fin 2)) F13) SliceF :=
  inferInstanceAs (Algebra (MvPolynomial (Option (Fin 2 ⊕ Fin 2)) F13) (FractionRing (MvPolynomial (Option (Fin 2 ⊕ Fin 2)) F13)))

noncomputable instance : Algebra F13 SliceF :=
  ((algebraMap (MvPolynomial (Option (Fin 2 ⊕ Fin 2)) F13) SliceF).comp C).toAlgebra

instance : IsScalarTower F13 (MvPolynomial (Option (Fin 2 ⊕ Fin 2)) F13) SliceF := .of_algebraMap_eq fun _ => rfl

theorem sliceF_injective : Function.Injective (algebraMap (MvPolynomial (Option (Fin 2 ⊕ Fin 2)) F13) SliceF) :=
  IsFractionRing.injective (MvPolynomial (Option (Fin 2 ⊕ Fin 2)) F13) (FractionRing (MvPolynomial (Option (Fin 2 ⊕ Fin 2)) F13))

/-- The symbols. -/
noncomputable def sliceT : SliceF := algebraMap (MvPolynomial (Option (Fin 2 ⊕ Fin 2)) F13) SliceF (X none)

noncomputable def sliceX (i : Fin 2 ⊕ Fin 2) : SliceF := algebraMap (MvPolynomial (Option (Fin 2 ⊕ Fin 2)) F13) SliceF (X (some i))

theorem slice_indep : AlgebraicIndependent F13 fun o : Option (Fin 2 ⊕ Fin 2) => o.elim sliceT sliceX := by
  have e : (fun o : Option (Fin 2 ⊕ Fin 2) => o.elim sliceT sliceX) =
      fun o => algebraMap (MvPolynomial (Option (Fin 2 ⊕ Fin 2)) F13) SliceF (X o) := by funext o; cases o <;> rfl
  rw [e]
  intro P Q h
  have a : ∀ P : MvPolynomial (Option (Fin 2 ⊕ Fin 2)) F13,
      aeval (fun o => algebraMap (MvPolynomial (Option (Fin 2 ⊕ Fin 2)) F13) SliceF (X o)) P = algebraMap _ SliceF P := by
    intro P
    have : (aeval fun o => algebraMap (MvPolynomial (Option (Fin 2 ⊕ Fin 2)) F13) SliceF (X o)) =
        IsScalarTower.toAlgHom F13 (MvPolynomial (Option (Fin 2 ⊕ Fin 2)) F13) SliceF := by
      ext o; simp
    rw [this]; rfl
  rw [a, a] at h
  exact sliceF_injective h

/-- Two opposite momenta with the same right spinor. -/
def sliceR (_ : Fin 2) : V2 F13 := ![1, 0]

def sliceL (k : Fin 2) : V2 F13 := if k = 0 then ![1, 2] else ![-1, -2]

/-- The components as a dictionary. -/
def sliceDict : Dict F13 := fun key =>
  if key = ['a', '1'] ∨ key = ['a', '2'] ∨ key = ['c', '1'] then some 1
  else if key = ['b', '1'] ∨ key = ['b', '2'] then some 0
  else if key = ['d', '1'] then some 2
  else if key = ['c', '2'] then some (-1)
  else if key = ['d', '2'] then some (-2)
  else none

theorem sliceDict_lists : Lists sliceDict (SpecComps sliceR sliceL) := by unfold Lists; decide +kernel

open Classical in
/-- A solver that knows one point. -/
noncomputable def sliceSolve (G Z : List (MvPolynomial (Comp 2) ℤ)) : Except Err (Dict F13) :=
  if ZeroOf G (SpecComps sliceR sliceL) ∧ ZeroOf Z (SpecComps sliceR sliceL) then .ok sliceDict else .error .exception

theorem sliceSolve_solves : Solves sliceSolve := by
  intro G Z d h
  unfold sliceSolve at h
  split at h
  · rename_i hh; cases h; exact ⟨_, sliceDict_lists, hh⟩
  · cases h

/-- Values of the parameters. -/
def sliceP : Fin 2 ⊕ Fin 2 → F13 := Sum.elim (fun _ => 1) fun k => if k = 0 then 1 else -1

open Classical in
/-- A solver that knows these. -/
noncomputable def sliceParams (G : List (MvPolynomial (Fin 2 ⊕ Fin 2) F13)) (_ : Option ℤ) : Except Err (Fin 2 ⊕ Fin 2 → F13) :=
  if ∀ P ∈ G, eval sliceP P = 0 then .ok sliceP else .error .exception

theorem sliceParams_solves : SolvesParams sliceParams := by
  intro G s v h
  unfold sliceParams at h
  split at h
  · rename_i hh; cases h; exact hh
  · cases h

/-- Arithmetic of expressions. -/
noncomputable def sliceCtx : Ctx SliceF := by
  classical
  exact { conv := .symmetric, small := fun x => x = 0, small_zero := by simp, sqrt := fun _ => none, sqrt_sq := by simp, imag := none,
          imag_sq := by simp }

noncomputable def sliceEnv : SliceEnv SymF F13 2 where
  cS := symCtx
  x := sym2
  ps₀ := symPoint
  c := f13 .symmetric
  solve := sliceSolve

/-- The spinors of the random particle. -/
def sliceη : V2 F13 := ![1, 1]

/-- An expression that has two values is no number. -/
theorem sliceUni_ne {Q : Polynomial (MvPolynomial (Fin 2 ⊕ Fin 2) F13)} (τ τ' : F13) (v v' : Fin 2 ⊕ Fin 2 → F13)
    (h : readUni τ v Q ≠ readUni τ' v' Q) (z : F13) : readUni sliceT sliceX Q ≠ algebraMap F13 SliceF z := by
  intro e
  rw [← readUni_const sliceT sliceX z] at e
  rw [readUni_injective slice_indep e, readUni_const, readUni_const] at h
  exact h rfl

/-- The whole of `univariate_slice(('⟨1|2⟩',))`: it runs to its end. -/
theorem slice_run (ps : Point F13 2) : ∃ ps', univariateSlice sliceEnv sliceCtx sliceT sliceX sliceη sliceη sliceParams
    [.scal (.two true 0 1)] none false 1 ps = some (.ok ps') := by
  have hF : NeZero (2 : SliceF) := ⟨fun e => NeZero.ne (2 : F13) ((algebraMap F13 SliceF).injective (by rw [map_ofNat, map_zero]; exact e))⟩
  -- the point on the variety
  obtain ⟨G, hG⟩ := gens2
  obtain ⟨Z, hZ⟩ := gens2'
  obtain ⟨ps1, e1, hs1, -⟩ := lists_comps (c := f13 .symmetric) (ps := ps) sliceDict_lists
  have er : (fun k => ![SpecComps sliceR sliceL (k, 0), SpecComps sliceR sliceL (k, 1)]) = sliceR := by
    funext k j; fin_cases k <;> fin_cases j <;> rfl
  have el : (fun k => ![SpecComps sliceR sliceL (k, 2), SpecComps sliceR sliceL (k, 3)]) = sliceL := by
    funext k j; fin_cases k <;> fin_cases j <;> rfl
  rw [er, el] at hs1
  have hc : Conserves ps1 := hs1.conserves_iff.mpr (by decide +kernel)
  have zG := (C102_zero_locus symCtx sym2 sym2_indep symPoint symPoint_spin _ true G hG _ _ _ _ hs1).mpr ⟨by
    intro s hm
    rw [List.mem_singleton] at hm
    subst hm
    exact ⟨[0], by rw [Cov.value, hs1.value_eq]; simp [Scal.over, Except.map, sliceR], by simp⟩, fun _ => hc⟩
  have zZ := (C102_zero_locus symCtx sym2 sym2_indep symPoint symPoint_spin _ true Z hZ _ _ _ _ hs1).mpr ⟨by simp, fun _ => hc⟩
  have run : singularVariety symCtx sym2 symPoint (f13 .symmetric) sliceSolve [.scal (.two true 0 1)] [] ps = .ok ps1 := by
    rw [singularVariety, if_pos rfl, hG, hZ]
    simp only
    rw [sliceSolve, if_pos ⟨zG, zZ⟩]
    exact e1
  -- the shift
  obtain ⟨qs, e, hqs⟩ := shiftLift_ok hs1 sliceCtx (fun k => (sliceT * sliceX (.inl k)) • liftV SliceF sliceη)
    (fun k => (sliceT * sliceX (.inr k)) • liftV SliceF sliceη)
  have hq : univariateShift sliceCtx (fun k => (ps1 k).lift SliceF) (liftV SliceF sliceη) (liftV SliceF sliceη)
    (fun k => sliceX (.inl k)) (fun k => sliceX (.inr k)) sliceT = .ok qs := e
  have hqs' := hqs
  rw [← uniSpinor_map, ← uniSpinor_map] at hqs
  -- the equations
  obtain ⟨H, hH⟩ := (C105_defined _ ps1 _ _ hs1 sliceCtx sliceT sliceX sliceη sliceη [.scal (.two true 0 1)] qs hq).mpr ⟨by
    intro i j z
    have e : ∑ k, (qs k).r2 i j = readUni sliceT sliceX (∑ k, ![uniSpinor .inr sliceL sliceη k 1, -uniSpinor .inr sliceL sliceη k 0] i *
        ![uniSpinor .inl sliceR sliceη k 1, -uniSpinor .inl sliceR sliceη k 0] j) := by
      simp only [(hqs _).r2, outer_apply, map_sum, map_mul]
      fin_cases i <;> fin_cases j <;> simp [mapV]
    rw [e]
    refine sliceUni_ne 0 1 (fun _ => 0) (Sum.elim ![1, 0] 0) ?_ z
    simp only [Fin.sum_univ_two]
    fin_cases i <;> fin_cases j <;> simp [uniSpinor, readUni, sliceη, sliceR, sliceL] <;> decide +kernel, by
    intro s hm
    rw [List.mem_singleton] at hm
    subst hm
    refine ⟨_, (hqs.value_eq _).trans rfl, fun z => ?_⟩
    have e : (mapV (readUni sliceT sliceX) (uniSpinor .inl sliceR sliceη) 0 1 * mapV (readUni sliceT sliceX) (uniSpinor .inl sliceR sliceη) 1 0 -
        mapV (readUni sliceT sliceX) (uniSpinor .inl sliceR sliceη) 0 0 * mapV (readUni sliceT sliceX) (uniSpinor .inl sliceR sliceη) 1 1) =
        readUni sliceT sliceX (uniSpinor .inl sliceR sliceη 0 1 * uniSpinor .inl sliceR sliceη 1 0 -
          uniSpinor .inl sliceR sliceη 0 0 * uniSpinor .inl sliceR sliceη 1 1) := by
      simp only [map_sub, map_mul, mapV]
    rw [if_pos rfl, e]
    refine sliceUni_ne 0 1 (fun _ => 0) (Sum.elim ![1, 0] 0) ?_ z
    simp [uniSpinor, readUni, sliceη, sliceR]⟩
  -- the parameters solve them
  obtain ⟨q, eq, hz⟩ := C105_equations _ ps1 _ _ hs1 sliceCtx sliceT sliceX slice_indep sliceη sliceη _ H qs hq hH sliceP
  obtain ⟨q', eq', hsq⟩ := shiftLift_ok hs1 sliceCtx (fun k => (sliceT * algebraMap F13 SliceF (sliceP (.inl k))) • liftV SliceF sliceη)
    (fun k => (sliceT * algebraMap F13 SliceF (sliceP (.inr k))) • liftV SliceF sliceη)
  obtain rfl : q' = q := Except.ok.inj (eq'.symm.trans eq)
  have hv : ∀ P ∈ H, eval sliceP P = 0 := by
    refine hz.mpr ⟨hsq.conserves_iff.mpr fun a b => ?_, fun s hm => ?_⟩
    · rw [Fin.sum_univ_two]
      fin_cases a <;> fin_cases b <;> simp [sliceR, sliceL, sliceP, liftV, sliceη] <;> ring
    · rw [List.mem_singleton] at hm
      subst hm
      refine ⟨[0], ?_, by simp⟩
      rw [Cov.value, hsq.value_eq]
      simp [Scal.over, Except.map, sliceR, sliceP, liftV, sliceη]
      try ring
  have hd : drawPoint (σ := Fin 2 ⊕ Fin 2) sliceParams H none 1 0 = some (.ok sliceP) := by
    rw [drawPoint, sliceParams, if_pos hv]
    simp only
    rw [if_neg (by decide +kernel)]
  obtain ⟨ps', hps⟩ : ∃ ps', subsPoint sliceCtx (substituted (readUni sliceT sliceX) (readUni (K := F13) sliceT fun i => algebraMap F13 SliceF (sliceP i)))
      qs = .ok ps' := ⟨_, subsLoop_ok sliceCtx _ _ _ _ (List.nodup_finRange 2) qs fun k _ => (hqs k).eq_ofSpinors⟩
  refine ⟨ps', ?_⟩
  rw [univariateSlice, if_neg (by simp), show sliceEnv.cS = symCtx from rfl, show sliceEnv.x = sym2 from rfl,
    show sliceEnv.ps₀ = symPoint from rfl, show sliceEnv.c = f13 .symmetric from rfl, show sliceEnv.solve = sliceSolve from rfl, run]
  simp only
  rw [hq]
  simp only
  rw [sliceFrom, hH]
  simp only
  rw [hd]
  simp only [Option.map_some]
  rw [hps]

/-- So the point it returns is on the variety. -/
example (ps : Point F13 2) : ∃ ps', univariateSlice sliceEnv sliceCtx sliceT sliceX sliceη sliceη sliceParams
    [.scal (.two true 0 1)] none false 1 ps = some (.ok ps') ∧ OnVariety [.scal (.two true 0 1)] ps' := by
  obtain ⟨ps', h⟩ := slice_run ps
  obtain ⟨-, -, -, -, -, -, -, -, ho, -⟩ := C105_univariate sliceEnv sym2_indep symPoint_spin sliceSolve_solves sliceCtx sliceT sliceX slice_indep
    _ _ sliceParams sliceParams_solves _ none false 1 ps ps' h
  exact ⟨ps', h, ho⟩

end Lips

import Verif.Props.Ideal
import Verif.Examples.Ctx
import Mathlib.RingTheory.Localization.FractionRing
import Mathlib.RingTheory.MvPolynomial.Basic
import Mathlib.Algebra.MvPolynomial.Funext

/-! Concrete cases for C102. -/

namespace Lips

open Matrix MvPolynomial

/-- Rational functions of the components of two particles. -/
def SymF := FractionRing (MvPolynomial (Comp 2) ℤ)

noncomputable instance : Field SymF := inferInstanceAs (Field (FractionRing (MvPolynomial (Comp 2) ℤ)))

/-- Polynomials as rational functions. -/
noncomputable def symHom : MvPolynomial (Comp 2) ℤ →+* SymF := algebraMap (MvPolynomial (Comp 2) ℤ) (FractionRing (MvPolynomial (Comp 2) ℤ))

theorem symHom_injective : Function.Injective symHom := IsFractionRing.injective (MvPolynomial (Comp 2) ℤ) (FractionRing (MvPolynomial (Comp 2) ℤ))

/-- The symbols. -/
noncomputable def sym2 (t : Comp 2) : SymF := symHom (X t)

theorem sym2_aeval (P : MvPolynomial (Comp 2) ℤ) : aeval sym2 P = symHom P := by
  have : (aeval (R := ℤ) sym2).toRingHom = symHom := by
    refine MvPolynomial.ringHom_ext' (RingHom.ext_int _ _) fun t => ?_
    simp [sym2]
  rw [← this]; rfl

theorem sym2_indep : AlgebraicIndependent ℤ sym2 := by
  intro P Q h
  rw [sym2_aeval, sym2_aeval] at h
  exact symHom_injective h

instance symF_charZero : CharZero SymF := by
  refine ⟨fun a b h => ?_⟩
  have e : symHom (a : MvPolynomial (Comp 2) ℤ) = symHom (b : MvPolynomial (Comp 2) ℤ) := by rw [map_natCast, map_natCast]; exact h
  have := congrArg (eval (fun _ => 0)) (symHom_injective e)
  simpa using this

instance sym2_two : NeZero (2 : SymF) := ⟨two_ne_zero⟩

/-- Symbolic arithmetic. -/
noncomputable def symCtx : Ctx SymF := by
  classical
  exact { conv := .symmetric, small := fun x => x = 0, small_zero := by simp, sqrt := fun _ => none, sqrt_sq := by simp, imag := none,
          imag_sq := by simp }

noncomputable def symPoint : Point SymF 2 := fun _ => (ofSpinors symCtx ![1, 1] ![1, 1]).st

theorem symPoint_spin : ∃ r l, Spin symCtx symPoint r l := ⟨_, _, fun _ => ofSpinors_isMassless symCtx _ _⟩

/-- An expression that has two values is no number. -/
theorem sym2_ne {P : MvPolynomial (Comp 2) ℤ} (u w : Comp 2 → ℤ) (h : eval u P ≠ eval w P) (z : ℤ) : aeval sym2 P ≠ z := by
  intro e
  have : aeval sym2 P = aeval sym2 (C z) := by rw [e]; simp
  have := sym2_indep this
  rw [this] at h
  simp at h

/-- The total momentum of two symbolic particles. -/
theorem sym2_mom (qs : Point SymF 2) (hq : Spin symCtx qs (fun k => ![sym2 (k, 0), sym2 (k, 1)]) (fun k => ![sym2 (k, 2), sym2 (k, 3)]))
    (i j : Fin 2) (z : ℤ) : ∑ k, (qs k).r2 i j ≠ z := by
  have e : ∑ k, (qs k).r2 i j = aeval sym2
      (∑ k : Fin 2, ![X (k, 3), -X (k, 2)] i * ![X (k, 1), -X (k, 0)] j : MvPolynomial (Comp 2) ℤ) := by
    simp only [(hq _).r2, outer_apply, map_sum, map_mul]
    fin_cases i <;> fin_cases j <;> simp
  rw [e]
  refine sym2_ne (fun _ => 0) (fun _ => 1) ?_ z
  fin_cases i <;> fin_cases j <;> simp

/-- `LipsIdeal(2, ('⟨1|2⟩',))` can be made. -/
theorem gens2 : ∃ G, lipsGens symCtx sym2 symPoint [.scal (.two true 0 1)] true = .ok G := by
  obtain ⟨qs, e, h⟩ := C102_defined symCtx sym2 sym2_indep symPoint symPoint_spin [.scal (.two true 0 1)] true
  obtain ⟨r, l, hs⟩ := symPoint_spin
  obtain ⟨qs', e', hq⟩ := C84_default symCtx symPoint r l hs fun k j => sym2 (k, j)
  rw [e] at e'
  cases e'
  refine h.mpr ⟨fun s hs => ?_, fun _ => sym2_mom qs hq⟩
  rw [List.mem_singleton] at hs
  subst hs
  refine ⟨[sym2 (0, 1) * sym2 (1, 0) - sym2 (0, 0) * sym2 (1, 1)], ?_, fun v hv z => ?_⟩
  · rw [Cov.value, hq.value_eq]; simp [Scal.over, Except.map]
  · rw [List.mem_singleton] at hv
    subst hv
    have e : (4 : SymF) * (sym2 (0, 1) * sym2 (1, 0) - sym2 (0, 0) * sym2 (1, 1)) =
        aeval sym2 (4 * (X (0, 1) * X (1, 0) - X (0, 0) * X (1, 1)) : MvPolynomial (Comp 2) ℤ) := by
      rw [map_mul, map_ofNat]; simp
    rw [e]
    refine sym2_ne (fun _ => 0) (fun t => if t = (0, 0) ∨ t = (1, 1) then 0 else 1) ?_ z
    rw [map_mul, map_mul]; simp

/-- So can the ideal of momentum conservation. -/
theorem gens2' : ∃ G, lipsGens symCtx sym2 symPoint [] true = .ok G := by
  obtain ⟨qs, e, h⟩ := C102_defined symCtx sym2 sym2_indep symPoint symPoint_spin [] true
  obtain ⟨r, l, hs⟩ := symPoint_spin
  obtain ⟨qs', e', hq⟩ := C84_default symCtx symPoint r l hs fun k j => sym2 (k, j)
  rw [e] at e'
  cases e'
  exact h.mpr ⟨fun s hs => by simp at hs, fun _ => sym2_mom qs hq⟩

/-- `LipsIdeal(2, ('⟨1|1⟩',))` raises: the expression is the number zero. -/
example : ¬ ∃ G, lipsGens symCtx sym2 symPoint [.scal (.two true 0 0)] true = .ok G := by
  obtain ⟨qs, e, h⟩ := C102_defined symCtx sym2 sym2_indep symPoint symPoint_spin [.scal (.two true 0 0)] true
  obtain ⟨r, l, hs⟩ := symPoint_spin
  obtain ⟨qs', e', hq⟩ := C84_default symCtx symPoint r l hs fun k j => sym2 (k, j)
  rw [e] at e'
  cases e'
  intro hG
  obtain ⟨vs, hv, hz⟩ := (h.mp hG).1 _ List.mem_cons_self
  rw [Cov.value, hq.value_eq] at hv
  simp only [Scal.over, Except.map, Except.ok.injEq, if_true] at hv
  subst hv
  exact hz _ List.mem_cons_self 0 (by push_cast; ring)

open Classical in
/-- The best possible `point_on_variety`. -/
noncomputable def solve2 (G Z : List (MvPolynomial (Comp 2) ℤ)) : Except Err (Dict F13) :=
  if h : ∃ d : Dict F13, ∃ v : Comp 2 → F13, Lists d v ∧ ZeroOf G v ∧ ZeroOf Z v then .ok h.choose else .error .exception

theorem solve2_solves : Solves solve2 := by
  intro G Z d h
  unfold solve2 at h
  split at h
  · rename_i hh; cases h; exact hh.choose_spec
  · cases h

/-- `_singular_variety(('⟨1|2⟩',))` runs to its end, and its result is on the variety. -/
example (ps : Point F13 2) : ∃ ps', singularVariety symCtx sym2 symPoint (f13 .symmetric) solve2 [.scal (.two true 0 1)] [] ps = .ok ps' ∧
    CovZero ps' (.scal (.two true 0 1)) := by
  obtain ⟨G, hG⟩ := gens2
  obtain ⟨Z, hZ⟩ := gens2'
  have hs : Spin (f13 .symmetric) (fun _ : Fin 2 => (ofSpinors (f13 .symmetric) 0 0).st) (fun _ => 0) (fun _ => 0) :=
    fun _ => ofSpinors_isMassless _ _ _
  have hc : Conserves (fun _ : Fin 2 => (ofSpinors (f13 .symmetric) 0 0).st) := hs.conserves_iff.mpr (by simp)
  have zG := (C102_zero_locus symCtx sym2 sym2_indep symPoint symPoint_spin _ true G hG _ _ _ _ hs).mpr ⟨by
    intro s hm
    rw [List.mem_singleton] at hm
    subst hm
    exact ⟨[0], by rw [Cov.value, hs.value_eq]; simp [Scal.over, Except.map], by simp⟩, fun _ => hc⟩
  have zZ := (C102_zero_locus symCtx sym2 sym2_indep symPoint symPoint_spin _ true Z hZ _ _ _ _ hs).mpr ⟨by simp, fun _ => hc⟩
  have hd : ∃ d : Dict F13, ∃ v : Comp 2 → F13, Lists d v ∧ ZeroOf G v ∧ ZeroOf Z v :=
    ⟨fun _ => some 0, _, fun k j => by fin_cases j <;> simp [SpecComps], zG, zZ⟩
  obtain ⟨v, hl, -, -⟩ := hd.choose_spec
  obtain ⟨ps', e, -, -⟩ := lists_comps (c := f13 .symmetric) (ps := ps) hl
  have run : singularVariety symCtx sym2 symPoint (f13 .symmetric) solve2 [.scal (.two true 0 1)] [] ps = .ok ps' := by
    rw [singularVariety, if_pos rfl, hG, hZ]
    simp only
    rw [solve2, dif_pos hd]
    exact e
  obtain ⟨-, r, l, -, h, -⟩ := C102_singular_variety symCtx sym2 sym2_indep symPoint symPoint_spin _ solve2 solve2_solves _ _ ps ps' run
  exact ⟨ps', run, h rfl _ List.mem_cons_self⟩

/-- The ideal of `⟨1|2⟩` contains it, so it vanishes at every zero over the rational functions. -/
example (r l : Fin 2 → V2 SymF) (ps : Point SymF 2) (hs : Spin symCtx ps r l) : ∃ G,
    lipsContains symCtx sym2 symPoint G (.scal (.two true 0 1)) = .ok true ∧ (ZeroOf G (SpecComps r l) → CovZero ps (.scal (.two true 0 1))) := by
  obtain ⟨G, hG⟩ := gens2
  have h := C102_members symCtx sym2 sym2_indep symPoint symPoint_spin _ true G hG _ List.mem_cons_self
  exact ⟨G, h, C102_contains symCtx sym2 sym2_indep symPoint symPoint_spin G _ h symCtx ps r l hs⟩

end Lips

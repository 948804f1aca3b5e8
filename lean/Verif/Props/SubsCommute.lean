import Verif.Props.FieldChange
import Verif.Props.Components
import Mathlib.Algebra.MvPolynomial.Eval
import Mathlib.RingTheory.Localization.FractionRing
import Mathlib.RingTheory.MvPolynomial.Basic

/-!
C119: evaluating with symbols and then putting in values is evaluating with the values.
-/

namespace Lips

open Matrix MvPolynomial

variable {K : Type*} [Field K] {n : ℕ}

/-- The value `y` is what the substitution `f` makes of the polynomial `x`. -/
def Substituted {R : Type*} [CommRing R] (i : R →+* K) (f : K → K) (x y : K) : Prop := (∃ a, i a = x) ∧ y = f x

/-- C119: let the components of a massless point be polynomials (elements of a ring `R` in which 2 is invertible) on which the substitution is a ring
homomorphism. Then `subs` returns, and for every text `compute` on the new point gives what the substitution makes of the value on the
old one, or raises the same exception. -/
theorem C119_subs {R : Type*} [CommRing R] {i φ : R →+* K} {h2 : R} (hh : 2 * h2 = 1) {f : K → K} (hf : ∀ a, f (i a) = φ a) {c : Ctx K} {ps : Point K n}
    {r l : Fin n → V2 K} (hs : Spin c ps r l) (hr : ∀ k j, ∃ a, i a = r k j) (hl : ∀ k j, ∃ a, i a = l k j) :
    ∃ qs, subsPoint c f ps = .ok qs ∧ Spin c qs (fun k j => f (r k j)) (fun k j => f (l k j)) ∧
      ∀ fuel t, ORel (ERel (VRel (Substituted i f))) (computeText ps fuel t) (computeText qs fuel t) := by
  have : NeZero (2 : K) := ⟨fun h0 => by
    have e : (2 : K) * φ h2 = 1 := by rw [← map_ofNat φ 2, ← map_mul, hh, map_one]
    rw [h0, zero_mul] at e
    exact zero_ne_one e⟩
  have eta : ∀ v : V2 K, (![f (v 0), f (v 1)] : V2 K) = fun j => f (v j) := by
    intro v; funext j; fin_cases j <;> rfl
  refine ⟨_, subsLoop_ok c f r l (List.finRange n) (List.nodup_finRange n) ps fun k _ => (hs k).eq_ofSpinors, ?_, ?_⟩
  · rw [assign_finRange]
    intro k
    have := ofSpinors_isMassless c ![f (r k 0), f (r k 1)] ![f (l k 0), f (l k 1)]
    show IsMassless c (ofSpinors c ![f (r k 0), f (r k 1)] ![f (l k 0), f (l k 1)]).st (fun j => f (r k j)) (fun j => f (l k j))
    rwa [eta, eta] at this ⊢
  · intro fuel t
    rw [assign_finRange]
    have hT : Transfer (Substituted i f) := by
      have h := Lift.transfer i φ hh
      have e : Lift i φ = Substituted i f := by
        funext x y
        refine propext ⟨?_, ?_⟩
        · rintro ⟨a, rfl, rfl⟩
          exact ⟨⟨a, rfl⟩, (hf a).symm⟩
        · rintro ⟨⟨a, rfl⟩, rfl⟩
          exact ⟨a, rfl, (hf a).symm⟩
      rwa [← e]
    unfold computeText
    split
    · refine hT.evalForm (fun k => PRel.of_spinors hT (hs k) (ofSpinors_isMassless c _ _) (fun j => ?_) fun j => ?_) _ _
      · rw [eta]; exact ⟨hr k j, rfl⟩
      · rw [eta]; exact ⟨hl k j, rfl⟩
    · exact rfl

/-! ### Polynomials over a field -/

variable {F σ : Type*} [Field F]

/-- Expressions in the symbols `σ` with coefficients in `F`: quotients of polynomials. -/
abbrev Rat' (F σ : Type*) [Field F] := FractionRing (MvPolynomial σ F)

open Classical in
/-- The substitution of polynomials for symbols; quotients that are not polynomials are left as they are. -/
noncomputable def substitute (v : σ → MvPolynomial σ F) (x : Rat' F σ) : Rat' F σ :=
  if h : ∃ P : MvPolynomial σ F, algebraMap _ (Rat' F σ) P = x then algebraMap _ _ (aeval v h.choose) else x

theorem substitute_poly (v : σ → MvPolynomial σ F) (P : MvPolynomial σ F) :
    substitute v (algebraMap _ (Rat' F σ) P) = algebraMap _ _ (aeval v P) := by
  have h : ∃ Q : MvPolynomial σ F, algebraMap _ (Rat' F σ) Q = algebraMap _ (Rat' F σ) P := ⟨P, rfl⟩
  unfold substitute
  rw [dif_pos h, IsFractionRing.injective (MvPolynomial σ F) (Rat' F σ) h.choose_spec]

theorem poly_half [NeZero (2 : F)] : 2 * (C (2⁻¹ : F) : MvPolynomial σ F) = 1 := by
  rw [← map_ofNat C 2, ← C_mul, mul_inv_cancel₀ (NeZero.ne _), C_1]

/-- C119 for polynomials in any symbols over a field, some of which may be replaced by others: on a massless point with polynomial components every
number that `compute` gives is a polynomial, and after `subs` it gives the polynomial with the values put in. -/
theorem C119_polynomials [NeZero (2 : F)] (v : σ → MvPolynomial σ F) {c : Ctx (Rat' F σ)} {ps : Point (Rat' F σ) n} {r l : Fin n → V2 (MvPolynomial σ F)}
    (hs : Spin c ps (fun k j => algebraMap _ _ (r k j)) (fun k j => algebraMap _ _ (l k j))) :
    ∃ qs, subsPoint c (substitute v) ps = .ok qs ∧ ∀ fuel t x, computeText ps fuel t = some (.ok (.num x)) →
      ∃ P : MvPolynomial σ F, x = algebraMap _ _ P ∧ computeText qs fuel t = some (.ok (.num (algebraMap _ _ (aeval v P)))) := by
  obtain ⟨qs, h1, -, h2⟩ := C119_subs (i := algebraMap (MvPolynomial σ F) (Rat' F σ)) (φ := (algebraMap (MvPolynomial σ F) (Rat' F σ)).comp (aeval v).toRingHom)
    poly_half (f := substitute v) (substitute_poly v) hs (fun k j => ⟨r k j, rfl⟩) (fun k j => ⟨l k j, rfl⟩)
  refine ⟨qs, h1, fun fuel t x hx => ?_⟩
  have hv := h2 fuel t
  rw [hx] at hv
  rcases hy : computeText qs fuel t with _ | e | y
  · rw [hy] at hv; exact hv.elim
  · rw [hy] at hv; exact hv.elim
  rw [hy] at hv
  cases y with
  | num y =>
    obtain ⟨⟨P, rfl⟩, rfl⟩ := hv
    exact ⟨P, rfl, by rw [substitute_poly]⟩
  | _ => exact hv.elim

/-- C119: the whole way. Replace the components of a massless point over `F` by the symbols `a1, b1, c1, d1, a2, ...`, evaluate a text, and put the
components of the point into the polynomial: this is the value of the text at the point. The same texts raise the same exceptions. -/
theorem C119_analytical [NeZero (2 : F)] {c : Ctx F} {ps : Point F n} {r l : Fin n → V2 F} (hs : Spin c ps r l)
    {c' : Ctx (Rat' F (Fin n × Fin 4))} {ps₀ : Point (Rat' F (Fin n × Fin 4)) n} {r₀ l₀ : Fin n → V2 (Rat' F (Fin n × Fin 4))} (h0 : Spin c' ps₀ r₀ l₀) :
    ∃ qs, makeAnalytical c' ps₀ none (fun k j => algebraMap (MvPolynomial (Fin n × Fin 4) F) (Rat' F (Fin n × Fin 4)) (X (k, j))) = .ok qs ∧ (∀ fuel t x, computeText ps fuel t = some (.ok (.num x)) →
      ∃ P : MvPolynomial (Fin n × Fin 4) F, computeText qs fuel t = some (.ok (.num (algebraMap _ _ P))) ∧
        aeval (fun s : Fin n × Fin 4 => ![r s.1 0, r s.1 1, l s.1 0, l s.1 1] s.2) P = x) ∧
      ∀ fuel t e, computeText qs fuel t = some (.error e) ↔ computeText ps fuel t = some (.error e) := by
  have inj := IsFractionRing.injective (MvPolynomial (Fin n × Fin 4) F) (Rat' F (Fin n × Fin 4))
  have : NeZero (2 : Rat' F (Fin n × Fin 4)) := ⟨fun e => NeZero.ne (2 : F) (C_injective (Fin n × Fin 4) F (inj (by
    rw [map_ofNat, map_ofNat, e, C_0, map_zero])))⟩
  obtain ⟨qs, h1, hq⟩ := C84_default c' ps₀ r₀ l₀ h0 fun k j => algebraMap (MvPolynomial (Fin n × Fin 4) F) (Rat' F (Fin n × Fin 4)) (X (k, j))
  let w : Fin n × Fin 4 → F := fun s => ![r s.1 0, r s.1 1, l s.1 0, l s.1 1] s.2
  have hT := Lift.transfer (algebraMap (MvPolynomial (Fin n × Fin 4) F) (Rat' F (Fin n × Fin 4))) (aeval w).toRingHom poly_half
  have rel : ∀ k j (y : F), w (k, j) = y → Lift (algebraMap (MvPolynomial (Fin n × Fin 4) F) (Rat' F (Fin n × Fin 4))) (aeval w).toRingHom
      (algebraMap (MvPolynomial (Fin n × Fin 4) F) (Rat' F (Fin n × Fin 4)) (X (k, j))) y := fun k j y e => ⟨X (k, j), rfl, by rw [← e]; exact aeval_X w (k, j)⟩
  have hv : ∀ fuel t, ORel (ERel (VRel (Lift (algebraMap (MvPolynomial (Fin n × Fin 4) F) (Rat' F (Fin n × Fin 4))) (aeval w).toRingHom))) (computeText qs fuel t)
      (computeText ps fuel t) := by
    intro fuel t
    unfold computeText
    split
    · refine hT.evalForm (fun k => PRel.of_spinors hT (hq k) (hs k) (fun j => ?_) fun j => ?_) _ _
      · fin_cases j
        · exact rel k 0 _ rfl
        · exact rel k 1 _ rfl
      · fin_cases j
        · exact rel k 2 _ rfl
        · exact rel k 3 _ rfl
    · exact rfl
  refine ⟨qs, h1, fun fuel t x hx => ?_, fun fuel t e => ?_⟩
  swap
  · have hv := hv fuel t
    rcases hx : computeText ps fuel t with _ | e' | x <;> rcases hy : computeText qs fuel t with _ | e'' | y <;> rw [hx, hy] at hv
    · exact ⟨nofun, nofun⟩
    · exact hv.elim
    · exact hv.elim
    · exact hv.elim
    · rw [show e'' = e' from hv]
      simp only [Option.some.injEq, Except.error.injEq]
    · exact hv.elim
    · exact hv.elim
    · exact hv.elim
    · exact ⟨fun h => (nomatch (Option.some.inj h)), fun h => (nomatch (Option.some.inj h))⟩
  have hv := hv fuel t
  rw [hx] at hv
  rcases hy : computeText qs fuel t with _ | e | y
  · rw [hy] at hv; exact hv.elim
  · rw [hy] at hv; exact hv.elim
  rw [hy] at hv
  cases y with
  | num y =>
    obtain ⟨P, rfl, e⟩ := hv
    exact ⟨P, rfl, e⟩
  | _ => exact hv.elim

end Lips

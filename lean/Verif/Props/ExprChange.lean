import Verif.Lemmas.TransferEval
import Verif.Props.SubsCommute

/-!
C120: evaluating expressions commutes with the change of the field, up to divisions by zero in the new field.
-/

namespace Lips

open Matrix MvPolynomial

attribute [local irreducible] computeArr

variable {K L : Type*} [Field K] [Field L] {n : ℕ}

theorem Lift.transferInv {R : Type*} [CommRing R] (i : R →+* K) (φ : R →+* L) {h2 : R} (hh : 2 * h2 = 1) (hu : ∀ a, φ a ≠ 0 → IsUnit a) :
    TransferInv (Lift i φ) where
  toTransfer := Lift.transfer i φ hh
  ne := by
    rintro _ _ ⟨a, rfl, rfl⟩ h0
    exact ((hu a h0).map i).ne_zero
  inv := by
    rintro _ _ ⟨a, rfl, rfl⟩ h0
    obtain ⟨u, rfl⟩ := hu a h0
    refine ⟨(u⁻¹ : Rˣ), ?_, ?_⟩
    · exact eq_inv_of_mul_eq_one_left (by rw [← map_mul, Units.inv_mul, map_one])
    · exact eq_inv_of_mul_eq_one_left (by rw [← map_mul, Units.inv_mul, map_one])

/-- C120: let the conversion be given by ring homomorphisms from a ring in which 2 is invertible and all elements that do not become zero are units, as the
integers of a p-adic field. Then for every text, `compute` of the text, an invariant or an expression, either divides by zero on the converted point or
gives corresponding results on both points: the same exception, or corresponding values. So does the evaluation of expressions with open indices. -/
theorem C120_values {R : Type*} [CommRing R] {i : R →+* K} {φ : R →+* L} {h2 : R} (hh : 2 * h2 = 1) (hu : ∀ a, φ a ≠ 0 → IsUnit a)
    {cv : K → Except Err L} (hcv : ∀ x y, cv x = .ok y → Lift i φ x y) {c : Ctx K} {c' : Ctx L} {ps : Point K n} {qs : Point L n}
    {r l : Fin n → V2 K} (hs : Spin c ps r l) (h : pointToField cv c' ps = .ok qs) (fuel : ℕ) (t : List Char) :
    ORel (Upto (Sum.LiftRel (VRel (Lift i φ)) (NRel (Lift i φ)))) (callText ps fuel t) (callText qs fuel t) ∧
      ORel (Upto (XRel (Lift i φ))) (computeArr ps fuel t) (computeArr qs fuel t) ∧
      (callNumber qs fuel t = some (.error .zeroDivision) ∨ ORel (ERel (Lift i φ)) (callNumber ps fuel t) (callNumber qs fuel t)) := by
  have : NeZero (2 : L) := ⟨fun h0 => by
    have e : (2 : L) * φ h2 = 1 := by rw [← map_ofNat φ 2, ← map_mul, hh, map_one]
    rw [h0, zero_mul] at e
    exact zero_ne_one e⟩
  obtain ⟨r', l', hr, hl, hq⟩ := C118_spinors h (fun k => (hs k).r_d) (fun k => (hs k).l_d)
  have hT := Lift.transferInv i φ hh hu
  have hp : ∀ k, PRel (Lift i φ) (ps k) (qs k) := fun k =>
    PRel.of_spinors hT.toTransfer (hs k) (hq k) (fun j => hcv _ _ (hr k j)) fun j => hcv _ _ (hl k j)
  exact And.intro (hT.callText hp fuel t) (And.intro (hT.computeArr hp fuel t) (hT.callNumber hp fuel t))

/-! ### p-adic numbers -/

variable {p : ℕ} [Fact p.Prime]

/-- C120 for the reduction of a massless point with p-adic integers as spinor components, p odd. Take any text, such as `(s_12+⟨1|2+3|4])/[34]^2`. If
`compute` gives a number on the reduced point, then on the original point it gives a p-adic integer with this residue. Any other exception than
ZeroDivisionError on the reduced point is raised on the original point too, and an exception on the original point is raised on the reduced point,
unless that one divides by zero before. -/
theorem C120_padic (hp : p ≠ 2) {c : Ctx ℚ_[p]} (c' : Ctx (ZMod p)) {ps : Point ℚ_[p] n} {r l : Fin n → V2 ℚ_[p]} (hs : Spin c ps r l)
    (hr : ∀ k i, ‖r k i‖ ≤ 1) (hl : ∀ k i, ‖l k i‖ ≤ 1) : ∃ qs, reducePoint residue c' ps = .ok qs ∧ ∀ fuel t,
      (∀ y, callNumber qs fuel t = some (.ok y) → ∃ x, callNumber ps fuel t = some (.ok x) ∧ residue x = .ok y) ∧
      (∀ e, callNumber qs fuel t = some (.error e) → e ≠ .zeroDivision → callNumber ps fuel t = some (.error e)) ∧
      (∀ e, callNumber ps fuel t = some (.error e) → callNumber qs fuel t = some (.error e) ∨ callNumber qs fuel t = some (.error .zeroDivision)) := by
  obtain ⟨h2, hh⟩ := padic_half (p := p) hp
  obtain ⟨qs, hq, -⟩ := C118_padic hp c' hs hr hl
  refine ⟨qs, hq, fun fuel t => ?_⟩
  have hu : ∀ a : ℤ_[p], PadicInt.toZMod a ≠ 0 → IsUnit a := fun a ha => by
    rw [ne_eq, ← RingHom.mem_ker, PadicInt.ker_toZMod, IsLocalRing.mem_maximalIdeal, mem_nonunits_iff, not_not] at ha
    exact ha
  have hv := (C120_values hh hu (fun _ _ h => residue_lift h) hs (C118_same.1 hq) fuel t).2.2
  refine ⟨fun y hy => ?_, fun e he hne => ?_, fun e he => ?_⟩
  · rw [hy] at hv
    rcases hv with hv | hv
    · cases hv
    rcases hx : callNumber ps fuel t with _ | e | x <;> rw [hx] at hv
    · exact hv.elim
    · exact hv.elim
    · obtain ⟨a, rfl, rfl⟩ := hv
      refine ⟨_, rfl, ?_⟩
      unfold residue
      rw [dif_pos (show ‖PadicInt.Coe.ringHom a‖ ≤ 1 from a.2)]
      rfl
  · rw [he] at hv
    rcases hv with hv | hv
    · exact (hne (Except.error.inj (Option.some.inj hv))).elim
    rcases hx : callNumber ps fuel t with _ | e' | x <;> rw [hx] at hv
    · exact hv.elim
    · rw [show e' = e from hv]
    · exact hv.elim
  · rw [he] at hv
    rcases hv with hv | hv
    · exact Or.inr hv
    rcases hx : callNumber qs fuel t with _ | e' | x <;> rw [hx] at hv
    · exact hv.elim
    · exact Or.inl (by rw [show e = e' from hv])
    · exact hv.elim

/-! ### Fields -/

/-- C120 for the embedding of a field into another: every text has the same value or exception on both points. -/
theorem C120_fields [NeZero (2 : L)] (φ : K →+* L) {cv : K → Except Err L} (hcv : ∀ x y, cv x = .ok y → y = φ x) {c : Ctx K} {c' : Ctx L} {ps : Point K n}
    {qs : Point L n} {r l : Fin n → V2 K} (hs : Spin c ps r l) (h : pointToField cv c' ps = .ok qs) (fuel : ℕ) (t : List Char) :
    ORel (ERel fun x y => y = φ x) (callNumber ps fuel t) (callNumber qs fuel t) := by
  have hT : TransferInv fun (x : K) (y : L) => y = φ x :=
    { one := (map_one φ).symm
      add := by rintro x y _ _ rfl rfl; exact (map_add φ x y).symm
      mul := by rintro x y _ _ rfl rfl; exact (map_mul φ x y).symm
      neg := by rintro x _ rfl; exact (map_neg φ x).symm
      half := by rintro x _ rfl; rw [map_div₀, map_ofNat]
      ne := by rintro x _ rfl h0 rfl; exact h0 (map_zero φ)
      inv := by rintro x _ rfl _; exact (map_inv₀ φ x).symm }
  have hT' : TransferInv fun (y : L) (x : K) => y = φ x :=
    { one := (map_one φ).symm
      add := by rintro _ _ x y rfl rfl; exact (map_add φ x y).symm
      mul := by rintro _ _ x y rfl rfl; exact (map_mul φ x y).symm
      neg := by rintro _ x rfl; exact (map_neg φ x).symm
      half := by rintro _ x rfl; rw [map_div₀, map_ofNat]
      ne := by rintro _ x rfl h0; exact (map_ne_zero φ).2 h0
      inv := by rintro _ x rfl _; exact (map_inv₀ φ x).symm }
  obtain ⟨r', l', hr, hl, hq⟩ := C118_spinors h (fun k => (hs k).r_d) (fun k => (hs k).l_d)
  rcases hT.callNumber (fun k => PRel.of_spinors hT.toTransfer (hs k) (hq k) (fun j => hcv _ _ (hr k j)) fun j => hcv _ _ (hl k j)) fuel t with h1 | h1
  · rcases hT'.callNumber (fun k => PRel.of_spinors hT'.toTransfer (hq k) (hs k) (fun j => hcv _ _ (hr k j)) fun j => hcv _ _ (hl k j)) fuel t with h2 | h2
    · rw [h1, h2]; exact rfl
    · rw [h1] at h2 ⊢
      rcases hx : callNumber ps fuel t with _ | e | x <;> rw [hx] at h2
      · exact h2.elim
      · exact Eq.symm h2
      · exact h2.elim
  · exact h1

/-! ### Symbols -/

variable {F σ : Type*} [Field F]

/-- The rational function `x` is defined at the values `v` of the symbols, and has the value `y` there. -/
def ValueAt (v : σ → F) (x : Rat' F σ) (y : F) : Prop :=
  ∃ P Q : MvPolynomial σ F, aeval v Q ≠ 0 ∧ x = algebraMap _ _ P / algebraMap _ _ Q ∧ y = aeval v P / aeval v Q

/-- A rational function has one value. -/
theorem ValueAt.unique {v : σ → F} {x : Rat' F σ} {y y' : F} (h : ValueAt v x y) (h' : ValueAt v x y') : y = y' := by
  obtain ⟨P, Q, hQ, rfl, rfl⟩ := h
  obtain ⟨P', Q', hQ', e, rfl⟩ := h'
  have inj := IsFractionRing.injective (MvPolynomial σ F) (Rat' F σ)
  have ne : ∀ {Q : MvPolynomial σ F}, aeval v Q ≠ 0 → algebraMap _ (Rat' F σ) Q ≠ 0 := fun h h0 => h (by
    rw [(map_eq_zero_iff _ inj).1 h0, map_zero])
  rw [div_eq_div_iff (ne hQ) (ne hQ'), ← map_mul, ← map_mul] at e
  rw [div_eq_div_iff hQ hQ', ← map_mul, ← map_mul, inj e]

theorem valueAt_transfer [NeZero (2 : F)] (v : σ → F) : TransferInv (ValueAt v) := by
  have inj := IsFractionRing.injective (MvPolynomial σ F) (Rat' F σ)
  have ne : ∀ {Q : MvPolynomial σ F}, aeval v Q ≠ 0 → algebraMap _ (Rat' F σ) Q ≠ 0 := fun h h0 => h (by
    rw [(map_eq_zero_iff _ inj).1 h0, map_zero])
  have mul : ∀ {x y x' y'}, ValueAt v x x' → ValueAt v y y' → ValueAt v (x * y) (x' * y') := by
    rintro _ _ _ _ ⟨P, Q, hQ, rfl, rfl⟩ ⟨P', Q', hQ', rfl, rfl⟩
    refine ⟨P * P', Q * Q', by rw [map_mul]; exact mul_ne_zero hQ hQ', ?_, ?_⟩
    · rw [map_mul, map_mul, div_mul_div_comm]
    · rw [map_mul, map_mul, div_mul_div_comm]
  have inv : ∀ {x y}, ValueAt v x y → y ≠ 0 → ValueAt v x⁻¹ y⁻¹ := by
    rintro _ _ ⟨P, Q, hQ, rfl, rfl⟩ h0
    exact ⟨Q, P, (div_ne_zero_iff.1 h0).1, by rw [inv_div], by rw [inv_div]⟩
  have one : ValueAt v 1 1 := ⟨1, 1, by rw [map_one]; exact one_ne_zero, by rw [map_one, div_one], by rw [map_one, div_one]⟩
  have add : ∀ {x y x' y'}, ValueAt v x x' → ValueAt v y y' → ValueAt v (x + y) (x' + y') := by
    rintro _ _ _ _ ⟨P, Q, hQ, rfl, rfl⟩ ⟨P', Q', hQ', rfl, rfl⟩
    refine ⟨P * Q' + Q * P', Q * Q', by rw [map_mul]; exact mul_ne_zero hQ hQ', ?_, ?_⟩
    · rw [map_mul, map_add, map_mul, map_mul, div_add_div _ _ (ne hQ) (ne hQ')]
    · rw [map_mul, map_add, map_mul, map_mul, div_add_div _ _ hQ hQ']
  refine { one := one, add := add, mul := mul, neg := ?_, half := ?_, ne := ?_, inv := inv }
  · rintro _ _ ⟨P, Q, hQ, rfl, rfl⟩
    exact ⟨-P, Q, hQ, by rw [map_neg, neg_div], by rw [map_neg, neg_div]⟩
  · intro x y h
    have two : ValueAt v (2 : Rat' F σ) 2 := by
      have := add one one
      rwa [one_add_one_eq_two, one_add_one_eq_two] at this
    rw [div_eq_mul_inv, div_eq_mul_inv]
    exact mul h (inv two (NeZero.ne _))
  · rintro _ _ ⟨P, Q, hQ, rfl, rfl⟩ h0
    exact div_ne_zero (ne (div_ne_zero_iff.1 h0).1) (ne hQ)

/-- C120 for symbols: replace the components of a massless point over `F` by the symbols `a1, b1, c1, d1, a2, ...`. If `compute` of a text gives a number at
the numerical point, then with symbols it gives a rational function that is defined at the components of the point and has this value there. Exceptions are as
in `C120_padic`. -/
theorem C120_symbols [NeZero (2 : F)] {c : Ctx F} {ps : Point F n} {r l : Fin n → V2 F} (hs : Spin c ps r l)
    {c' : Ctx (Rat' F (Fin n × Fin 4))} {ps₀ : Point (Rat' F (Fin n × Fin 4)) n} {r₀ l₀ : Fin n → V2 (Rat' F (Fin n × Fin 4))} (h0 : Spin c' ps₀ r₀ l₀) :
    ∃ qs, makeAnalytical c' ps₀ none (fun k j => algebraMap (MvPolynomial (Fin n × Fin 4) F) (Rat' F (Fin n × Fin 4)) (X (k, j))) = .ok qs ∧ ∀ fuel t,
      (∀ y, callNumber ps fuel t = some (.ok y) → ∃ x, callNumber qs fuel t = some (.ok x) ∧
        ValueAt (fun s : Fin n × Fin 4 => ![r s.1 0, r s.1 1, l s.1 0, l s.1 1] s.2) x y) ∧
      (∀ e, callNumber ps fuel t = some (.error e) → e ≠ .zeroDivision → callNumber qs fuel t = some (.error e)) ∧
      (∀ e, callNumber qs fuel t = some (.error e) → callNumber ps fuel t = some (.error e) ∨ callNumber ps fuel t = some (.error .zeroDivision)) := by
  have inj := IsFractionRing.injective (MvPolynomial (Fin n × Fin 4) F) (Rat' F (Fin n × Fin 4))
  have : NeZero (2 : Rat' F (Fin n × Fin 4)) := ⟨fun e => NeZero.ne (2 : F) (C_injective (Fin n × Fin 4) F (inj (by
    rw [map_ofNat, map_ofNat, e, C_0, map_zero])))⟩
  obtain ⟨qs, h1, hq⟩ := C84_default c' ps₀ r₀ l₀ h0 fun k j => algebraMap (MvPolynomial (Fin n × Fin 4) F) (Rat' F (Fin n × Fin 4)) (X (k, j))
  let w : Fin n × Fin 4 → F := fun s => ![r s.1 0, r s.1 1, l s.1 0, l s.1 1] s.2
  have hT := valueAt_transfer w
  have rel : ∀ k j (y : F), w (k, j) = y → ValueAt w (algebraMap (MvPolynomial (Fin n × Fin 4) F) (Rat' F (Fin n × Fin 4)) (X (k, j))) y := fun k j y e =>
    ⟨X (k, j), 1, by rw [map_one]; exact one_ne_zero, by rw [map_one, div_one], by rw [map_one, div_one, aeval_X, e]⟩
  have hp : ∀ k, PRel (ValueAt w) (qs k) (ps k) := fun k => PRel.of_spinors hT.toTransfer (hq k) (hs k)
    (fun j => by
      fin_cases j
      · exact rel k 0 _ rfl
      · exact rel k 1 _ rfl)
    (fun j => by
      fin_cases j
      · exact rel k 2 _ rfl
      · exact rel k 3 _ rfl)
  refine ⟨qs, h1, fun fuel t => ?_⟩
  have hv := hT.callNumber hp fuel t
  refine ⟨fun y hy => ?_, fun e he hne => ?_, fun e he => ?_⟩
  · rw [hy] at hv
    rcases hv with hv | hv
    · cases hv
    rcases hx : callNumber qs fuel t with _ | e | x <;> rw [hx] at hv
    · exact hv.elim
    · exact hv.elim
    · exact ⟨x, rfl, hv⟩
  · rw [he] at hv
    rcases hv with hv | hv
    · exact (hne (Except.error.inj (Option.some.inj hv))).elim
    rcases hx : callNumber qs fuel t with _ | e' | x <;> rw [hx] at hv
    · exact hv.elim
    · rw [show e' = e from hv]
    · exact hv.elim
  · rw [he] at hv
    rcases hv with hv | hv
    · exact Or.inr hv
    rcases hx : callNumber ps fuel t with _ | e' | x <;> rw [hx] at hv
    · exact hv.elim
    · exact Or.inl (by rw [show e = e' from hv])
    · exact hv.elim

end Lips

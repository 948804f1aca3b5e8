import Verif.Props.SubsCommute
import Verif.Examples.Compute

/-!
Concrete cases for C119.
-/

namespace Lips

open Matrix MvPolynomial

/-- The value of `⟨1|2⟩` at five points over `F13` is a polynomial in twenty symbols with the components of the particles put in; it is not zero. -/
example (c' : Ctx (Rat' F13 (Fin 5 × Fin 4))) (ps₀ : Point (Rat' F13 (Fin 5 × Fin 4)) 5) (r₀ l₀) (h0 : Spin c' ps₀ r₀ l₀) :
    ∃ qs, ∃ P : MvPolynomial (Fin 5 × Fin 4) F13, makeAnalytical c' ps₀ none (fun k j => algebraMap (MvPolynomial (Fin 5 × Fin 4) F13) (Rat' F13 (Fin 5 × Fin 4)) (X (k, j))) = .ok qs ∧
      computeText qs 0 "⟨1|2⟩".toList = some (.ok (.num (algebraMap _ _ P))) ∧ P ≠ 0 := by
  obtain ⟨qs, h1, h2, -⟩ := C119_analytical pt5_massless h0
  obtain ⟨x, hx, h0⟩ : ∃ x : F13, computeText pt5 0 "⟨1|2⟩".toList = some (.ok (.num x)) ∧ x ≠ 0 := by
    refine ⟨_, rfl, ?_⟩
    decide
  obtain ⟨P, hP, he⟩ := h2 0 _ x hx
  refine ⟨qs, P, h1, hP, fun hz => h0 ?_⟩
  rw [← he, hz, map_zero]

/-- One symbol: the point with spinors `(x, 1)`, `(1, x)` and `(0, 1)`, `(1, 0)`, and `x` replaced by `3`. `⟨1|2⟩` is a polynomial before and has the
value of it at `3` after. -/
example (c : Ctx (Rat' F13 (Fin 1))) : ∃ qs, subsPoint c (substitute fun _ => C 3)
      (spinPoint c ![(![algebraMap (MvPolynomial (Fin 1) F13) _ (X 0), 1], ![1, algebraMap (MvPolynomial (Fin 1) F13) _ (X 0)]), (![0, 1], ![1, 0])]) = .ok qs ∧
    Spin c qs (fun k => ![![algebraMap (MvPolynomial (Fin 1) F13) _ (C 3), 1], ![0, 1]] k) (fun k => ![![1, algebraMap (MvPolynomial (Fin 1) F13) _ (C 3)], ![1, 0]] k) := by
  have hX := substitute_poly (F := F13) (fun _ : Fin 1 => C 3) (X 0)
  have h1 := substitute_poly (F := F13) (fun _ : Fin 1 => C 3) 1
  have h0 := substitute_poly (F := F13) (fun _ : Fin 1 => C 3) 0
  rw [aeval_X] at hX
  rw [map_one, map_one, map_one] at h1
  rw [map_zero, map_zero, map_zero] at h0
  have : NeZero (2 : Rat' F13 (Fin 1)) := ⟨fun e => by
    have := congrArg (fun x => x * algebraMap (MvPolynomial (Fin 1) F13) (Rat' F13 (Fin 1)) (C 7)) e
    have h7 : (2 : MvPolynomial (Fin 1) F13) * C 7 = 1 := by rw [← map_ofNat C 2, ← C_mul]; exact C_1
    rw [← map_ofNat (algebraMap (MvPolynomial (Fin 1) F13) (Rat' F13 (Fin 1))) 2] at this
    simp only [← map_mul, h7, map_one, zero_mul] at this
    exact one_ne_zero this⟩
  obtain ⟨qs, e, hs, -⟩ := C119_subs (i := algebraMap (MvPolynomial (Fin 1) F13) (Rat' F13 (Fin 1)))
    (φ := (algebraMap (MvPolynomial (Fin 1) F13) (Rat' F13 (Fin 1))).comp (aeval fun _ : Fin 1 => (C 3 : MvPolynomial (Fin 1) F13)).toRingHom)
    (h2 := C 7) (by rw [← map_ofNat C 2, ← C_mul]; exact C_1) (f := substitute fun _ => C 3) (substitute_poly _)
    (spinPoint_isMassless c ![(![algebraMap (MvPolynomial (Fin 1) F13) _ (X 0), 1], ![1, algebraMap (MvPolynomial (Fin 1) F13) _ (X 0)]), (![0, 1], ![1, 0])])
    (by intro k j; fin_cases k <;> fin_cases j; exacts [⟨X 0, rfl⟩, ⟨1, map_one _⟩, ⟨0, map_zero _⟩, ⟨1, map_one _⟩])
    (by intro k j; fin_cases k <;> fin_cases j; exacts [⟨1, map_one _⟩, ⟨X 0, rfl⟩, ⟨1, map_one _⟩, ⟨0, map_zero _⟩])
  refine ⟨qs, e, fun k => ?_⟩
  have := hs k
  convert this using 1 <;> funext j <;> fin_cases k <;> fin_cases j
  exacts [hX.symm, h1.symm, h0.symm, h1.symm, h1.symm, hX.symm, h1.symm, h0.symm]

end Lips

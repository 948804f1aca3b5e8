import Verif.Props.Construct
import Verif.Examples.FixMom

/-! Concrete cases for C109. -/

namespace Lips

/-- An absolute value that is zero at zero only. -/
def absF13 (x : F13) : ℕ := if x = 0 then 0 else 1

theorem absF13_iff (x : F13) : absF13 x ≤ 0 ↔ x = 0 := by unfold absF13; split_ifs with h <;> simp [h]

def exR (k : Fin 4) : V2 F13 := (exSpin k).1
def exL (k : Fin 4) : V2 F13 := (exSpin k).2

theorem ex_not_zero : ¬ SumZero exR exL := by unfold SumZero; decide

/-- Four particles, the first two repair the sum. -/
example : ∃ ps' r', construct (f13 .symmetric) absF13 0 true false (randomParticles (f13 .symmetric) exR exL) (1, 2) = .ok ps' ∧
    Spin (f13 .symmetric) ps' r' exL ∧ Repairs exR exL 0 1 r' :=
  (C109_construct absF13_iff (random_spin _ exR exL) (1, 2) (by decide) (by decide) (by decide)).2.1 ex_not_zero (by decide)

/-- A pair with a vanishing bracket. -/
example : ∃ (r l : Fin 4 → V2 F13), newPoint (f13 .symmetric) absF13 0 true false r l (1, 3) = .error .zeroDivision := by
  let l : Fin 4 → V2 F13 := ![![1, 2], ![0, 1], ![2, 4], ![1, 1]]
  refine ⟨exR, l, (C109_construct absF13_iff (random_spin _ exR l) (1, 3) (by decide) (by decide) (by decide)).2.2 ?_ (by decide)⟩
  unfold SumZero; decide

example : newPoint (f13 .symmetric) absF13 0 true false (fun _ : Fin 1 => ![1, 2]) (fun _ => ![3, 4]) (1, 2) = .error .valueError :=
  C109_one absF13_iff _ _ _ (by decide) (by decide)

example : ∃ ps', newPoint (f13 .symmetric) absF13 0 true false (![![1, 2], ![1, 1]] : Fin 2 → V2 F13) ![![3, 4], ![0, 4]] (2, 1) = .ok ps' ∧ ∀ k, (ps' k).r2 = 0 :=
  C109_two absF13_iff _ _ (by decide) _ (.inr rfl)

example : ∃ ps' r', newPoint (f13 .symmetric) absF13 0 true false (![![1, 2], ![1, 1], ![5, 2]] : Fin 3 → V2 F13) ![![3, 4], ![0, 4], ![3, 7]] (2, 3) = .ok ps' ∧
    Spin (f13 .symmetric) ps' r' ![![3, 4], ![0, 4], ![3, 7]] ∧ ∀ i j, SpecAngle (r' i) (r' j) = 0 :=
  C109_three absF13_iff _ _ (2, 3) (by decide) (by decide) (by decide) (by decide)

/-- With `real_momenta`. -/
example : ∃ ps', newPoint (f13 .symmetric) absF13 0 true true exR exL (1, 2) = .ok ps' ∧ Conserves ps' ∧ ∀ k, Massless (ps' k) := by
  have e : ∃ ps', newPoint (f13 .symmetric) absF13 0 true true exR exL (1, 2) = .ok ps' := by
    have k := (construct_total (f13 .symmetric) absF13_iff true (randomParticles (f13 .symmetric) exR exL) (1, 2)).2
      fun hc => ex_not_zero ((random_spin _ exR exL).conserves_iff.mp hc)
    obtain ⟨ps', h⟩ := C11_real_momenta_returns (f13 .symmetric) rfl rfl (randomParticles (f13 .symmetric) exR exL) (a := 0) (b := 1) (by decide)
      (fun k => r2bToMom 5 (outer (exR k) (exL k))) (fun _ _ _ => rfl) ⟨2, by decide⟩ 1 (by decide +kernel)
    exact ⟨ps', k.trans h⟩
  obtain ⟨ps', e⟩ := e
  obtain ⟨h1, h2, -⟩ := C109_new_real (c := f13 .symmetric) rfl absF13_iff exR exL (1, 2) (by decide) (by decide) (by decide) e
  exact ⟨ps', e, h1, h2⟩

end Lips

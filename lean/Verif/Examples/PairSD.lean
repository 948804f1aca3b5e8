import Verif.Props.PairSD
import Verif.Examples.PairDelta

/-! Concrete cases meeting the hypotheses of the theorems on setting a Mandelstam invariant together with Δ. -/

namespace Lips

/-- C99: `s_123` to 7 and `Δ_12|34|56` to 5. -/
example : (∃ x, (f13 .symmetric).sqrt x = none ∧
      pairSD (f13 .symmetric) (f13 .symmetric).sqrt pt6 [0, 1, 2] 7 triple6 5 = some (.error .typeError)) ∨
    ∃ ps', pairSD (f13 .symmetric) (f13 .symmetric).sqrt pt6 [0, 1, 2] 7 triple6 5 = some (.ok ps') ∧
      GoodPoint (f13 .symmetric) ps' ∧ computeS ps' [0, 1, 2] = 7 ∧ computeDelta ps' 1 triple6 = 5 := by
  rcases C99_mandel_gram (f13 .symmetric) (f13 .symmetric).sqrt ((f13 .symmetric).sqrt_sq) pt6 r6 l6
      pt6_massless [0, 1, 2] (by decide) triple6 triple6_partition 0 1 0 1 2 3 4 5 [] (by decide) rfl rfl rfl
      (.inl (.refl _)) 7 5 (by unfold SDGuard; decide +kernel) (by decide +kernel) with h | ⟨ps', h1, h2, h3, h4, -⟩
  · exact .inl h
  · exact .inr ⟨ps', h1, h2, h3, h4⟩

/-- C99: the guards hold for any two corners. -/
example : (∀ i j, i ≠ j → SDGuard r6 l6 (![0, 2, 4] i) (![1, 3, 5] i) (![0, 2, 4] j) (![1, 3, 5] j)) ∧
    (∀ i, triple6 i = [![0, 2, 4] i, ![1, 3, 5] i]) ∧ ∀ i : Fin 3, SpecSquare (l6 (![0, 2, 4] i)) (l6 (![1, 3, 5] i)) ≠ 0 := by
  unfold SDGuard; decide +kernel

/-- C99: `s_135` and `Δ_12|34|56` is not implemented; `s_124` goes through its complement. -/
example : chooseCorners (n := 6) [0, 2, 4] triple6 = none ∧ chooseCorners (n := 6) [0, 1, 3] triple6 = some (2, 1) := by decide

end Lips

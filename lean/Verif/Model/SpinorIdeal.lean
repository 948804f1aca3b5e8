import Verif.Model.Ideal
import Verif.Model.PolyImage
import Mathlib.Algebra.MvPolynomial.Rename

/-!
Model of `conversionIdeal`, lips/algebraic_geometry/tools.py:32-42, of the constructor of `SpinorIdeal` from invariants,
lips/algebraic_geometry/invariant_ideal.py:25-31, 39-40, of `to_momentum_and_schouten_qring` (lines 56-58) and of
`invariant_slice`, lips/algebraic_geometry/covariant_ideal.py:96-100.

Elimination of variables (package syngular) is an argument. Simplification: the range of variables passed to it, which is
`range(1, 4 * multiplicity)` in one place and `range(0, 4 * multiplicity)` in the other, is taken to mean all components in both.
-/

namespace Lips

open Matrix MvPolynomial

/-- A bracket variable: `A` (angle) or `B`, with the position of its pair of labels. -/
abbrev BrkVar (n : ℕ) := Bool × Fin (pairsList n).length

/-- A variable of the ring of `conversionIdeal`, tools.py:33. -/
abbrev Mixed (n : ℕ) := Comp n ⊕ BrkVar n

section
variable {F : Type*} [Field F] {n : ℕ}

/-- One generator of `conversionIdeal`, tools.py:39-41. -/
noncomputable def conversionGen (x : Comp n → F) (qs : Point F n) (b : BrkVar n) : Except Err (MvPolynomial (Mixed n) ℤ) :=
  match label n (pairsList n)[b.2].1, label n (pairsList n)[b.2].2 with
  | .ok i, .ok j =>
    match (if b.1 then angle (qs i) (qs j) else square (qs i) (qs j)) with
    | .error e => .error e
    | .ok y => (polyOf x y).map fun P => rename Sum.inl P - X (Sum.inr b)
  | .error e, _ => .error e
  | _, .error e => .error e

/-- `conversionIdeal(multiplicity)`, tools.py:32-42. -/
noncomputable def conversionGens (c : Ctx F) (x : Comp n → F) (ps : Point F n) : Except Err (List (MvPolynomial (Mixed n) ℤ)) :=
  match makeAnalytical c ps none fun k j => x (k, j) with
  | .error e => .error e
  | .ok qs => eachOf (conversionGen x qs)
      (((List.finRange _).map fun t => (true, t)) ++ (List.finRange _).map fun t => (false, t))

/-- `SpinorIdeal(multiplicity, invariants, momentum_conservation)`, invariant_ideal.py:25-31; `elim` is `eliminate`, and `minbase`. -/
noncomputable def spinorGens (c : Ctx F) (x : Comp n → F) (ps : Point F n)
    (elim : List (MvPolynomial (Mixed n) ℤ) → List (MvPolynomial (BrkVar n) ℤ)) (covs : List (Cov n)) (mc : Bool) :
    Except Err (List (MvPolynomial (BrkVar n) ℤ)) :=
  both (fun C L => elim (C ++ L.map (rename Sum.inl))) (conversionGens c x ps) (lipsGens c x ps covs mc)

end

end Lips

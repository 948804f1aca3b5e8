import Verif.Model.SpinorIdeal
import Verif.Model.IdealImage

/-!
Model of the images of a `SpinorIdeal`, lips/algebraic_geometry/invariant_ideal.py:44-54, and of `LipsIdeal.invariant_slice`,
lips/algebraic_geometry/covariant_ideal.py:96-100.

An ideal is the list of the texts of its generators. The ring and the attribute `__name__` of an image (lines 52-53) are left out.
-/

namespace Lips

open MvPolynomial

/-- `SpinorIdeal.image`, lines 50-54. -/
def spinorImage (I : List (List Char)) (rule : List Char × Bool) : Except Err (List (List Char)) :=
  eachOf (invariantPolyImage · rule) I

/-- `SpinorIdeal.__call__`, lines 44-48. -/
def spinorCall (I : List (List Char)) : List PyArg → Except Err (List (List Char))
  | .str p :: .bool b :: _ => spinorImage I (p, b)
  | [] | [.str _] => .error .indexError
  | _ => .error .notImplemented

/-- `LipsIdeal.invariant_slice`, covariant_ideal.py:96-100; `elim` is `eliminate`. -/
noncomputable def invariantSlice {F : Type*} [Field F] {n : ℕ} (c : Ctx F) (x : Comp n → F) (ps : Point F n)
    (elim : List (MvPolynomial (Mixed n) ℤ) → List (MvPolynomial (BrkVar n) ℤ)) (L : List (MvPolynomial (Comp n) ℤ)) :
    Except Err (List (MvPolynomial (BrkVar n) ℤ)) :=
  (conversionGens c x ps).map fun C => elim (C ++ L.map (rename Sum.inl))

end Lips

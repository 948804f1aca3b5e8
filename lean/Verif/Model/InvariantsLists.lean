import Verif.Model.InvariantsBrackets

/-!
The joined lists of `Invariants`, lips/invariants.py:105-115.
-/

namespace Lips

/-- `Invariants.full`, invariants.py:105-107. -/
def invFull (r : Key → List PStr) : List PStr := r 0 ++ r 1 ++ r 2 ++ r 3 ++ r 4 ++ r 5 ++ r 6 ++ r 7 ++ r 8

/-- `Invariants.full_minus_4_brackets`, invariants.py:109-111. -/
def invFullMinus4 (r : Key → List PStr) : List PStr := r 0 ++ r 1 ++ r 3 ++ r 4 ++ r 5 ++ r 6 ++ r 7 ++ r 8

/-- `Invariants.invs_N`, invariants.py:113-115. -/
def invN (r : Key → List PStr) : List PStr := r 1 ++ r 2 ++ r 3

end Lips

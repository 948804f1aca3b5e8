import Mathlib.Algebra.Field.Defs

/-!
The arguments of `expression_for_a` and `expression_for_e`, lips/hardcoded_limits/DoubleCollinearLimit_D_and_S_a.py:3
and DoubleCollinearLimit_D_and_S_e.py:3, with their names there. The arguments `a` and `e` are not used.
-/

namespace Lips

/-- Right spinors `(a, b)`, `(e, f)`, `(i, j)`, `(m, n)` and left spinors `(c, d)`, `(g, h)`, `(k, l)`, `(o, p)` of four
particles, and the values asked for, of the Mandelstam invariant (`Y`) and of the Gram determinant (`X`). -/
structure SD (K : Type*) where
  (b c d f g h i j k l m n o p Y X : K)

end Lips

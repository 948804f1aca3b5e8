import Verif.Lemmas.PairSD0
import Verif.Model.PairSDA

namespace Lips

variable {K : Type*} [Field K]

set_option maxRecDepth 100000 in
set_option maxHeartbeats 40000000 in
theorem sdA_eq (z : SD K) : sdA z = -z.x1 ^ 2 := by
  obtain ⟨b, c, d, f, g, h, i, j, k, l, m, n, o, p, Y, X⟩ := z
  unfold sdA
  simp only [SD.x1, SD.pa, SD.pe, SD.k10, SD.k11, SD.num1, SD.den]
  unfold sdA1 sdA2 sdA3 sdA4 sdA5 sdA6 sdA7 sdA8 sdA9 sdA10 sdA11 sdA12 sdA13 sdA14 sdA15 sdA16 sdA17 sdA18 sdA19
     sdA20 sdA21 sdA22 sdA23 sdA24 sdA25 sdA26
  ring

end Lips

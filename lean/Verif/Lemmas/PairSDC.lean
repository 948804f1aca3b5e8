import Verif.Lemmas.PairSD0
import Verif.Model.PairSDC

namespace Lips

variable {K : Type*} [Field K]

set_option maxRecDepth 100000 in
set_option maxHeartbeats 40000000 in
theorem sdC_eq (z : SD K) : sdC z = -z.x0 ^ 2 + 4 * z.det * z.den * z.num0 * (z.c * z.f * z.h - z.d * z.f * z.g) + 4 * z.X * z.den ^ 2 := by
  obtain ⟨b, c, d, f, g, h, i, j, k, l, m, n, o, p, Y, X⟩ := z
  unfold sdC
  simp only [SD.x0, SD.det, SD.p0, SD.pa, SD.k00, SD.k01, SD.k10, SD.k11, SD.num0, SD.den]
  unfold sdC1 sdC2 sdC3 sdC4 sdC5 sdC6 sdC7 sdC8 sdC9 sdC10 sdC11 sdC12 sdC13 sdC14 sdC15 sdC16 sdC17 sdC18 sdC19
     sdC20 sdC21 sdC22 sdC23 sdC24 sdC25 sdC26 sdC27 sdC28 sdC29 sdC30 sdC31 sdC32 sdC33 sdC34 sdC35 sdC36 sdC37
     sdC38 sdC39 sdC40 sdC41 sdC42 sdC43 sdC44 sdC45 sdC46 sdC47 sdC48 sdC49 sdC50 sdC51 sdC52 sdC53 sdC54 sdC55
     sdC56 sdC57 sdC58 sdC59 sdC60 sdC61 sdC62 sdC63 sdC64 sdC65 sdC66 sdC67 sdC68 sdC69 sdC70 sdC71 sdC72 sdC73
     sdC74 sdC75 sdC76 sdC77 sdC78 sdC79 sdC80 sdC81 sdC82 sdC83 sdC84 sdC85 sdC86 sdC87 sdC88 sdC89
  ring

end Lips

import Verif.Lemmas.PairSD0
import Verif.Model.PairSDB

namespace Lips

variable {K : Type*} [Field K]

set_option maxRecDepth 100000 in
set_option maxHeartbeats 40000000 in
theorem sdB_eq (z : SD K) : sdB z = -2 * z.x0 * z.x1 + 4 * z.det * z.den * (z.num1 * (z.c * z.f * z.h - z.d * z.f * z.g) +
    z.den * (z.b * z.d * z.g - z.b * z.c * z.h)) := by
  obtain ⟨b, c, d, f, g, h, i, j, k, l, m, n, o, p, Y, X⟩ := z
  unfold sdB
  simp only [SD.x0, SD.x1, SD.det, SD.p0, SD.pa, SD.pe, SD.k00, SD.k01, SD.k10, SD.k11, SD.num0, SD.num1, SD.den]
  unfold sdB1 sdB2 sdB3 sdB4 sdB5 sdB6 sdB7 sdB8 sdB9 sdB10 sdB11 sdB12 sdB13 sdB14 sdB15 sdB16 sdB17 sdB18 sdB19
     sdB20 sdB21 sdB22 sdB23 sdB24 sdB25 sdB26 sdB27 sdB28 sdB29 sdB30 sdB31 sdB32 sdB33 sdB34 sdB35 sdB36 sdB37
     sdB38 sdB39 sdB40 sdB41 sdB42 sdB43 sdB44 sdB45 sdB46 sdB47 sdB48 sdB49 sdB50 sdB51 sdB52 sdB53 sdB54 sdB55
     sdB56 sdB57 sdB58 sdB59 sdB60 sdB61 sdB62 sdB63 sdB64 sdB65 sdB66 sdB67 sdB68 sdB69 sdB70 sdB71 sdB72 sdB73
     sdB74 sdB75 sdB76
  ring

end Lips

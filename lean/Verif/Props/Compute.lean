import Verif.Lemmas.Compute

/-!
Properties C14-C19, C28, C29: spinor brackets, Mandelstams and spinor strings.
-/

namespace Lips

open Matrix

set_option linter.unusedSimpArgs false

variable {K : Type*} [Field K] {n : ℕ}

/-! ### C14 -/

/-- C14: both brackets are antisymmetric and vanish on the diagonal. -/
theorem C14_antisymmetric (c : Ctx K) {a b : Particle K} {ra la rb lb : V2 K}
    (ha : HasSpinors c a ra la) (hb : HasSpinors c b rb lb) :
    ∃ x y : K, angle a b = .ok x ∧ angle b a = .ok (-x) ∧ square a b = .ok y ∧
      square b a = .ok (-y) ∧ angle a a = .ok 0 ∧ square a a = .ok 0 := by
  refine ⟨SpecAngle ra rb, SpecSquare la lb, ?_, ?_, ?_, ?_, ?_, ?_⟩ <;>
    simp only [angle, square, ha.r_u, hb.r_u, ha.l_u, hb.l_u, ha.r_d, hb.r_d, ha.l_d, hb.l_d,
      dot2_angle, dot2_square] <;> congr 1 <;> simp only [SpecAngle, SpecSquare] <;> ring

/-- C14: the Schouten identity for both brackets. -/
theorem C14_schouten (c : Ctx K) {p q s t : Particle K} {rp lp rq lq rs ls rt lt : V2 K}
    (hp : HasSpinors c p rp lp) (hq : HasSpinors c q rq lq) (hs : HasSpinors c s rs ls)
    (ht : HasSpinors c t rt lt) :
    (∃ pq st ps tq pt qs : K, angle p q = .ok pq ∧ angle s t = .ok st ∧ angle p s = .ok ps ∧
      angle t q = .ok tq ∧ angle p t = .ok pt ∧ angle q s = .ok qs ∧
      pq * st + ps * tq + pt * qs = 0) ∧
    (∃ pq st ps tq pt qs : K, square p q = .ok pq ∧ square s t = .ok st ∧ square p s = .ok ps ∧
      square t q = .ok tq ∧ square p t = .ok pt ∧ square q s = .ok qs ∧
      pq * st + ps * tq + pt * qs = 0) := by
  simp only [angle, square, hp.r_u, hq.r_u, hs.r_u, ht.r_u, hp.l_u, hq.l_u, hs.l_u, ht.l_u,
    hp.r_d, hq.r_d, hs.r_d, ht.r_d, hp.l_d, hq.l_d, hs.l_d, ht.l_d, dot2_angle, dot2_square]
  refine ⟨⟨_, _, _, _, _, _, rfl, rfl, rfl, rfl, rfl, rfl, ?_⟩,
    ⟨_, _, _, _, _, _, rfl, rfl, rfl, rfl, rfl, rfl, ?_⟩⟩ <;>
    simp only [SpecAngle, SpecSquare] <;> ring

/-! ### C15 -/

/-- C15: `s_AB = ⟨A|B⟩[B|A] = 2 pA.pB` and `s_A = 0` for massless particles. -/
theorem C15_two_particle [NeZero (2 : K)] (c : Ctx K) (ps : Point K n) {a b : Fin n}
    {ra la rb lb : V2 K} (ha : IsMassless c (ps a) ra la) (hb : IsMassless c (ps b) rb lb) :
    (∃ x y, angle (ps a) (ps b) = .ok x ∧ square (ps b) (ps a) = .ok y ∧
      computeS ps [a, b] = x * y) ∧
    computeS ps [a, b] = 2 * ldot (ps a) (ps b) ∧ computeS ps [a] = 0 := by
  have h2 : (2 : K) ≠ 0 := NeZero.ne 2
  have e2 : sumR2 ps [a, b] = (ps a).r2 + (ps b).r2 := by simp [sumR2]
  refine ⟨⟨SpecAngle ra rb, SpecSquare lb la, ?_, ?_, ?_⟩, ?_, ?_⟩
  · simp only [angle, ha.r_u, hb.r_d, dot2_angle]
  · simp only [square, hb.l_d, ha.l_u, dot2_square]
  · rw [computeS_eq, e2, ha.r2, hb.r2]
    simp [SpecSq, outer_apply, SpecAngle, SpecSquare]; ring
  · rw [computeS_eq, e2, ldot, hb.cons.mom.bar, ← flip2_eq_adjugate, trace_flip2_mul, SpecDot,
      mul_div_cancel₀ _ h2]
    have h1 := ha.massless
    have h2 := hb.massless
    simp only [Massless] at h1 h2
    simp only [SpecSq, Matrix.add_apply]
    linear_combination h1 + h2
  · rw [computeS_eq]; simpa [sumR2, SpecSq, Massless] using ha.massless

/-- C15: `s` of any list of labels is the Minkowski square of the summed four momentum. -/
theorem C15_general [NeZero (2 : K)] (c : Ctx K) {i : K} (hi : c.imag = some i) (ps : Point K n)
    (ls : List (Fin n)) (v : Fin n → V4 K) (h : ∀ l ∈ ls, Consistent c (ps l) ∧ (ps l).mom = some (v l)) :
    computeS ps ls = SpecMinkSq ((ls.map v).sum) := by
  have key : SpecSlash i ((ls.map v).sum) (sumR2 ps ls) := by
    induction ls with
    | nil => simp [sumR2, SpecSlash]
    | cons l ls ih =>
      obtain ⟨a0, a1, a2, a3⟩ := ih (fun k hk => h k (List.mem_cons_of_mem _ hk))
      obtain ⟨hc, hm⟩ := h l List.mem_cons_self
      obtain ⟨w, wd, hw, -, -, b0, b1, b2, b3⟩ := hc.mom.mom_some i hi
      obtain rfl : w = v l := by rw [hw] at hm; exact Option.some.inj hm
      rw [sumR2_cons, List.map_cons, List.sum_cons]
      simp only [SpecSlash, Matrix.add_apply, Pi.add_apply, a0, a1, a2, a3, b0, b1, b2, b3]
      refine ⟨?_, ?_, ?_, ?_⟩ <;> ring
  obtain ⟨a0, a1, a2, a3⟩ := key
  rw [computeS_eq, SpecSq, a0, a1, a2, a3, SpecMinkSq]
  linear_combination ((ls.map v).sum 2 ^ 2) * c.imag_sq i hi

/-- Sum of a symmetric function over the unordered pairs of a list. -/
def specPairs (f : Fin n → Fin n → K) : List (Fin n) → K
  | [] => 0
  | l :: ls => (ls.map (f l)).sum + specPairs f ls

/-- C15: for massless particles, `s` of a list of labels is the sum of `⟨ij⟩[ji]` over its
pairs. -/
theorem C15_sum_of_pairs (c : Ctx K) (ps : Point K n) (ls : List (Fin n)) (r l : Fin n → V2 K)
    (h : ∀ k ∈ ls, IsMassless c (ps k) (r k) (l k)) :
    computeS ps ls = specPairs (fun i j => SpecAngle (r i) (r j) * SpecSquare (l j) (l i)) ls := by
  induction ls with
  | nil => simp [computeS_eq, sumR2, SpecSq, specPairs]
  | cons a ls ih =>
    rw [specPairs, ← ih (fun k hk => h k (List.mem_cons_of_mem _ hk)), computeS_eq, computeS_eq,
      sumR2_cons]
    have ha := h a List.mem_cons_self
    have cross : ∀ xs : List (Fin n), (∀ k ∈ xs, IsMassless c (ps k) (r k) (l k)) →
        (ps a).r2 0 0 * sumR2 ps xs 1 1 + (ps a).r2 1 1 * sumR2 ps xs 0 0 -
        (ps a).r2 0 1 * sumR2 ps xs 1 0 - (ps a).r2 1 0 * sumR2 ps xs 0 1 =
        (xs.map ((fun i j => SpecAngle (r i) (r j) * SpecSquare (l j) (l i)) a)).sum := by
      intro xs hx
      induction xs with
      | nil => simp [sumR2]
      | cons b xs ihx =>
        have hb := hx b List.mem_cons_self
        rw [List.map_cons, List.sum_cons, ← ihx (fun k hk => hx k (List.mem_cons_of_mem _ hk)),
          sumR2_cons, ha.r2, hb.r2]
        simp [outer_apply, SpecAngle, SpecSquare]; ring
    rw [← cross ls (fun k hk => h k (List.mem_cons_of_mem _ hk))]
    have hm := ha.massless
    simp only [Massless] at hm
    simp only [SpecSq, Matrix.add_apply]
    linear_combination hm

/-! ### C16 -/

/-- C16: the order of the labels of `s` does not matter. -/
theorem C16_order_independent (ps : Point K n) {xs ys : List (Fin n)} (h : xs.Perm ys) :
    computeS ps xs = computeS ps ys := by
  rw [computeS_eq, computeS_eq, sumR2_perm ps h]

/-- C16: on a momentum-conserving point `s` of some labels is `s` of the remaining ones. -/
theorem C16_complement (ps : Point K n) (hc : Conserves ps) {xs ys : List (Fin n)}
    (h : (xs ++ ys).Perm (List.finRange n)) : computeS ps xs = computeS ps ys := by
  have e : sumR2 ps xs + sumR2 ps ys = 0 := by
    rw [← sumR2_append, sumR2_perm ps h, sumR2_finRange]; exact (conserves_iff ps).mp hc
  rw [computeS_eq, computeS_eq, eq_neg_of_add_eq_zero_left e]
  simp [SpecSq]

/-! ### C17 -/

/-- C17: a spinor string evaluates to the sum over choices of one label per slot of the
alternating product of angle and square brackets, with the signs written in the slots. -/
theorem C17_expansion (c : Ctx K) (ps : Point K n) (r l : Fin n → V2 K) (a d : Fin n)
    (mid : List (Slot n)) (ha : HasSpinors c (ps a) (r a) (l a)) (hd : HasSpinors c (ps d) (r d) (l d))
    (hm : ∀ k, Occurs k mid → IsMassless c (ps k) (r k) (l k)) :
    let ang := fun x y => SpecAngle (r x) (r y)
    let sq := fun x y => SpecSquare (l x) (l y)
    (mid.length % 2 = 0 → computeNB ps '⟨' a mid d '⟩' = .ok (specString ang sq true a mid d) ∧
      computeNB ps '[' a mid d ']' = .ok (specString ang sq false a mid d)) ∧
    (mid.length % 2 = 1 → computeNB ps '⟨' a mid d ']' = .ok (specString ang sq true a mid d) ∧
      computeNB ps '[' a mid d '⟩' = .ok (specString ang sq false a mid d)) := by
  intro ang sq
  obtain ⟨h1, h2, h3, h4⟩ := computeNB_ok c ps ha hd mid
  obtain ⟨e1, e2⟩ := bil_chain c ps r l d mid hm
  have e1 := e1 a; have e2 := e2 a
  constructor <;> intro h
  · rw [if_pos h] at e1 e2; rw [h1 h, h3 h, e1, e2]; exact ⟨rfl, rfl⟩
  · rw [if_neg (by omega)] at e1 e2; rw [h2 h, h4 h, e1, e2]; exact ⟨rfl, rfl⟩

/-- C17: the value is linear in every slot, whatever the masses: joining two slot contents adds
the values, and flipping all signs of a slot negates the value. -/
theorem C17_slot_linear (c : Ctx K) (ps : Point K n) {a d : Fin n} {ra la rd ld : V2 K}
    (ha : HasSpinors c (ps a) ra la) (hd : HasSpinors c (ps d) rd ld) (pre post : List (Slot n))
    (s t : Slot n) (first last : Char)
    {x y : K} (hx : computeNB ps first a (pre ++ s :: post) d last = .ok x)
    (hy : computeNB ps first a (pre ++ t :: post) d last = .ok y) :
    computeNB ps first a (pre ++ (s ++ t) :: post) d last = .ok (x + y) ∧
    computeNB ps first a (pre ++ (s.map fun q => (!q.1, q.2)) :: post) d last = .ok (-x) := by
  have hneg : ∀ (f : Particle K → M2 K) (s : Slot n),
      slotMat f ps (s.map fun q => (!q.1, q.2)) = -slotMat f ps s := by
    intro f s
    induction s with
    | nil => simp [slotMat_nil]
    | cons q s ih =>
      rw [List.map_cons, slotMat_cons, slotMat_cons, ih]
      rcases q with ⟨b, k⟩
      cases b <;> simp [add_comm]
  have key : ∀ b, ∀ u w : V2 K,
      bil u (chain ps b (pre ++ (s ++ t) :: post)) w =
        bil u (chain ps b (pre ++ s :: post)) w + bil u (chain ps b (pre ++ t :: post)) w ∧
      bil u (chain ps b (pre ++ (s.map fun q => (!q.1, q.2)) :: post)) w =
        -bil u (chain ps b (pre ++ s :: post)) w := by
    intro b u w
    simp only [chain_append, chain_cons, slotMat_append, hneg]
    constructor
    · rw [add_mul, mul_add, bil_add]
    · rw [neg_mul, mul_neg, bil_neg]
  have hlen : ∀ q : Slot n, (pre ++ q :: post).length = pre.length + post.length + 1 := by
    intro q; simp; omega
  have e : ∀ q : Slot n, computeNB ps first a (pre ++ q :: post) d last =
      if nbSyntaxError (pre.length + post.length + 1) first last then .error .syntaxError
      else .ok (bil (if first = '⟨' then ![ra 1, -ra 0] else la)
        (chain ps (first = '⟨') (pre ++ q :: post)) (if last = '⟩' then rd else ![ld 1, -ld 0])) := by
    intro q
    unfold computeNB
    rw [hlen]
    split
    · rfl
    · rw [ha.r_u, ha.l_d, hd.r_d, hd.l_u]
      by_cases h1 : first = '⟨' <;> by_cases h2 : last = '⟩' <;> simp [h1, h2, need_some, bil]
  rw [e] at hx hy ⊢
  rw [e]
  split at hx
  · cases hx
  · rename_i hse
    simp only [hse] at hy ⊢
    injection hx with hx
    injection hy with hy
    rw [← hx, ← hy, (key _ _ _).1, (key _ _ _).2]
    exact ⟨rfl, rfl⟩

/-! ### C18 -/

/-- C18: reversing a spinor string, whatever the masses of the slots. -/
theorem C18_reversal (c : Ctx K) (ps : Point K n) {a d : Fin n} {ra la rd ld : V2 K}
    (ha : HasSpinors c (ps a) ra la) (hd : HasSpinors c (ps d) rd ld) (mid : List (Slot n))
    (hm : ∀ k, Occurs k mid → Consistent c (ps k)) :
    (mid.length % 2 = 0 → ∃ x y : K,
      computeNB ps '⟨' a mid d '⟩' = .ok x ∧ computeNB ps '⟨' d mid.reverse a '⟩' = .ok (-x) ∧
      computeNB ps '[' a mid d ']' = .ok y ∧ computeNB ps '[' d mid.reverse a ']' = .ok (-y)) ∧
    (mid.length % 2 = 1 → ∃ x : K,
      computeNB ps '⟨' a mid d ']' = .ok x ∧ computeNB ps '[' d mid.reverse a '⟩' = .ok x) := by
  obtain ⟨h1, h2, h3, h4⟩ := computeNB_ok c ps ha hd mid
  obtain ⟨k1, k2, k3, k4⟩ := computeNB_ok c ps hd ha mid.reverse
  rw [List.length_reverse] at k1 k2 k3 k4
  have hf := flip2_chain mid hm
  constructor <;> intro h
  · refine ⟨_, _, h1 h, ?_, h3 h, ?_⟩
    · rw [k1 h, bil_flip_angle ra, hf, neg_neg, typeAfter, if_pos h]
    · rw [k3 h, bil_flip_square la, hf, neg_neg, typeAfter, if_pos h]
  · refine ⟨_, h2 h, ?_⟩
    rw [k4 h, bil_flip_mixed, hf, typeAfter, if_neg (by omega)]; rfl

/-! ### C19 -/

/-- All labels of the list with sign `+`. -/
def plusSlot (ls : List (Fin n)) : Slot n := ls.map fun l => (true, l)

theorem slotMat_plus (f : Particle K → M2 K) (ps : Point K n) (ls : List (Fin n)) :
    slotMat f ps (plusSlot ls) = (ls.map fun l => f (ps l)).sum := by
  simp [slotMat, plusSlot, Function.comp_def]

theorem slot_complement {c : Ctx K} {ps : Point K n} (hps : ∀ k, Consistent c (ps k))
    (hc : Conserves ps) {xs ys : List (Fin n)} (h : (xs ++ ys).Perm (List.finRange n)) (b : Bool) :
    slotMat (barOf b) ps (plusSlot ys) = -slotMat (barOf b) ps (plusSlot xs) := by
  have e : sumR2 ps xs + sumR2 ps ys = 0 := by
    rw [← sumR2_append, sumR2_perm ps h, sumR2_finRange]; exact (conserves_iff ps).mp hc
  have e' : sumR2b ps xs + sumR2b ps ys = 0 := by
    rw [sumR2b_eq ps xs (fun l _ => hps l), sumR2b_eq ps ys (fun l _ => hps l), ← flip2_add, e,
      flip2_zero]
  cases b
  · rw [slotMat_plus, slotMat_plus]; exact eq_neg_of_add_eq_zero_right e
  · rw [slotMat_plus, slotMat_plus]; exact eq_neg_of_add_eq_zero_right e'

/-- C19: on a momentum-conserving point, replacing the labels of any slot by the remaining
labels negates the value of the string. -/
theorem C19_complement_in_slot (c : Ctx K) (ps : Point K n) (hps : ∀ k, Consistent c (ps k))
    (hcons : Conserves ps) {a d : Fin n} {ra la rd ld : V2 K}
    (ha : HasSpinors c (ps a) ra la) (hd : HasSpinors c (ps d) rd ld) (pre post : List (Slot n))
    {xs ys : List (Fin n)} (h : (xs ++ ys).Perm (List.finRange n)) (first last : Char) {v : K}
    (hv : computeNB ps first a (pre ++ plusSlot xs :: post) d last = .ok v) :
    computeNB ps first a (pre ++ plusSlot ys :: post) d last = .ok (-v) := by
  have key : ∀ b, ∀ u w : V2 K, bil u (chain ps b (pre ++ plusSlot ys :: post)) w =
      -bil u (chain ps b (pre ++ plusSlot xs :: post)) w := by
    intro b u w
    simp only [chain_append, chain_cons]
    rw [slot_complement hps hcons h, neg_mul, mul_neg, bil_neg]
  have hlen : (pre ++ plusSlot ys :: post).length = (pre ++ plusSlot xs :: post).length := by simp
  unfold computeNB at hv ⊢
  rw [hlen]
  split at hv
  · cases hv
  · rename_i hse
    rw [if_neg hse]
    rw [ha.r_u, ha.l_d, hd.r_d, hd.l_u] at hv ⊢
    by_cases h1 : first = '⟨' <;> by_cases h2 : last = '⟩' <;>
      simp only [h1, h2, if_true, if_false, need_some, decide_true, decide_false] at hv ⊢ <;>
      (injection hv with hv; rw [← hv]; exact congrArg _ (key _ _ _))

/-- C19: a massless end label may be added to the slot next to it, with either sign, on
either side. -/
theorem C19_end_label_drops (c : Ctx K) (ps : Point K n) {a d : Fin n} {ra la rd ld : V2 K}
    (ha : IsMassless c (ps a) ra la) (hd : IsMassless c (ps d) rd ld) (s : Slot n)
    (rest : List (Slot n)) (sign : Bool) (first last : Char)
    (hf : first = '⟨' ∨ first = '[') (hl : last = '⟩' ∨ last = ']') :
    computeNB ps first a (((sign, a) :: s) :: rest) d last = computeNB ps first a (s :: rest) d last ∧
    computeNB ps first a (rest ++ [(sign, d) :: s]) d last =
      computeNB ps first a (rest ++ [s]) d last := by
  have drop : ∀ (M : M2 K) (b : Bool) (x y : V2 K), bil x (if b then M else -M) y =
      (if b then (1 : K) else -1) * bil x M y := by
    intro M b x y; cases b <;> simp [bil_neg]
  have z1 : ∀ B w, bil ![ra 1, -ra 0] ((ps a).r2b * B) w = 0 := by
    intro B w
    rw [ha.r2b, bil_mul, vecMul_outer, dot2_angle, bil_smul_left]; simp [SpecAngle]; left; ring
  have z2 : ∀ B w, bil la ((ps a).r2 * B) w = 0 := by
    intro B w
    rw [ha.r2, bil_mul, vecMul_outer, dot2_square, bil_smul_left]; simp [SpecSquare]; left; ring
  have z3 : ∀ u, bil u (ps d).r2b ![ld 1, -ld 0] = 0 := by
    intro u
    rw [hd.r2b, bil_outer, dot2_square]; simp [SpecSquare]; right; ring
  have z4 : ∀ u, bil u (ps d).r2 rd = 0 := by
    intro u
    rw [hd.r2, bil_outer, dot2_angle]; simp [SpecAngle]; right; ring
  have c1 : ∀ w, bil ![ra 1, -ra 0] (chain ps true (((sign, a) :: s) :: rest)) w =
      bil ![ra 1, -ra 0] (chain ps true (s :: rest)) w := by
    intro w
    rw [chain_cons, chain_cons, slotMat_cons, add_mul, bil_add]
    have : bil ![ra 1, -ra 0] ((if sign then (ps a).r2b else -(ps a).r2b) * chain ps (!true) rest) w
        = 0 := by
      cases sign
      · simp only [Bool.false_eq_true, if_false, neg_mul, bil_neg, z1, neg_zero]
      · exact z1 _ _
    show bil _ ((if sign then (ps a).r2b else -(ps a).r2b) * _) _ + _ = _
    rw [this, zero_add]
  have c2 : ∀ w, bil la (chain ps false (((sign, a) :: s) :: rest)) w =
      bil la (chain ps false (s :: rest)) w := by
    intro w
    rw [chain_cons, chain_cons, slotMat_cons, add_mul, bil_add]
    have : bil la ((if sign then (ps a).r2 else -(ps a).r2) * chain ps (!false) rest) w
        = 0 := by
      cases sign
      · simp only [Bool.false_eq_true, if_false, neg_mul, bil_neg, z2, neg_zero]
      · exact z2 _ _
    show bil _ ((if sign then (ps a).r2 else -(ps a).r2) * _) _ + _ = _
    rw [this, zero_add]
  have c3 : ∀ b u, typeAfter b rest.length = true →
      bil u (chain ps b (rest ++ [(sign, d) :: s])) ![ld 1, -ld 0] =
      bil u (chain ps b (rest ++ [s])) ![ld 1, -ld 0] := by
    intro b u hb
    rw [chain_append, chain_append, chain_single, chain_single, hb, slotMat_cons, mul_add, bil_add]
    have : bil u (chain ps b rest * (if sign then (ps d).r2b else -(ps d).r2b)) ![ld 1, -ld 0] = 0 := by
      rw [bil_mul]
      cases sign
      · simp only [Bool.false_eq_true, if_false, bil_neg, z3, neg_zero]
      · exact z3 _
    show bil _ (_ * (if sign then (ps d).r2b else -(ps d).r2b)) _ + _ = _
    rw [this, zero_add]
  have c4 : ∀ b u, typeAfter b rest.length = false →
      bil u (chain ps b (rest ++ [(sign, d) :: s])) rd = bil u (chain ps b (rest ++ [s])) rd := by
    intro b u hb
    rw [chain_append, chain_append, chain_single, chain_single, hb, slotMat_cons, mul_add, bil_add]
    have : bil u (chain ps b rest * (if sign then (ps d).r2 else -(ps d).r2)) rd = 0 := by
      rw [bil_mul]
      cases sign
      · simp only [Bool.false_eq_true, if_false, bil_neg, z4, neg_zero]
      · exact z4 _
    show bil _ (_ * (if sign then (ps d).r2 else -(ps d).r2)) _ + _ = _
    rw [this, zero_add]
  have par : ∀ x : Slot n, (rest ++ [x]).length = rest.length + 1 := by intro x; simp
  constructor
  · unfold computeNB
    simp only [List.length_cons]
    split
    · rfl
    · rw [ha.r_u, ha.l_d, hd.r_d, hd.l_u]
      rcases hf with rfl | rfl <;> rcases hl with rfl | rfl <;>
        simp only [if_true, if_false, need_some, decide_true, decide_false, Char.reduceEq] <;>
        first | exact congrArg _ (c1 _) | exact congrArg _ (c2 _)
  · unfold computeNB
    rw [par, par]
    split
    · rfl
    · rename_i hse
      rw [ha.r_u, ha.l_d, hd.r_d, hd.l_u]
      rcases hf with rfl | rfl <;> rcases hl with rfl | rfl <;>
        simp only [if_true, if_false, need_some, decide_true, decide_false, Char.reduceEq]
      · exact congrArg _ (c4 _ _ (by
          have : rest.length % 2 = 1 := by simp [nbSyntaxError] at hse; omega
          simp [typeAfter, this]))
      · exact congrArg _ (c3 _ _ (by
          have : rest.length % 2 = 0 := by simp [nbSyntaxError] at hse; omega
          simp [typeAfter, this]))
      · exact congrArg _ (c4 _ _ (by
          have : rest.length % 2 = 0 := by simp [nbSyntaxError] at hse; omega
          simp [typeAfter, this]))
      · exact congrArg _ (c3 _ _ (by
          have : rest.length % 2 = 1 := by simp [nbSyntaxError] at hse; omega
          simp [typeAfter, this]))

/-! ### C28 -/

/-- The closing bracket that fits the opening one after the given number of slots: an even
number of slots closes with the same kind. -/
def specClosing (first : Char) (slots : ℕ) : Char :=
  if first = '⟨' then (if Even slots then '⟩' else ']') else (if Even slots then ']' else '⟩')

/-- C28: with the unicode brackets, `compute` raises SyntaxError exactly when the closing bracket
does not fit, and otherwise returns a scalar. -/
theorem C28_syntax_error_iff (c : Ctx K) (ps : Point K n) {a d : Fin n} {ra la rd ld : V2 K}
    (ha : HasSpinors c (ps a) ra la) (hd : HasSpinors c (ps d) rd ld) (mid : List (Slot n))
    (first last : Char) (hf : first = '⟨' ∨ first = '[') (hl : last = '⟩' ∨ last = ']') :
    (computeNB ps first a mid d last = .error .syntaxError ↔ last ≠ specClosing first mid.length) ∧
    (last = specClosing first mid.length → ∃ x, computeNB ps first a mid d last = .ok x) := by
  obtain ⟨h1, h2, h3, h4⟩ := computeNB_ok c ps ha hd mid
  rcases Nat.mod_two_eq_zero_or_one mid.length with h | h
  · have he : Even mid.length := Nat.even_iff.mpr h
    rcases hf with rfl | rfl <;> rcases hl with rfl | rfl
    · rw [h1 h]; simp [specClosing, he]
    · simp [specClosing, he, computeNB, nbSyntaxError, h]
    · simp [specClosing, he, computeNB, nbSyntaxError, h]
    · rw [h3 h]; simp [specClosing, he]
  · have he : ¬ Even mid.length := by rw [Nat.even_iff]; omega
    rcases hf with rfl | rfl <;> rcases hl with rfl | rfl
    · simp [specClosing, he, computeNB, nbSyntaxError, h]
    · rw [h2 h]; simp [specClosing, he]
    · rw [h4 h]; simp [specClosing, he]
    · simp [specClosing, he, computeNB, nbSyntaxError, h]

/-- C28 (finding): with ASCII brackets, which the pattern also admits, no string is rejected and
an angle bracket is read as a square one: `<a|..|d>` evaluates to `[a|..|d]`, and `<a|..|d]`
to the same thing. -/
theorem C28_ascii_brackets_misread (c : Ctx K) (ps : Point K n) {a d : Fin n} {ra la rd ld : V2 K}
    (ha : HasSpinors c (ps a) ra la) (hd : HasSpinors c (ps d) rd ld) (mid : List (Slot n)) :
    computeNB ps '<' a mid d '>' = .ok (bil la (chain ps false mid) ![ld 1, -ld 0]) ∧
    computeNB ps '<' a mid d ']' = .ok (bil la (chain ps false mid) ![ld 1, -ld 0]) ∧
    (mid.length % 2 = 0 → computeNB ps '<' a mid d '>' = computeNB ps '[' a mid d ']') := by
  have e1 : computeNB ps '<' a mid d '>' = .ok (bil la (chain ps false mid) ![ld 1, -ld 0]) := by
    simp [computeNB, nbSyntaxError, ha.l_d, hd.l_u, need_some, bil]
  have e2 : computeNB ps '<' a mid d ']' = .ok (bil la (chain ps false mid) ![ld 1, -ld 0]) := by
    simp [computeNB, nbSyntaxError, ha.l_d, hd.l_u, need_some, bil]
  exact ⟨e1, e2, fun h => e1.trans ((computeNB_ok c ps ha hd mid).2.2.1 h).symm⟩

/-! ### C29 -/

/-- C29: contracting an open-ended string with the end spinor gives the closed string. -/
theorem C29_open_strings_glue (c : Ctx K) (ps : Point K n) {a d : Fin n} {ra la rd ld : V2 K}
    (ha : HasSpinors c (ps a) ra la) (hd : HasSpinors c (ps d) rd ld) (mid : List (Slot n)) :
    let even := mid.length % 2 = 0
    (∃ u v, computeOpenEnd ps '⟨' a mid = .ok u ∧ computeOpenEnd ps '[' a mid = .ok v ∧
      (even → computeNB ps '⟨' a mid d '⟩' = .ok (dot2 u rd) ∧
        computeNB ps '[' a mid d ']' = .ok (dot2 v ![ld 1, -ld 0])) ∧
      (¬ even → computeNB ps '⟨' a mid d ']' = .ok (dot2 u ![ld 1, -ld 0]) ∧
        computeNB ps '[' a mid d '⟩' = .ok (dot2 v rd))) ∧
    (∃ u v, computeOpenBegin ps mid d '⟩' = .ok u ∧ computeOpenBegin ps mid d ']' = .ok v ∧
      (even → computeNB ps '⟨' a mid d '⟩' = .ok (dot2 ![ra 1, -ra 0] u) ∧
        computeNB ps '[' a mid d ']' = .ok (dot2 la v)) ∧
      (¬ even → computeNB ps '⟨' a mid d ']' = .ok (dot2 ![ra 1, -ra 0] v) ∧
        computeNB ps '[' a mid d '⟩' = .ok (dot2 la u))) ∧
    (even → computeNB ps '⟨' a mid d '⟩' =
      .ok (dot2 (vecMul ![ra 1, -ra 0] (computeDoubleOpen ps mid)) rd)) ∧
    (¬ even → computeNB ps '⟨' a mid d ']' =
      .ok (dot2 (vecMul ![ra 1, -ra 0] (computeDoubleOpen ps mid)) ![ld 1, -ld 0])) := by
  intro even
  obtain ⟨h1, h2, h3, h4⟩ := computeNB_ok c ps ha hd mid
  have hodd : ¬ even → mid.length % 2 = 1 := by intro h; simp only [even] at h; omega
  have sw : ∀ (x : V2 K) (M : M2 K) (y : V2 K), bil x M y = dot2 x (M.mulVec y) := by
    intro x M y; simp [bil_eq, dot2, mulVec, dotProduct]; ring
  refine ⟨⟨vecMul ![ra 1, -ra 0] (chain ps true mid), vecMul la (chain ps false mid), ?_, ?_, ?_, ?_⟩,
    ?_, ?_, ?_⟩
  · simp [computeOpenEnd, ha.r_u, need_some]
  · simp [computeOpenEnd, ha.l_d, need_some]
  · intro h; exact ⟨h1 h, h3 h⟩
  · intro h; exact ⟨h2 (hodd h), h4 (hodd h)⟩
  · by_cases h : even
    · refine ⟨(chain ps true mid).mulVec rd, (chain ps false mid).mulVec ![ld 1, -ld 0], ?_, ?_, ?_,
        fun h' => absurd h h'⟩
      · have : mid.length % 2 = 0 := h
        simp [computeOpenBegin, hd.r_d, need_some, this]
      · have : mid.length % 2 = 0 := h
        simp [computeOpenBegin, hd.l_u, need_some, this]
      · intro _; rw [h1 h, h3 h, sw, sw]; exact ⟨rfl, rfl⟩
    · refine ⟨(chain ps false mid).mulVec rd, (chain ps true mid).mulVec ![ld 1, -ld 0], ?_, ?_,
        fun h' => absurd h' h, ?_⟩
      · have := hodd h
        simp [computeOpenBegin, hd.r_d, need_some, this]
      · have := hodd h
        simp [computeOpenBegin, hd.l_u, need_some, this]
      · intro _; rw [h2 (hodd h), h4 (hodd h), sw, sw]; exact ⟨rfl, rfl⟩
  · intro h; exact h1 h
  · intro h; exact h2 (hodd h)

/-- C29: `|A⟩[A|` is the bispinor of a massless `A`, and `|A]⟨A|` the conjugate one. -/
theorem C29_completeness (c : Ctx K) {p : Particle K} {r l : V2 K} (h : IsMassless c p r l) :
    ∃ ru lu, p.r_u = some ru ∧ p.l_u = some lu ∧
      (∀ i j, p.r2b i j = r i * l j) ∧ (∀ i j, p.r2 i j = lu i * ru j) := by
  refine ⟨_, _, h.r_u, h.l_u, fun i j => ?_, fun i j => ?_⟩
  · rw [h.r2b, outer_apply]
  · rw [h.r2, outer_apply]

end Lips

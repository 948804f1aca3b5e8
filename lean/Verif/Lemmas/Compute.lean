import Verif.Spec.Compute

/-! Helper lemmas on the invariants. -/

namespace Lips

open Matrix

set_option linter.unusedSectionVars false
set_option linter.unusedSimpArgs false

variable {K : Type*} [Field K] {n : ℕ}

/-- `u M w`. -/
def bil (u : V2 K) (M : M2 K) (w : V2 K) : K := dot2 (vecMul u M) w

theorem bil_eq (u : V2 K) (M : M2 K) (w : V2 K) : bil u M w =
    (u 0 * M 0 0 + u 1 * M 1 0) * w 0 + (u 0 * M 0 1 + u 1 * M 1 1) * w 1 := by
  simp [bil, dot2, vecMul, dotProduct]

theorem bil_mul (u : V2 K) (A B : M2 K) (w : V2 K) : bil u (A * B) w = bil (vecMul u A) B w := by
  rw [bil, ← vecMul_vecMul]; rfl

theorem bil_add (u : V2 K) (A B : M2 K) (w : V2 K) : bil u (A + B) w = bil u A w + bil u B w := by
  simp only [bil_eq, Matrix.add_apply]; ring

theorem bil_neg (u : V2 K) (A : M2 K) (w : V2 K) : bil u (-A) w = -bil u A w := by
  simp only [bil_eq, Matrix.neg_apply]; ring

theorem bil_zero (u w : V2 K) : bil u 0 w = 0 := by simp [bil_eq]

theorem bil_one (u w : V2 K) : bil u 1 w = dot2 u w := by simp [bil_eq, dot2]

theorem bil_smul_left (k : K) (u : V2 K) (A : M2 K) (w : V2 K) : bil (k • u) A w = k * bil u A w := by
  simp only [bil_eq, Pi.smul_apply, smul_eq_mul]; ring

theorem bil_mulVec (u : V2 K) (A B : M2 K) (w : V2 K) : bil u (A * B) w = bil u A (B.mulVec w) := by
  simp [bil_eq, Matrix.mul_apply, Fin.sum_univ_two, mulVec, dotProduct]; ring

theorem HasSpinors.r_u {c : Ctx K} {p : Particle K} {r l : V2 K} (h : HasSpinors c p r l) :
    p.r_u = some ![r 1, -r 0] := spinConsistent_ru h.cons.spin h.r_d

theorem HasSpinors.l_u {c : Ctx K} {p : Particle K} {r l : V2 K} (h : HasSpinors c p r l) :
    p.l_u = some ![l 1, -l 0] := spinConsistent_lu h.cons.spin h.l_d

theorem IsMassless.r2b {c : Ctx K} {p : Particle K} {r l : V2 K} (h : IsMassless c p r l) :
    p.r2b = outer r l := by
  ext a b
  rw [h.cons.spinors r l h.r_d h.l_d ((massless_iff p).mp h.massless), outer_apply]

theorem Consistent.r2_eq {c : Ctx K} {p : Particle K} (h : Consistent c p) :
    p.r2 = flip2 p.r2b := by
  rw [h.mom.bar, ← flip2_eq_adjugate, flip2_flip2]

theorem IsMassless.r2 {c : Ctx K} {p : Particle K} {r l : V2 K} (h : IsMassless c p r l) :
    p.r2 = outer ![l 1, -l 0] ![r 1, -r 0] := by
  rw [h.cons.r2_eq, h.r2b, flip2_eq]
  ext a b; fin_cases a <;> fin_cases b <;> simp [outer_apply] <;> ring

theorem vecMul_outer (u s t : V2 K) : vecMul u (outer s t) = dot2 u s • t := by
  funext j
  simp [vecMul, dotProduct, outer_apply, dot2]; ring

theorem bil_outer (u s t w : V2 K) : bil u (outer s t) w = dot2 u s * dot2 t w := by
  simp [bil_eq, outer_apply, dot2]; ring

/-- A sum over a slot pulled out of a product. -/
theorem bil_slot (f : Particle K → M2 K) (ps : Point K n) (u : V2 K) (s : Slot n) (B : M2 K)
    (w : V2 K) : bil u (slotMat f ps s * B) w =
      (s.map fun t => sgn t.1 * bil u (f (ps t.2) * B) w).sum := by
  induction s with
  | nil => simp [slotMat, bil_zero]
  | cons t s ih =>
    have e : slotMat f ps (t :: s) = (if t.1 then f (ps t.2) else -f (ps t.2)) + slotMat f ps s := by
      simp [slotMat]
    rw [e, add_mul, bil_add, ih, List.map_cons, List.sum_cons]
    congr 1
    rcases t with ⟨b, l⟩
    cases b
    · simp [sgn, bil_neg]
    · simp [sgn]

theorem dot2_angle (x y : V2 K) : dot2 ![x 1, -x 0] y = SpecAngle x y := by
  simp [dot2, SpecAngle]; ring

theorem dot2_square (x y : V2 K) : dot2 x ![y 1, -y 0] = SpecSquare x y := by
  simp [dot2, SpecSquare]; ring

theorem need_some (s : V2 K) : need (some s) = .ok s := rfl

/-- Occurrence of a label in a spinor string. -/
def Occurs (k : Fin n) (mid : List (Slot n)) : Prop := ∃ s ∈ mid, ∃ b, (b, k) ∈ s

/-- A chain between two vectors, expanded in brackets. -/
theorem bil_chain (c : Ctx K) (ps : Point K n) (r l : Fin n → V2 K) (d : Fin n)
    (mid : List (Slot n)) (hm : ∀ k, Occurs k mid → IsMassless c (ps k) (r k) (l k)) :
    (∀ a, bil ![r a 1, -r a 0] (chain ps true mid)
        (if mid.length % 2 = 0 then r d else ![l d 1, -l d 0]) =
      specString (fun x y => SpecAngle (r x) (r y)) (fun x y => SpecSquare (l x) (l y)) true a mid d) ∧
    (∀ a, bil (l a) (chain ps false mid)
        (if mid.length % 2 = 0 then ![l d 1, -l d 0] else r d) =
      specString (fun x y => SpecAngle (r x) (r y)) (fun x y => SpecSquare (l x) (l y)) false a mid d) := by
  induction mid with
  | nil =>
    constructor <;> intro a <;> simp [chain, bil_one, specString, dot2_angle, dot2_square]
  | cons s ss ih =>
    obtain ⟨ih1, ih2⟩ := ih (fun k hk => hm k (by
      obtain ⟨s', hs', b, hb⟩ := hk; exact ⟨s', List.mem_cons_of_mem _ hs', b, hb⟩))
    have par : ∀ x y : V2 K, (if (s :: ss).length % 2 = 0 then x else y) =
        (if ss.length % 2 = 0 then y else x) := by
      intro x y
      rw [List.length_cons]
      rcases Nat.mod_two_eq_zero_or_one ss.length with h | h
      · rw [if_neg (by omega), if_pos h]
      · rw [if_pos (by omega), if_neg (by omega)]
    have hs : ∀ t ∈ s, IsMassless c (ps t.2) (r t.2) (l t.2) := fun t ht =>
      hm t.2 ⟨s, List.mem_cons_self, t.1, ht⟩
    constructor <;> intro a
    · rw [par, chain, bil_slot, specString]
      congr 1
      refine List.map_congr_left fun t ht => ?_
      rw [(hs t ht).r2b, bil_mul, vecMul_outer, bil_smul_left, ih2 t.2, mul_assoc, dot2_angle]
    · rw [par, chain, bil_slot, specString]
      congr 1
      refine List.map_congr_left fun t ht => ?_
      rw [(hs t ht).r2, bil_mul, vecMul_outer, bil_smul_left, ih1 t.2, mul_assoc, dot2_square]

/-- What a well-formed spinor string evaluates to. -/
theorem computeNB_ok (c : Ctx K) (ps : Point K n) {a d : Fin n} {ra la rd ld : V2 K}
    (ha : HasSpinors c (ps a) ra la) (hd : HasSpinors c (ps d) rd ld) (mid : List (Slot n)) :
    (mid.length % 2 = 0 → computeNB ps '⟨' a mid d '⟩' =
      .ok (bil ![ra 1, -ra 0] (chain ps true mid) rd)) ∧
    (mid.length % 2 = 1 → computeNB ps '⟨' a mid d ']' =
      .ok (bil ![ra 1, -ra 0] (chain ps true mid) ![ld 1, -ld 0])) ∧
    (mid.length % 2 = 0 → computeNB ps '[' a mid d ']' =
      .ok (bil la (chain ps false mid) ![ld 1, -ld 0])) ∧
    (mid.length % 2 = 1 → computeNB ps '[' a mid d '⟩' =
      .ok (bil la (chain ps false mid) rd)) := by
  have := ha.r_u; have := hd.r_u; have := ha.l_u; have := hd.l_u
  refine ⟨fun h => ?_, fun h => ?_, fun h => ?_, fun h => ?_⟩ <;>
    simp [computeNB, nbSyntaxError, h, ha.r_d, ha.l_d, hd.r_d, hd.l_d, *, need_some, bil]

/-! ### Chains -/

/-- The type of the slot after `k` slots when the first one has type `b`. -/
def typeAfter (b : Bool) (k : ℕ) : Bool := if k % 2 = 0 then b else !b

theorem typeAfter_succ (b : Bool) (k : ℕ) : typeAfter (!b) k = typeAfter b (k + 1) := by
  unfold typeAfter
  rcases Nat.mod_two_eq_zero_or_one k with h | h
  · rw [if_pos h, if_neg (by omega)]
  · rw [if_neg (by omega), if_pos (by omega), Bool.not_not]

/-- The attribute read by a slot of the given type. -/
def barOf (b : Bool) : Particle K → M2 K := if b then Particle.r2b else Particle.r2

theorem chain_cons (ps : Point K n) (b : Bool) (s : Slot n) (ss : List (Slot n)) :
    chain ps b (s :: ss) = slotMat (barOf b) ps s * chain ps (!b) ss := by
  cases b <;> rfl

theorem chain_append (ps : Point K n) (b : Bool) (xs ys : List (Slot n)) :
    chain ps b (xs ++ ys) = chain ps b xs * chain ps (typeAfter b xs.length) ys := by
  induction xs generalizing b with
  | nil => simp [chain, typeAfter]
  | cons x xs ih => rw [List.cons_append, chain_cons, ih, chain_cons, mul_assoc, typeAfter_succ,
      List.length_cons]

theorem chain_single (ps : Point K n) (b : Bool) (s : Slot n) :
    chain ps b [s] = slotMat (barOf b) ps s := by
  rw [chain_cons]; cases b <;> simp [chain]

theorem slotMat_nil (f : Particle K → M2 K) (ps : Point K n) : slotMat f ps [] = 0 := rfl

theorem slotMat_cons (f : Particle K → M2 K) (ps : Point K n) (t : Bool × Fin n) (s : Slot n) :
    slotMat f ps (t :: s) = (if t.1 then f (ps t.2) else -f (ps t.2)) + slotMat f ps s := by
  simp [slotMat]

theorem slotMat_append (f : Particle K → M2 K) (ps : Point K n) (s t : Slot n) :
    slotMat f ps (s ++ t) = slotMat f ps s + slotMat f ps t := by
  simp [slotMat]

theorem slotMat_map {g : M2 K → M2 K} (g0 : g 0 = 0) (gadd : ∀ x y, g (x + y) = g x + g y)
    (f f' : Particle K → M2 K) (ps ps' : Point K n) (s : Slot n)
    (h : ∀ b l, (b, l) ∈ s → f' (ps' l) = g (f (ps l))) :
    slotMat f' ps' s = g (slotMat f ps s) := by
  have gneg : ∀ x, g (-x) = -g x := by
    intro x
    have := gadd x (-x)
    rw [add_neg_cancel, g0] at this
    exact (neg_eq_of_add_eq_zero_right this.symm).symm
  induction s with
  | nil => simp [slotMat_nil, g0]
  | cons t s ih =>
    rw [slotMat_cons, slotMat_cons, gadd, ih (fun b l hl => h b l (List.mem_cons_of_mem _ hl)),
      h t.1 t.2 List.mem_cons_self]
    rcases t with ⟨b, l⟩
    cases b <;> simp [gneg]

theorem flip2_add (x y : M2 K) : flip2 (x + y) = flip2 x + flip2 y := by
  rw [flip2_eq, flip2_eq, flip2_eq]; ext a b; fin_cases a <;> fin_cases b <;> simp <;> ring

theorem flip2_zero : flip2 (0 : M2 K) = 0 := by
  rw [flip2_eq]; ext a b; fin_cases a <;> fin_cases b <;> simp

theorem flip2_mul (x y : M2 K) : flip2 (x * y) = flip2 y * flip2 x := by
  simp only [flip2_eq_adjugate, adjugate_mul_distrib]

theorem flip2_one : flip2 (1 : M2 K) = 1 := by rw [flip2_eq_adjugate, adjugate_one]

theorem trace_flip2 (x : M2 K) : trace (flip2 x) = trace x := by
  rw [flip2_eq, trace_fin_two, trace_fin_two]; simp [add_comm]

/-- Charge conjugation of a slot. -/
theorem flip2_slot {c : Ctx K} {ps : Point K n} {s : Slot n}
    (h : ∀ b l, (b, l) ∈ s → Consistent c (ps l)) (b : Bool) :
    flip2 (slotMat (barOf b) ps s) = slotMat (barOf !b) ps s := by
  symm
  apply slotMat_map flip2_zero flip2_add
  intro b' l hl
  cases b
  · show (ps l).r2b = flip2 (ps l).r2
    rw [flip2_eq_adjugate]; exact (h b' l hl).mom.bar
  · exact (h b' l hl).r2_eq

/-- Charge conjugation reverses a chain. -/
theorem flip2_chain {c : Ctx K} {ps : Point K n} (mid : List (Slot n))
    (h : ∀ k, Occurs k mid → Consistent c (ps k)) (b : Bool) :
    flip2 (chain ps b mid) = chain ps (typeAfter b mid.length) mid.reverse := by
  induction mid generalizing b with
  | nil => simp [chain, flip2_one]
  | cons s ss ih =>
    rw [chain_cons, flip2_mul, ih (fun k hk => h k (by
      obtain ⟨s', hs', b, hb⟩ := hk; exact ⟨s', List.mem_cons_of_mem _ hs', b, hb⟩)),
      flip2_slot (fun b l hl => h l ⟨s, List.mem_cons_self, b, hl⟩), List.reverse_cons,
      chain_append, chain_single, typeAfter_succ, List.length_cons, List.length_reverse]
    congr 2
    unfold typeAfter
    rcases Nat.mod_two_eq_zero_or_one ss.length with h | h
    · rw [if_pos h, if_neg (by omega)]
    · rw [if_neg (by omega), if_pos (by omega)]

theorem bil_flip_mixed (a b : V2 K) (M : M2 K) :
    bil ![a 1, -a 0] M ![b 1, -b 0] = bil b (flip2 M) a := by
  rw [flip2_eq]; simp [bil_eq]; ring

theorem bil_flip_angle (a b : V2 K) (M : M2 K) :
    bil ![a 1, -a 0] M b = -bil ![b 1, -b 0] (flip2 M) a := by
  rw [flip2_eq]; simp [bil_eq]; ring

theorem bil_flip_square (a b : V2 K) (M : M2 K) :
    bil a M ![b 1, -b 0] = -bil b (flip2 M) ![a 1, -a 0] := by
  rw [flip2_eq]; simp [bil_eq]; ring

/-! ### Mandelstams -/

theorem pyDet_two (m : M2 K) : pyDet 2 m = SpecSq m := by
  simp [pyDet, SpecSq, Fin.sum_univ_two, Fin.succAbove]; ring

theorem computeS_eq (ps : Point K n) (ls : List (Fin n)) : computeS ps ls = SpecSq (sumR2 ps ls) :=
  pyDet_two _

theorem specSq_det (m : M2 K) : SpecSq m = m.det := by rw [det_fin_two, SpecSq]

theorem sumR2_cons (ps : Point K n) (l : Fin n) (ls : List (Fin n)) :
    sumR2 ps (l :: ls) = (ps l).r2 + sumR2 ps ls := by simp [sumR2]

theorem sumR2_append (ps : Point K n) (xs ys : List (Fin n)) :
    sumR2 ps (xs ++ ys) = sumR2 ps xs + sumR2 ps ys := by simp [sumR2]

theorem sumR2_perm (ps : Point K n) {xs ys : List (Fin n)} (h : xs.Perm ys) :
    sumR2 ps xs = sumR2 ps ys := (h.map _).sum_eq

theorem sumR2_finRange (ps : Point K n) : sumR2 ps (List.finRange n) = totalMom ps := by
  rw [sumR2, totalMom, ← List.sum_ofFn, List.ofFn_eq_map]

theorem sumR2b_eq {c : Ctx K} (ps : Point K n) (ls : List (Fin n))
    (h : ∀ l ∈ ls, Consistent c (ps l)) : sumR2b ps ls = flip2 (sumR2 ps ls) := by
  induction ls with
  | nil => simp [sumR2b, sumR2, flip2_zero]
  | cons l ls ih =>
    have : sumR2b ps (l :: ls) = (ps l).r2b + sumR2b ps ls := by simp [sumR2b]
    rw [this, sumR2_cons, flip2_add, ih (fun k hk => h k (List.mem_cons_of_mem _ hk)),
      (h l List.mem_cons_self).mom.bar, ← flip2_eq_adjugate]

theorem trace_flip2_mul (x y : M2 K) [NeZero (2 : K)] : trace (x * flip2 y) / 2 = SpecDot x y := by
  rw [flip2_eq, trace_fin_two, SpecDot]
  simp [Matrix.mul_apply, Fin.sum_univ_two]; ring

end Lips

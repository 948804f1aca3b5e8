import Verif.Props.Compute
import Mathlib.LinearAlgebra.Matrix.Determinant.Basic
import Mathlib.Algebra.GroupWithZero.Units.Lemmas

/-!
Properties C20 (Lorentz invariance), C21 (little group), C22 (traces), C26 (determinant).
-/

namespace Lips

open Matrix

set_option linter.unusedSimpArgs false
set_option linter.unusedSectionVars false

variable {K : Type*} [Field K] {n : ℕ}

/-! ### C26 -/

/-- C26: the determinant routine returns the determinant of every non-empty square matrix over
a commutative ring. -/
theorem C26_det_is_determinant {R : Type*} [CommRing R] (m : ℕ) (a : Matrix (Fin (m + 1)) (Fin (m + 1)) R) :
    pyDet (m + 1) a = ∑ σ : Equiv.Perm (Fin (m + 1)), (σ.sign : R) * ∏ i, a (σ i) i := by
  have key : ∀ m (a : Matrix (Fin (m + 1)) (Fin (m + 1)) R), pyDet (m + 1) a = a.det := by
    intro m
    induction m with
    | zero => intro a; rw [pyDet, det_fin_one]
    | succ m ih =>
      intro a
      rw [pyDet, det_succ_row_zero]
      exact Finset.sum_congr rfl fun col _ => by rw [ih]
  rw [key, det_apply']

theorem pyDet_eq_det {R : Type*} [CommRing R] (m : ℕ) (a : Matrix (Fin (m + 1)) (Fin (m + 1)) R) :
    pyDet (m + 1) a = a.det := by
  rw [C26_det_is_determinant, det_apply']

/-- C26: hence multiplicative, invariant under transposition, and vanishing on repeated rows. -/
theorem C26_det_laws {R : Type*} [CommRing R] (m : ℕ) (a b : Matrix (Fin (m + 1)) (Fin (m + 1)) R) :
    pyDet (m + 1) (a * b) = pyDet (m + 1) a * pyDet (m + 1) b ∧
    pyDet (m + 1) aᵀ = pyDet (m + 1) a ∧
    (∀ i j, i ≠ j → (∀ k, a i k = a j k) → pyDet (m + 1) a = 0) := by
  simp only [pyDet_eq_det]
  exact ⟨det_mul _ _, det_transpose _, fun i j hij h => det_zero_of_row_eq hij (funext h)⟩

/-- C26 (finding): for the empty matrix the routine returns 0, not the empty product. -/
theorem C26_empty_matrix {R : Type*} [CommRing R] [Nontrivial R] (a : Matrix (Fin 0) (Fin 0) R) :
    pyDet 0 a = 0 ∧ a.det ≠ 0 := by
  refine ⟨rfl, ?_⟩
  rw [det_isEmpty]; exact one_ne_zero

/-! ### C20 -/

/-- `ps'` is `ps` with every `|k⟩` multiplied by `g` and every `[k|` by `h`, both of
determinant one (so every momentum `|k⟩[k|` becomes `g P h`, massive ones included). -/
structure LorentzImage (c : Ctx K) (g h : M2 K) (ps ps' : Point K n) : Prop where
  det_g : g.det = 1
  det_h : h.det = 1
  mom : ∀ k, (ps' k).r2b = g * (ps k).r2b * h
  cons : ∀ k, Consistent c (ps k)
  cons' : ∀ k, Consistent c (ps' k)
  r_d : ∀ k r, (ps k).r_d = some r → (ps' k).r_d = some (g.mulVec r)
  l_d : ∀ k l, (ps k).l_d = some l → (ps' k).l_d = some (vecMul l h)

/-- The matrix a chain of the given type picks up on its left. -/
def lorL (g h : M2 K) (b : Bool) : M2 K := if b then g else flip2 h
/-- The matrix a chain ending before a slot of the given type picks up on its right. -/
def lorR (g h : M2 K) (b : Bool) : M2 K := if b then flip2 g else h

theorem flip2_mul_self (g : M2 K) (hg : g.det = 1) : flip2 g * g = 1 ∧ g * flip2 g = 1 := by
  rw [flip2_eq_adjugate, adjugate_mul, mul_adjugate, hg, one_smul]; exact ⟨rfl, rfl⟩

theorem LorentzImage.r2 {c : Ctx K} {g h : M2 K} {ps ps' : Point K n} (H : LorentzImage c g h ps ps')
    (k : Fin n) : (ps' k).r2 = flip2 h * (ps k).r2 * flip2 g := by
  rw [(H.cons' k).r2_eq, H.mom, flip2_mul, flip2_mul, ← (H.cons k).r2_eq, mul_assoc]

theorem LorentzImage.chain {c : Ctx K} {g h : M2 K} {ps ps' : Point K n}
    (H : LorentzImage c g h ps ps') (mid : List (Slot n)) (b : Bool) :
    chain ps' b mid = lorL g h b * chain ps b mid * lorR g h (typeAfter b mid.length) := by
  have inv : ∀ b, lorR g h b * lorL g h b = 1 ∧ lorL g h b * lorR g h b = 1 := by
    intro b; cases b
    · exact ⟨(flip2_mul_self h H.det_h).2, (flip2_mul_self h H.det_h).1⟩
    · exact ⟨(flip2_mul_self g H.det_g).1, (flip2_mul_self g H.det_g).2⟩
  induction mid generalizing b with
  | nil => simp [Lips.chain, typeAfter, (inv b).2]
  | cons s ss ih =>
    have hs : slotMat (barOf b) ps' s = lorL g h b * slotMat (barOf b) ps s * lorR g h (!b) := by
      apply slotMat_map (g := fun M => lorL g h b * M * lorR g h (!b))
      · simp
      · intro x y; simp [mul_add, add_mul]
      · intro _ l _
        cases b
        · exact H.r2 l
        · exact H.mom l
    rw [chain_cons, chain_cons, hs, ih, typeAfter_succ, List.length_cons]
    simp only [mul_assoc]
    congr 2
    rw [← mul_assoc (lorR g h !b), (inv !b).1, one_mul]

theorem raise_mulVec (g : M2 K) (_hg : g.det = 1) (r : V2 K) :
    ![(g.mulVec r) 1, -(g.mulVec r) 0] = vecMul ![r 1, -r 0] (flip2 g) := by
  rw [flip2_eq]
  funext j; fin_cases j <;> simp [vecMul, mulVec, dotProduct] <;> ring

theorem raise_vecMul (h : M2 K) (_hh : h.det = 1) (l : V2 K) :
    ![(vecMul l h) 1, -(vecMul l h) 0] = (flip2 h).mulVec ![l 1, -l 0] := by
  rw [flip2_eq]
  funext j; fin_cases j <;> simp [vecMul, mulVec, dotProduct] <;> ring

theorem LorentzImage.hasSpinors {c : Ctx K} {g h : M2 K} {ps ps' : Point K n}
    (H : LorentzImage c g h ps ps') {k : Fin n} {r l : V2 K} (hk : HasSpinors c (ps k) r l) :
    HasSpinors c (ps' k) (g.mulVec r) (vecMul l h) :=
  ⟨H.cons' k, H.r_d k r hk.r_d, H.l_d k l hk.l_d⟩

theorem LorentzImage.sumR2 {c : Ctx K} {g h : M2 K} {ps ps' : Point K n}
    (H : LorentzImage c g h ps ps') (ls : List (Fin n)) :
    sumR2 ps' ls = flip2 h * sumR2 ps ls * flip2 g := by
  induction ls with
  | nil => simp [Lips.sumR2]
  | cons l ls ih => rw [sumR2_cons, sumR2_cons, ih, H.r2, mul_add, add_mul]

theorem LorentzImage.sumR2b {c : Ctx K} {g h : M2 K} {ps ps' : Point K n}
    (H : LorentzImage c g h ps ps') (ls : List (Fin n)) :
    sumR2b ps' ls = g * sumR2b ps ls * h := by
  induction ls with
  | nil => simp [Lips.sumR2b]
  | cons l ls ih =>
    have e : ∀ q : Point K n, Lips.sumR2b q (l :: ls) = (q l).r2b + Lips.sumR2b q ls := by
      intro q; simp [Lips.sumR2b]
    rw [e, e, ih, H.mom, mul_add, add_mul]

/-- Lorentz invariance of spinor brackets and closed spinor strings. -/
theorem C20_spinor_strings (c : Ctx K) (g h : M2 K) (ps ps' : Point K n)
    (H : LorentzImage c g h ps ps') {a d : Fin n} {ra la rd ld : V2 K}
    (ha : HasSpinors c (ps a) ra la) (hd : HasSpinors c (ps d) rd ld) (mid : List (Slot n))
    (first last : Char) (hf : first = '⟨' ∨ first = '[') (hl : last = '⟩' ∨ last = ']') :
    angle (ps' a) (ps' d) = angle (ps a) (ps d) ∧ square (ps' a) (ps' d) = square (ps a) (ps d) ∧
    computeNB ps' first a mid d last = computeNB ps first a mid d last := by
  have ha' := H.hasSpinors ha
  have hd' := H.hasSpinors hd
  have inv1 := flip2_mul_self g H.det_g
  have inv2 := flip2_mul_self h H.det_h
  have sw : ∀ (x : V2 K) (M : M2 K) (y : V2 K), bil x M y = dot2 x (M.mulVec y) := by
    intro x M y; simp [bil_eq, dot2, mulVec, dotProduct]; ring
  have ca : ∀ (x : V2 K) (A M B : M2 K) (y : V2 K), A * B = 1 → bil (vecMul x A) (B * M) y = bil x M y := by
    intro x A M B y hAB
    rw [← bil_mul, ← mul_assoc, hAB, one_mul]
  have cb : ∀ (x : V2 K) (A M B : M2 K) (y : V2 K), A * B = 1 → bil x (M * A) (B.mulVec y) = bil x M y := by
    intro x A M B y hAB
    rw [← bil_mulVec, mul_assoc, hAB, mul_one]
  have main : computeNB ps' first a mid d last = computeNB ps first a mid d last := by
    obtain ⟨h1, h2, h3, h4⟩ := computeNB_ok c ps ha hd mid
    obtain ⟨k1, k2, k3, k4⟩ := computeNB_ok c ps' ha' hd' mid
    rcases Nat.mod_two_eq_zero_or_one mid.length with hp | hp
    · rcases hf with rfl | rfl <;> rcases hl with rfl | rfl
      · rw [h1 hp, k1 hp, H.chain, typeAfter, if_pos hp, raise_mulVec g H.det_g]
        show Except.ok (bil _ (g * _ * flip2 g) _) = _
        rw [mul_assoc, ca _ _ _ _ _ inv1.1, cb _ _ _ _ _ inv1.1]
      · simp [computeNB, nbSyntaxError, hp]
      · simp [computeNB, nbSyntaxError, hp]
      · rw [h3 hp, k3 hp, H.chain, typeAfter, if_pos hp, raise_vecMul h H.det_h]
        show Except.ok (bil _ (flip2 h * _ * h) _) = _
        rw [mul_assoc, ca _ _ _ _ _ inv2.2, cb _ _ _ _ _ inv2.2]
    · rcases hf with rfl | rfl <;> rcases hl with rfl | rfl
      · simp [computeNB, nbSyntaxError, hp]
      · rw [h2 hp, k2 hp, H.chain, typeAfter, if_neg (by omega), raise_mulVec g H.det_g,
          raise_vecMul h H.det_h]
        show Except.ok (bil _ (g * _ * h) _) = _
        rw [mul_assoc, ca _ _ _ _ _ inv1.1, cb _ _ _ _ _ inv2.2]
      · rw [h4 hp, k4 hp, H.chain, typeAfter, if_neg (by omega)]
        show Except.ok (bil _ (flip2 h * _ * flip2 g) _) = _
        rw [mul_assoc, ca _ _ _ _ _ inv2.2, cb _ _ _ _ _ inv1.1]
      · simp [computeNB, nbSyntaxError, hp]
  refine ⟨?_, ?_, main⟩
  · simp only [angle, ha.r_u, hd.r_d, ha'.r_u, hd'.r_d]
    rw [raise_mulVec g H.det_g, ← bil_one, ← bil_one, ← bil_mul, mul_one, ← bil_mulVec, inv1.1]
  · simp only [square, ha.l_d, hd.l_u, ha'.l_d, hd'.l_u]
    rw [raise_vecMul h H.det_h, ← bil_one, ← bil_one, ← bil_mul, mul_one, ← bil_mulVec, inv2.2]

/-- Lorentz invariance of all invariants built from momenta: Mandelstams, traces with an even
number of slots, Gram determinants with any number of corners, Ω, Π and δ5. Particles may be
massive and need no spinors. -/
theorem C20_momentum_invariants (c : Ctx K) (g h : M2 K) (ps ps' : Point K n)
    (H : LorentzImage c g h ps ps') :
    (∀ ls, computeS ps' ls = computeS ps ls) ∧
    (∀ mid : List (Slot n), mid.length % 2 = 0 → computeTr ps' mid = computeTr ps mid) ∧
    (∀ m corner, computeDelta ps' m corner = computeDelta ps m corner) ∧
    (∀ a b, computeDeltaShort ps' a b = computeDeltaShort ps a b) ∧
    (∀ a b d, computeOmega ps' a b d = computeOmega ps a b d) ∧
    (∀ a d, computePi ps' a d = computePi ps a d) ∧
    (∀ l1 l2 l3 l4 l5, computeD5 ps' l1 l2 l3 l4 l5 = computeD5 ps l1 l2 l3 l4 l5) := by
  have inv1 := flip2_mul_self g H.det_g
  have inv2 := flip2_mul_self h H.det_h
  have hS : ∀ ls, computeS ps' ls = computeS ps ls := by
    intro ls
    rw [computeS_eq, computeS_eq, specSq_det, specSq_det, H.sumR2, det_mul, det_mul, det_flip2,
      det_flip2, H.det_g, H.det_h, one_mul, mul_one]
  have hT : ∀ a b, trace (sumR2 ps' a * sumR2b ps' b) = trace (sumR2 ps a * sumR2b ps b) := by
    intro a b
    rw [H.sumR2, H.sumR2b]
    have : flip2 h * sumR2 ps a * flip2 g * (g * sumR2b ps b * h) =
        flip2 h * (sumR2 ps a * sumR2b ps b * h) := by
      simp only [mul_assoc]; rw [← mul_assoc (flip2 g), inv1.1, one_mul]
    rw [this, trace_mul_comm, mul_assoc, inv2.2, mul_one]
  have hDet : ∀ b, pyDet 2 (sumR2b ps' b) = pyDet 2 (sumR2b ps b) := by
    intro b
    rw [pyDet_eq_det, pyDet_eq_det, H.sumR2b, det_mul, det_mul, H.det_g, H.det_h, one_mul, mul_one]
  have hDet' : ∀ b, pyDet 2 (sumR2 ps' b) = pyDet 2 (sumR2 ps b) := hS
  refine ⟨hS, fun mid hm => ?_, fun m corner => ?_, fun a b => ?_, fun a b d => ?_, fun a d => ?_,
    fun l1 l2 l3 l4 l5 => ?_⟩
  · rw [computeTr, computeTr, H.chain, typeAfter, if_pos hm]
    show trace (g * _ * flip2 g) = _
    rw [mul_assoc, trace_mul_comm, mul_assoc, inv1.1, mul_one]
  · rw [computeDelta, computeDelta]
    congr 2
    ext i j
    simp only [submatrix_apply, gram, Matrix.of_apply, hT]
  · rw [computeDeltaShort, computeDeltaShort, hT, hDet, hDet']
  · unfold computeOmega; cases a <;> simp only [hS]
  · unfold computePi; rcases a with _ | ⟨a, _ | ⟨a', as⟩⟩ <;> simp only [hS]
  · simp only [computeD5, hS]

/-- Lorentz invariance of tr5, including which exception it raises. -/
theorem C20_tr5 (c : Ctx K) (g h : M2 K) (ps ps' : Point K n) (H : LorentzImage c g h ps ps')
    (r l : Fin n → V2 K) (hs : ∀ k, HasSpinors c (ps k) (r k) (l k)) (a b d e : Slot n) :
    computeTr5 ps' a b d e = computeTr5 ps a b d e := by
  unfold computeTr5
  rcases tr5Rotate 4 (a, b, d, e) with _ | ⟨_ | ⟨⟨_ | _, q⟩, as⟩, x, y, z⟩
  · rfl
  · rfl
  · rfl
  · simp only
    rw [(C20_spinor_strings c g h ps ps' H (hs q) (hs q) [x, y, z] '[' '⟩' (by simp) (by simp)).2.2,
      (C20_spinor_strings c g h ps ps' H (hs q) (hs q) [x, y, z] '⟨' ']' (by simp) (by simp)).2.2]

/-- Such images exist: assigning the transformed spinors to massless particles gives one. -/
theorem C20_images_exist [NeZero (2 : K)] (c : Ctx K) (g h : M2 K) (hg : g.det = 1) (hh : h.det = 1)
    (ps : Point K n) (r l : Fin n → V2 K) (hps : ∀ k, IsMassless c (ps k) (r k) (l k)) :
    LorentzImage c g h ps (fun k => (ofSpinors c (g.mulVec (r k)) (vecMul (l k) h)).st) := by
  have e : ∀ k, (ofSpinors c (g.mulVec (r k)) (vecMul (l k) h)).st.r_d = some (g.mulVec (r k)) ∧
      (ofSpinors c (g.mulVec (r k)) (vecMul (l k) h)).st.l_d = some (vecMul (l k) h) ∧
      (ofSpinors c (g.mulVec (r k)) (vecMul (l k) h)).st.r2b =
        outer (g.mulVec (r k)) (vecMul (l k) h) := by
    intro k
    unfold ofSpinors setLd rebuildFromSpinors
    simp only
    exact ⟨(momFromR2b_fields c _).1, (momFromR2b_fields c _).2.1, (momFromR2b_fields c _).2.2.2.2.2⟩
  refine ⟨hg, hh, fun k => ?_, fun k => (hps k).cons,
    fun k => ((C01_constructors_consistent c).2.2 _ _).2, fun k s hs => ?_, fun k s hs => ?_⟩
  · rw [(e k).2.2, (hps k).r2b]
    ext i j
    simp only [outer_apply, Matrix.mul_apply, Fin.sum_univ_two, mulVec, vecMul, dotProduct]; ring
  · obtain rfl : r k = s := by have := (hps k).r_d; rw [this] at hs; exact Option.some.inj hs
    exact (e k).1
  · obtain rfl : l k = s := by have := (hps k).l_d; rw [this] at hs; exact Option.some.inj hs
    exact (e k).2.1

/-! ### C21 -/

/-- `ps'` is `ps` with `|A⟩` multiplied by `t` and `[A|` divided by `t`. -/
structure LittleGroup (c : Ctx K) (A : Fin n) (t : K) (ps ps' : Point K n) : Prop where
  t0 : t ≠ 0
  others : ∀ k, k ≠ A → ps' k = ps k
  cons : Consistent c (ps A)
  cons' : Consistent c (ps' A)
  massless : Massless (ps A)
  spinors : ∃ r l, (ps A).r_d = some r ∧ (ps A).l_d = some l ∧ (ps' A).r_d = some (t • r) ∧
    (ps' A).l_d = some (t⁻¹ • l)
  massless' : Massless (ps' A)

/-- C21: the momentum is unchanged, so every invariant built from momenta is. -/
theorem C21_momentum_unchanged (c : Ctx K) (A : Fin n) (t : K) (ps ps' : Point K n)
    (H : LittleGroup c A t ps ps') (k : Fin n) :
    (ps' k).r2 = (ps k).r2 ∧ (ps' k).r2b = (ps k).r2b := by
  by_cases hk : k = A
  · subst hk
    obtain ⟨r, l, hr, hl, hr', hl'⟩ := H.spinors
    have h1 : IsMassless c (ps k) r l := ⟨⟨H.cons, hr, hl⟩, H.massless⟩
    have h2 : IsMassless c (ps' k) (t • r) (t⁻¹ • l) := ⟨⟨H.cons', hr', hl'⟩, H.massless'⟩
    have e : (ps' k).r2b = (ps k).r2b := by
      rw [h1.r2b, h2.r2b]
      ext i j
      simp only [outer_apply, Pi.smul_apply, smul_eq_mul]
      have := H.t0
      field_simp
    exact ⟨by rw [H.cons'.r2_eq, H.cons.r2_eq, e], e⟩
  · rw [H.others k hk]; exact ⟨rfl, rfl⟩

theorem slotMat_congr (f : Particle K → M2 K) (ps ps' : Point K n) (h : ∀ k, f (ps' k) = f (ps k))
    (s : Slot n) : slotMat f ps' s = slotMat f ps s := by
  simp only [slotMat, h]

theorem chain_congr (ps ps' : Point K n)
    (h : ∀ k, (ps' k).r2 = (ps k).r2 ∧ (ps' k).r2b = (ps k).r2b) (b : Bool) (mid : List (Slot n)) :
    chain ps' b mid = chain ps b mid := by
  induction mid generalizing b with
  | nil => cases b <;> rfl
  | cons s ss ih =>
    rw [chain_cons, chain_cons, ih, slotMat_congr]
    intro k
    cases b
    · exact (h k).1
    · exact (h k).2

/-- C21: Mandelstams, traces, Gram determinants, Ω, Π and δ5 have weight zero. -/
theorem C21_weight_zero (c : Ctx K) (A : Fin n) (t : K) (ps ps' : Point K n)
    (H : LittleGroup c A t ps ps') :
    (∀ ls, computeS ps' ls = computeS ps ls) ∧
    (∀ mid : List (Slot n), computeTr ps' mid = computeTr ps mid) ∧
    (∀ m corner, computeDelta ps' m corner = computeDelta ps m corner) ∧
    (∀ a b, computeDeltaShort ps' a b = computeDeltaShort ps a b) ∧
    (∀ a b d, computeOmega ps' a b d = computeOmega ps a b d) ∧
    (∀ a d, computePi ps' a d = computePi ps a d) ∧
    (∀ l1 l2 l3 l4 l5, computeD5 ps' l1 l2 l3 l4 l5 = computeD5 ps l1 l2 l3 l4 l5) := by
  have hm := C21_momentum_unchanged c A t ps ps' H
  have h1 : ∀ ls, sumR2 ps' ls = sumR2 ps ls := by intro ls; simp only [sumR2, (hm _).1]
  have h2 : ∀ ls, sumR2b ps' ls = sumR2b ps ls := by intro ls; simp only [sumR2b, (hm _).2]
  have hS : ∀ ls, computeS ps' ls = computeS ps ls := by intro ls; simp only [computeS, h1]
  refine ⟨hS, fun mid => ?_, fun m corner => ?_, fun a b => ?_, fun a b d => ?_, fun a d => ?_,
    fun l1 l2 l3 l4 l5 => ?_⟩
  · rw [computeTr, computeTr, chain_congr ps ps' hm]
  · simp only [computeDelta, gram, h1, h2]
  · simp only [computeDeltaShort, h1, h2]
  · unfold computeOmega; cases a <;> simp only [hS]
  · unfold computePi; rcases a with _ | ⟨a, _ | ⟨a', as⟩⟩ <;> simp only [hS]
  · simp only [computeD5, hS]

/-- Weight of an end of a spinor string under the rescaling of `A`: `+1` for `⟨A|` and `|A⟩`,
`-1` for `[A|` and `|A]`. -/
def specWeight (A k : Fin n) (isAngle : Bool) : ℤ := if k = A then (if isAngle then 1 else -1) else 0

/-- C21: a closed spinor string picks up `t` to the number of its angle ends `A` minus the number
of its square ends `A`. -/
theorem C21_string_weight (c : Ctx K) (A : Fin n) (t : K) (ps ps' : Point K n)
    (H : LittleGroup c A t ps ps') (a d : Fin n) (mid : List (Slot n)) (first last : Char)
    (hf : first = '⟨' ∨ first = '[') (hl : last = '⟩' ∨ last = ']') {x : K}
    (hx : computeNB ps first a mid d last = .ok x) :
    computeNB ps' first a mid d last =
      .ok (t ^ (specWeight A a (first = '⟨') + specWeight A d (last = '⟩')) * x) := by
  have hm := C21_momentum_unchanged c A t ps ps' H
  have ht := H.t0
  obtain ⟨r, l, hr, hl1, hr', hl'⟩ := H.spinors
  have s1 : HasSpinors c (ps A) r l := ⟨H.cons, hr, hl1⟩
  have s2 : HasSpinors c (ps' A) (t • r) (t⁻¹ • l) := ⟨H.cons', hr', hl'⟩
  -- the left and right end vectors scale by their weight
  have scl : ∀ u, (if first = '⟨' then need (ps a).r_u else need (ps a).l_d) = .ok u →
      (if first = '⟨' then need (ps' a).r_u else need (ps' a).l_d) =
        .ok (t ^ specWeight A a (first = '⟨') • u) := by
    intro u hu
    by_cases ha : a = A
    · subst ha
      rcases hf with rfl | rfl
      · simp only [if_true, s1.r_u, s2.r_u, need_some] at hu ⊢
        injection hu with hu
        rw [← hu]; congr 1; funext j; fin_cases j <;> simp [specWeight]
      · simp only [Char.reduceEq, if_false, s1.l_d, s2.l_d, need_some] at hu ⊢
        injection hu with hu
        rw [← hu]; simp [specWeight]
    · rw [H.others a ha]; simp [specWeight, ha, hu]
  have scr : ∀ u, (if last = '⟩' then need (ps d).r_d else need (ps d).l_u) = .ok u →
      (if last = '⟩' then need (ps' d).r_d else need (ps' d).l_u) =
        .ok (t ^ specWeight A d (last = '⟩') • u) := by
    intro u hu
    by_cases hd : d = A
    · subst hd
      rcases hl with rfl | rfl
      · simp only [if_true, s1.r_d, s2.r_d, need_some] at hu ⊢
        injection hu with hu
        rw [← hu]; simp [specWeight]
      · simp only [Char.reduceEq, if_false, s1.l_u, s2.l_u, need_some] at hu ⊢
        injection hu with hu
        rw [← hu]; congr 1; funext j; fin_cases j <;> simp [specWeight]
    · rw [H.others d hd]; simp [specWeight, hd, hu]
  unfold computeNB at hx ⊢
  split at hx
  · cases hx
  · rename_i hse
    rw [if_neg hse]
    rcases hu : (if first = '⟨' then need (ps a).r_u else need (ps a).l_d) with e | u
    · rw [hu] at hx; cases hx
    · rcases hw : (if last = '⟩' then need (ps d).r_d else need (ps d).l_u) with e | w
      · rw [hu, hw] at hx; cases hx
      · rw [hu, hw] at hx
        simp only at hx
        injection hx with hx
        rw [scl u hu, scr w hw, ← hx, chain_congr ps ps' hm]
        simp only
        congr 1
        rw [zpow_add₀ ht]
        simp only [dot2, vecMul, dotProduct, Fin.sum_univ_two, Pi.smul_apply, smul_eq_mul]
        ring

/-! ### C22 -/

theorem typeAfter_even {b : Bool} {k : ℕ} (h : k % 2 = 0) : typeAfter b k = b := by
  rw [typeAfter, if_pos h]

/-- C22: traces are invariant under moving an even number of slots from the front to the back,
whatever the momenta. -/
theorem C22_cyclic (ps : Point K n) (xs ys : List (Slot n)) (hx : xs.length % 2 = 0)
    (hy : ys.length % 2 = 0) : computeTr ps (xs ++ ys) = computeTr ps (ys ++ xs) := by
  rw [computeTr, computeTr, chain_append, chain_append, typeAfter_even hx, typeAfter_even hy,
    trace_mul_comm]

/-- C22: an even trace is invariant under reversal. -/
theorem C22_reversal (c : Ctx K) (ps : Point K n) (mid : List (Slot n))
    (hm : ∀ k, Occurs k mid → Consistent c (ps k)) (he : mid.length % 2 = 0) :
    computeTr ps mid.reverse = computeTr ps mid := by
  have := flip2_chain mid hm true
  rw [typeAfter_even he] at this
  rw [computeTr, computeTr, ← this, trace_flip2]

/-- C22: `tr(A|B) = 2 A.B`. -/
theorem C22_two_slots [NeZero (2 : K)] (c : Ctx K) (ps : Point K n) {a b : Fin n}
    (ha : Consistent c (ps a)) (hb : Consistent c (ps b)) :
    computeTr ps [[(true, a)], [(true, b)]] = 2 * ldot (ps a) (ps b) := by
  have h2 : (2 : K) ≠ 0 := NeZero.ne 2
  rw [(C03_ldot_minkowski c _ _ ha.mom hb.mom).1, ldot, mul_div_cancel₀ _ h2, trace_mul_comm]
  simp [computeTr, chain, slotMat]

/-- C22: a trace whose first slot is a massless label is the spinor string between its spinors. -/
theorem C22_trace_is_string (c : Ctx K) (ps : Point K n) {a : Fin n} {r l : V2 K}
    (ha : IsMassless c (ps a) r l) (rest : List (Slot n)) (hodd : rest.length % 2 = 1) :
    computeNB ps '[' a rest a '⟩' = .ok (computeTr ps ([(true, a)] :: rest)) := by
  rw [(computeNB_ok c ps ha.toHasSpinors ha.toHasSpinors rest).2.2.2 hodd, computeTr, chain_cons]
  have e : slotMat (barOf true) ps [(true, a)] = outer r l := by
    rw [← ha.r2b]; simp [slotMat, barOf]
  rw [e]
  congr 1
  rw [trace_fin_two]
  simp [bil_eq, Matrix.mul_apply, Fin.sum_univ_two, outer_apply]; ring

/-- C22 (finding): an odd number of slots is accepted, and the value then depends on the frame: it
is twice the energy for a single slot. -/
theorem C22_odd_trace_accepted [NeZero (2 : K)] (c : Ctx K) {i : K} (hi : c.imag = some i) (ps : Point K n)
    (a : Fin n) (ha : Consistent c (ps a)) (v : V4 K) (hv : (ps a).mom = some v) :
    computeTr ps [[(true, a)]] = 2 * v 0 := by
  obtain ⟨w, wd, hw, -, -, h0, h1, h2, h3⟩ := ha.mom.mom_some i hi
  obtain rfl : w = v := by rw [hw] at hv; exact Option.some.inj hv
  have : computeTr ps [[(true, a)]] = trace (ps a).r2b := by simp [computeTr, chain, slotMat]
  rw [this, ha.mom.bar, ← flip2_eq_adjugate, trace_flip2, trace_fin_two, h0, h3]; ring

end Lips

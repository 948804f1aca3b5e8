import Verif.Props.Invariance
import Verif.Props.Image
import Verif.Model.Indexing

/-!
Property C35: evaluating on the image of a point is evaluating the relabelled expression.
-/

namespace Lips

open Matrix

variable {K : Type*} [Field K] {n : ℕ}

/-- A slot with its labels mapped. -/
def mapSlot (σ : Equiv.Perm (Fin n)) (s : Slot n) : Slot n := s.map fun t => (t.1, σ t.2)

theorem slotMat_moved (f : Particle K → M2 K) (ps : Point K n) (σ : Equiv.Perm (Fin n)) (s : Slot n) :
    slotMat f (moved ps σ) (mapSlot σ s) = slotMat f ps s := by
  simp [slotMat, mapSlot, moved, Function.comp_def]

theorem chain_moved (ps : Point K n) (σ : Equiv.Perm (Fin n)) (mid : List (Slot n)) (b : Bool) :
    chain (moved ps σ) b (mid.map (mapSlot σ)) = chain ps b mid := by
  induction mid generalizing b with
  | nil => simp [chain]
  | cons s ss ih => rw [List.map_cons, chain_cons, chain_cons, slotMat_moved, ih]

theorem sumR2_moved (ps : Point K n) (σ : Equiv.Perm (Fin n)) (ls : List (Fin n)) :
    sumR2 (moved ps σ) (ls.map σ) = sumR2 ps ls ∧ sumR2b (moved ps σ) (ls.map σ) = sumR2b ps ls := by
  simp [sumR2, sumR2b, moved, Function.comp_def]

theorem computeS_moved (ps : Point K n) (σ : Equiv.Perm (Fin n)) (ls : List (Fin n)) :
    computeS (moved ps σ) (ls.map σ) = computeS ps ls := by
  rw [computeS, computeS, (sumR2_moved ps σ ls).1]

theorem oneChar_mapSlot (hn : n ≤ 9) (σ : Equiv.Perm (Fin n)) (s : Slot n) :
    oneChar (mapSlot σ s) = oneChar s := by
  rcases s with _ | ⟨⟨_ | _, l⟩, _ | ⟨t, s⟩⟩ <;> simp [mapSlot, oneChar]
  have := l.2; have := (σ l).2
  omega

theorem tr5Rotate_mapSlot (hn : n ≤ 9) (σ : Equiv.Perm (Fin n)) : ∀ (k : ℕ) (a b d e : Slot n),
    tr5Rotate k (mapSlot σ a, mapSlot σ b, mapSlot σ d, mapSlot σ e) =
      (tr5Rotate k (a, b, d, e)).map fun q => (mapSlot σ q.1, mapSlot σ q.2.1, mapSlot σ q.2.2.1,
        mapSlot σ q.2.2.2) := by
  intro k
  induction k with
  | zero => intros; rfl
  | succ k ih =>
    intro a b d e
    simp only [tr5Rotate, oneChar_mapSlot hn]
    split
    · rfl
    · exact ih b d e a

/-- C35: on the image of a point under a permutation of the labels every invariant with its labels
mapped by the permutation has the value of the original invariant on the original point. `tr5`
needs at most nine particles because it only recognises one-digit labels. -/
theorem C35_relabel (ps : Point K n) (σ : Equiv.Perm (Fin n)) :
    (∀ first a mid d last, computeNB (moved ps σ) first (σ a) (mid.map (mapSlot σ)) (σ d) last =
      computeNB ps first a mid d last) ∧
    (∀ mid d last, computeOpenBegin (moved ps σ) (mid.map (mapSlot σ)) (σ d) last =
      computeOpenBegin ps mid d last) ∧
    (∀ first a mid, computeOpenEnd (moved ps σ) first (σ a) (mid.map (mapSlot σ)) =
      computeOpenEnd ps first a mid) ∧
    (∀ mid, computeDoubleOpen (moved ps σ) (mid.map (mapSlot σ)) = computeDoubleOpen ps mid) ∧
    (∀ mid, computeTr (moved ps σ) (mid.map (mapSlot σ)) = computeTr ps mid) ∧
    (∀ ls, computeS (moved ps σ) (ls.map σ) = computeS ps ls) ∧
    (∀ m corner, computeDelta (moved ps σ) m (fun i => (corner i).map σ) = computeDelta ps m corner) ∧
    (∀ a b, computeDeltaShort (moved ps σ) (a.map σ) (b.map σ) = computeDeltaShort ps a b) ∧
    (∀ a b d, computeOmega (moved ps σ) (a.map σ) (b.map σ) (d.map σ) = computeOmega ps a b d) ∧
    (∀ a d, computePi (moved ps σ) (a.map σ) (d.map σ) = computePi ps a d) ∧
    (∀ l1 l2 l3 l4 l5, computeD5 (moved ps σ) (σ l1) (σ l2) (σ l3) (σ l4) (σ l5) =
      computeD5 ps l1 l2 l3 l4 l5) ∧
    (n ≤ 9 → ∀ a b d e, computeTr5 (moved ps σ) (mapSlot σ a) (mapSlot σ b) (mapSlot σ d) (mapSlot σ e) =
      computeTr5 ps a b d e) := by
  have hNB : ∀ first a mid d last, computeNB (moved ps σ) first (σ a) (mid.map (mapSlot σ)) (σ d) last =
      computeNB ps first a mid d last := by
    intro first a mid d last
    unfold computeNB
    simp only [List.length_map, chain_moved]
    simp [moved]
  refine ⟨hNB, ?_, ?_, ?_, ?_, computeS_moved ps σ, ?_, ?_, ?_, ?_, ?_, ?_⟩
  · intro mid d last
    unfold computeOpenBegin
    simp only [List.length_map, chain_moved]
    simp [moved]
  · intro first a mid
    unfold computeOpenEnd
    simp only [chain_moved]
    simp [moved]
  · intro mid; rw [computeDoubleOpen, computeDoubleOpen, chain_moved]
  · intro mid; rw [computeTr, computeTr, chain_moved]
  · intro m corner
    have : gram (moved ps σ) (m + 2) (fun i => (corner i).map σ) = gram ps (m + 2) corner := by
      ext i j
      simp only [gram, of_apply, (sumR2_moved ps σ _).1, (sumR2_moved ps σ _).2]
    rw [computeDelta, computeDelta, this]
  · intro a b
    simp only [computeDeltaShort, (sumR2_moved ps σ _).1, (sumR2_moved ps σ _).2]
  · intro a b d
    rcases a with _ | ⟨a0, as⟩
    · rfl
    · have e : d.map σ ++ [σ a0] = (d ++ [a0]).map σ := by simp
      rw [List.map_cons, computeOmega, computeOmega, ← List.map_cons, e]
      simp only [computeS_moved]
  · intro a d
    rcases a with _ | ⟨a0, _ | ⟨a1, as⟩⟩
    · rfl
    · rfl
    · have e : ∀ x, d.map σ ++ [σ x] = (d ++ [x]).map σ := by simp
      rw [List.map_cons, List.map_cons, computePi, computePi, e, e]
      simp only [computeS_moved]
  · intro l1 l2 l3 l4 l5
    have e : ∀ x y, computeS (moved ps σ) [σ x, σ y] = computeS ps [x, y] :=
      fun x y => computeS_moved ps σ [x, y]
    simp only [computeD5, e]
  · intro hn a b d e
    unfold computeTr5
    rw [tr5Rotate_mapSlot hn]
    rcases tr5Rotate 4 (a, b, d, e) with _ | ⟨_ | ⟨⟨_ | _, q⟩, as⟩, x, y, z⟩
    · rfl
    · rfl
    · rfl
    · have h1 := hNB '[' q [x, y, z] q '⟩'
      have h2 := hNB '⟨' q [x, y, z] q ']'
      simp only [List.map_cons, List.map_nil] at h1 h2
      simp only [Option.map_some, mapSlot, List.map_cons]
      simp only [mapSlot] at h1 h2
      rw [h1, h2]

/-! ### The swap flag -/

/-- The point with the two kinds of spinors exchanged in every particle. -/
def swapped (c : Ctx K) (ps : Point K n) : Point K n := fun k => anglesForSquares c (ps k)

theorem swapped_r2 (c : Ctx K) (p : Particle K) : (anglesForSquares c p).r2 = p.r2ᵀ ∧
    (anglesForSquares c p).r2b = p.r2bᵀ := by
  unfold anglesForSquares
  rw [(momFromR2b_fields c _).2.2.2.2.1, (momFromR2b_fields c _).2.2.2.2.2]
  rcases p with ⟨_ | r, _ | l, ru, lu, m, mb, v, vd⟩ <;> exact ⟨rfl, rfl⟩

/-- Conjugation with the antisymmetric tensor. -/
def epsConj (M : M2 K) : M2 K := !![M 1 1, -M 1 0; -M 0 1, M 0 0]

theorem epsConj_mul (A B : M2 K) : epsConj (A * B) = epsConj A * epsConj B := by
  ext i j
  fin_cases i <;> fin_cases j <;> simp [epsConj, Matrix.mul_apply, Fin.sum_univ_two] <;> ring

theorem epsConj_add (A B : M2 K) : epsConj (A + B) = epsConj A + epsConj B := by
  ext i j
  fin_cases i <;> fin_cases j <;> simp [epsConj] <;> ring

theorem epsConj_zero : epsConj (0 : M2 K) = 0 := by
  ext i j; fin_cases i <;> fin_cases j <;> simp [epsConj]

theorem epsConj_one : epsConj (1 : M2 K) = 1 := by
  ext i j; fin_cases i <;> fin_cases j <;> simp [epsConj]

theorem epsConj_eq (M : M2 K) : epsConj M = (flip2 M)ᵀ := by
  rw [flip2_eq]
  ext i j; fin_cases i <;> fin_cases j <;> simp [epsConj]

theorem trace_epsConj (M : M2 K) : trace (epsConj M) = trace M := by
  rw [trace_fin_two, trace_fin_two]; simp [epsConj]; ring

theorem chain_swapped (c : Ctx K) (ps : Point K n) (hc : ∀ k, Consistent c (ps k))
    (mid : List (Slot n)) (b : Bool) :
    chain (swapped c ps) b mid = epsConj (chain ps (!b) mid) := by
  induction mid generalizing b with
  | nil => simp [chain, epsConj_one]
  | cons s ss ih =>
    rw [chain_cons, chain_cons, ih, epsConj_mul]
    congr 1
    apply slotMat_map (g := epsConj) epsConj_zero epsConj_add
    intro _ l _
    cases b
    · simp only [barOf, swapped, Bool.not_false]
      simp only [Bool.false_eq_true, if_false, if_true]
      rw [(swapped_r2 c (ps l)).1, epsConj_eq, ← (hc l).r2_eq]
    · simp only [barOf, swapped, Bool.not_true, Bool.false_eq_true, if_false, if_true]
      rw [(swapped_r2 c (ps l)).2, epsConj_eq, (hc l).r2_eq, flip2_flip2]

theorem swapped_hasSpinors [NeZero (2 : K)] {c : Ctx K} {ps : Point K n} {k : Fin n} {r l : V2 K}
    (h : HasSpinors c (ps k) r l) : HasSpinors c (swapped c ps k) l r := by
  obtain ⟨h1, -, h3, h4, -⟩ := C08_swap_is_parity c (ps k) h.cons
  exact ⟨h1, h3.trans h.l_d, h4.trans h.r_d⟩

theorem swapped_sum (c : Ctx K) (ps : Point K n) (ls : List (Fin n)) :
    sumR2 (swapped c ps) ls = (sumR2 ps ls)ᵀ ∧ sumR2b (swapped c ps) ls = (sumR2b ps ls)ᵀ := by
  induction ls with
  | nil => simp [sumR2, sumR2b]
  | cons l ls ih =>
    simp only [sumR2, sumR2b, List.map_cons, List.sum_cons] at ih ⊢
    rw [ih.1, ih.2, swapped, (swapped_r2 c _).1, (swapped_r2 c _).2, transpose_add, transpose_add]
    exact ⟨rfl, rfl⟩

/-- C35, flag set: exchanging the two kinds of spinors of every particle exchanges angle and
square brackets in every closed spinor string; the sign is minus for strings with both ends of
the same kind and plus for mixed ones, that is minus one to the number of brackets the string
expands into. -/
theorem C35_swap_strings [NeZero (2 : K)] (c : Ctx K) (ps : Point K n)
    (hc : ∀ k, Consistent c (ps k)) {a d : Fin n} {ra la rd ld : V2 K}
    (ha : HasSpinors c (ps a) ra la) (hd : HasSpinors c (ps d) rd ld) (mid : List (Slot n)) :
    (mid.length % 2 = 0 →
      computeNB (swapped c ps) '⟨' a mid d '⟩' = (computeNB ps '[' a mid d ']').map (- ·) ∧
      computeNB (swapped c ps) '[' a mid d ']' = (computeNB ps '⟨' a mid d '⟩').map (- ·)) ∧
    (mid.length % 2 = 1 →
      computeNB (swapped c ps) '⟨' a mid d ']' = computeNB ps '[' a mid d '⟩' ∧
      computeNB (swapped c ps) '[' a mid d '⟩' = computeNB ps '⟨' a mid d ']') := by
  obtain ⟨h1, h2, h3, h4⟩ := computeNB_ok c ps ha hd mid
  obtain ⟨g1, g2, g3, g4⟩ := computeNB_ok c (swapped c ps) (swapped_hasSpinors ha)
    (swapped_hasSpinors hd) mid
  refine ⟨fun hl => ⟨?_, ?_⟩, fun hl => ⟨?_, ?_⟩⟩
  · rw [g1 hl, h3 hl, chain_swapped c ps hc]
    simp [Except.map, bil_eq, epsConj]; ring
  · rw [g3 hl, h1 hl, chain_swapped c ps hc]
    simp [Except.map, bil_eq, epsConj]; ring
  · rw [g2 hl, h4 hl, chain_swapped c ps hc]
    simp [bil_eq, epsConj]; ring
  · rw [g4 hl, h2 hl, chain_swapped c ps hc]
    simp [bil_eq, epsConj]; ring

/-- C35, flag set: Mandelstams, Gram determinants and their relatives are unchanged, an even trace
becomes the one with the other projector (that is, rotated by one slot), and `tr5` changes sign. -/
theorem C35_swap_invariants [NeZero (2 : K)] (c : Ctx K) (ps : Point K n)
    (hc : ∀ k, Consistent c (ps k)) :
    (∀ ls, computeS (swapped c ps) ls = computeS ps ls) ∧
    (∀ s mid, (s :: mid).length % 2 = 0 →
      computeTr (swapped c ps) (s :: mid) = computeTr ps (mid ++ [s])) ∧
    (∀ m corner, computeDelta (swapped c ps) m corner = computeDelta ps m corner) ∧
    (∀ a b, computeDeltaShort (swapped c ps) a b = computeDeltaShort ps a b) ∧
    (∀ a b d, computeOmega (swapped c ps) a b d = computeOmega ps a b d) ∧
    (∀ a d, computePi (swapped c ps) a d = computePi ps a d) ∧
    (∀ l1 l2 l3 l4 l5, computeD5 (swapped c ps) l1 l2 l3 l4 l5 = computeD5 ps l1 l2 l3 l4 l5) ∧
    (∀ (r l : Fin n → V2 K), (∀ k, HasSpinors c (ps k) (r k) (l k)) → ∀ a b d e,
      computeTr5 (swapped c ps) a b d e = (computeTr5 ps a b d e).map (- ·)) := by
  have hS : ∀ ls, computeS (swapped c ps) ls = computeS ps ls := by
    intro ls
    rw [computeS_eq, computeS_eq, specSq_det, specSq_det, (swapped_sum c ps ls).1, det_transpose]
  have ht : ∀ a b, trace (sumR2 (swapped c ps) a * sumR2b (swapped c ps) b) =
      trace (sumR2 ps a * sumR2b ps b) := by
    intro a b
    rw [(swapped_sum c ps a).1, (swapped_sum c ps b).2, ← transpose_mul, trace_transpose,
      trace_mul_comm]
  refine ⟨hS, ?_, ?_, ?_, ?_, ?_, ?_, ?_⟩
  · intro s mid hl
    rw [computeTr, computeTr, chain_swapped c ps hc, trace_epsConj, Bool.not_true, chain_cons,
      Bool.not_false, chain_append, trace_mul_comm, chain_single]
    have : typeAfter true mid.length = false := by
      simp only [List.length_cons] at hl
      unfold typeAfter
      rw [if_neg (by omega)]; rfl
    rw [this]
  · intro m corner
    have : gram (swapped c ps) (m + 2) corner = gram ps (m + 2) corner := by
      ext i j
      simp only [gram, of_apply, ht]
    rw [computeDelta, computeDelta, this]
  · intro a b
    have e : ∀ M : M2 K, pyDet 2 Mᵀ = pyDet 2 M := by
      intro M
      exact (pyDet_eq_det 1 Mᵀ).trans ((det_transpose M).trans (pyDet_eq_det 1 M).symm)
    rw [computeDeltaShort, computeDeltaShort, ht, (swapped_sum c ps a).1, (swapped_sum c ps b).2, e, e]
  · intro a b d
    rcases a with _ | ⟨a0, as⟩
    · rfl
    · simp only [computeOmega, hS]
  · intro a d
    rcases a with _ | ⟨a0, _ | ⟨a1, as⟩⟩
    · rfl
    · rfl
    · simp only [computePi, hS]
  · intro l1 l2 l3 l4 l5
    simp only [computeD5, hS]
  · intro r l hs a b d e
    unfold computeTr5
    rcases tr5Rotate 4 (a, b, d, e) with _ | ⟨_ | ⟨⟨_ | _, q⟩, as⟩, x, y, z⟩
    · rfl
    · rfl
    · rfl
    · simp only
      obtain ⟨h1, h2⟩ := (C35_swap_strings c ps hc (hs q) (hs q) [x, y, z]).2 (by simp)
      obtain ⟨-, k2, -, k4⟩ := computeNB_ok c ps (hs q) (hs q) [x, y, z]
      rw [h1, h2, k2 (by simp), k4 (by simp)]
      simp [Except.map]

end Lips

import Verif.Model.Cluster
import Verif.Props.Gram
import Verif.Props.Text

/-!
Properties C45, C46, C47: clustering.
-/

namespace Lips

open Matrix

variable {K : Type*} [Field K] {n m : ℕ}

theorem cluster_leg {c : Ctx K} {ps : Point K n} {corner : Fin m → List (Fin n)} {qs : Point K m}
    (h : cluster c ps corner = some qs) (k : Fin m) :
    pSum c ((corner k).map ps) = some (some (qs k)) := by
  unfold cluster at h
  split at h
  · rename_i hs
    cases h
    have := hs k
    unfold clusterLeg at this ⊢
    split at this
    · rename_i q hq; rw [hq]; simp only [hq, Option.getD_some]
    · simp at this
  · cases h

/-! ### C45 -/

/-- C45: the `k`-th particle of the clustered point has the summed momentum of corner `k`. -/
theorem C45_leg_momentum {c : Ctx K} {ps : Point K n} {corner : Fin m → List (Fin n)}
    {qs : Point K m} (h : cluster c ps corner = some qs) (k : Fin m) (a b : Fin 2) :
    (qs k).r2 a b = ((corner k).map fun i => (ps i).r2 a b).sum := by
  rw [C06_sum_is_vector_sum c _ _ (cluster_leg h k)]
  generalize corner k = ls
  induction ls with
  | nil => rfl
  | cons x ls ih => simp only [List.map_cons, List.sum_cons, Matrix.add_apply, ih]

theorem cluster_r2 {c : Ctx K} {ps : Point K n} {corner : Fin m → List (Fin n)}
    {qs : Point K m} (h : cluster c ps corner = some qs) (k : Fin m) :
    (qs k).r2 = sumR2 ps (corner k) := by
  rw [C06_sum_is_vector_sum c _ _ (cluster_leg h k), sumR2, List.map_map]; rfl

/-- C45: a corner with one label keeps that particle with its spinors. -/
theorem C45_single_leg {c : Ctx K} {ps : Point K n} {corner : Fin m → List (Fin n)}
    {qs : Point K m} (h : cluster c ps corner = some qs) (k : Fin m) (i : Fin n)
    (hk : corner k = [i]) : qs k = ps i := by
  have := cluster_leg h k
  rw [hk] at this
  simp only [List.map_cons, List.map_nil, pSum, pSumFrom, Option.map_some, Option.some.injEq] at this
  exact this.symm

theorem sumR2_flatMap {c : Ctx K} {ps : Point K n} {corner : Fin m → List (Fin n)}
    {qs : Point K m} (h : cluster c ps corner = some qs) (ls : List (Fin m)) :
    sumR2 qs ls = sumR2 ps (ls.flatMap corner) := by
  induction ls with
  | nil => rfl
  | cons k ls ih => rw [sumR2_cons, ih, List.flatMap_cons, sumR2_append, cluster_r2 h]

/-- C45: clustering a partition of the labels preserves the total momentum. -/
theorem C45_total_momentum {c : Ctx K} {ps : Point K n} {corner : Fin m → List (Fin n)}
    {qs : Point K m} (h : cluster c ps corner = some qs)
    (hp : ((List.finRange m).flatMap corner).Perm (List.finRange n)) : totalMom qs = totalMom ps := by
  rw [← sumR2_finRange, ← sumR2_finRange, sumR2_flatMap h, sumR2_perm ps hp]

theorem pSumFrom_consistent [NeZero (2 : K)] (c : Ctx K) (qs : List (Particle K)) :
    ∀ acc s, Consistent c acc → pSumFrom c acc qs = some s → Consistent c s := by
  induction qs with
  | nil => intro acc s ha h; cases h; exact ha
  | cons q qs ih =>
    intro acc s ha h
    unfold pSumFrom at h
    rcases ho : pAdd c acc q with ⟨t, _ | e⟩
    · rw [ho] at h
      refine ih t s ?_ h
      have := (C06_results_consistent c acc q 0).1
      rw [ho] at this
      exact this rfl
    · rw [ho] at h; simp at h

/-- C45: the clustered particles are consistent. -/
theorem C45_consistent [NeZero (2 : K)] {c : Ctx K} {ps : Point K n} {corner : Fin m → List (Fin n)}
    {qs : Point K m} (hc : ∀ i, Consistent c (ps i)) (h : cluster c ps corner = some qs) (k : Fin m) :
    Consistent c (qs k) := by
  have := cluster_leg h k
  cases hk : corner k with
  | nil => rw [hk] at this; simp [pSum] at this
  | cons i is =>
    rw [hk] at this
    simp only [List.map_cons, pSum, Option.map_eq_some_iff] at this
    obtain ⟨s, hs, he⟩ := this
    cases he
    exact pSumFrom_consistent c _ _ _ (hc i) hs

/-- A slot over clusters with the clusters spelled out. -/
def spellSlot (corner : Fin m → List (Fin n)) (s : Slot m) : Slot n :=
  s.flatMap fun t => (corner t.2).map fun i => (t.1, i)

theorem slotMat_spell {c : Ctx K} {ps : Point K n} {corner : Fin m → List (Fin n)} {qs : Point K m}
    (h : cluster c ps corner = some qs) (s : Slot m) :
    slotMat Particle.r2 qs s = slotMat Particle.r2 ps (spellSlot corner s) := by
  induction s with
  | nil => rfl
  | cons t s ih =>
    have e : spellSlot corner (t :: s) = ((corner t.2).map fun i => (t.1, i)) ++ spellSlot corner s := by
      simp [spellSlot]
    rw [e, slotMat_append, ← ih, slotMat_cons, cluster_r2 h]
    congr 1
    rcases t with ⟨b, k⟩
    cases b
    · simp only [slotMat, List.map_map, Function.comp_def, sumR2, Bool.false_eq_true, if_false]
      generalize corner k = ls
      induction ls with
      | nil => simp
      | cons x ls ihl => simp only [List.map_cons, List.sum_cons, neg_add, ihl]
    · simp only [slotMat, List.map_map, Function.comp_def, sumR2, if_true]

theorem slotMat_spell_bar [NeZero (2 : K)] {c : Ctx K} {ps : Point K n}
    {corner : Fin m → List (Fin n)} {qs : Point K m} (hc : ∀ i, Consistent c (ps i))
    (h : cluster c ps corner = some qs) (s : Slot m) :
    slotMat Particle.r2b qs s = slotMat Particle.r2b ps (spellSlot corner s) := by
  have e1 := flip2_slot (s := s) (fun _ l _ => C45_consistent hc h l) false
  have e2 := flip2_slot (s := spellSlot corner s) (fun _ l _ => hc l) false
  exact e1.symm.trans ((congrArg flip2 (slotMat_spell h s)).trans e2)

theorem chain_spell [NeZero (2 : K)] {c : Ctx K} {ps : Point K n}
    {corner : Fin m → List (Fin n)} {qs : Point K m} (hc : ∀ i, Consistent c (ps i))
    (h : cluster c ps corner = some qs) (mid : List (Slot m)) (b : Bool) :
    chain qs b mid = chain ps b (mid.map (spellSlot corner)) := by
  induction mid generalizing b with
  | nil => simp [chain]
  | cons s ss ih =>
    cases b
    · simp only [List.map_cons, chain, ih, slotMat_spell h]
    · simp only [List.map_cons, chain, ih, slotMat_spell_bar hc h]

theorem sumR2b_flatMap [NeZero (2 : K)] {c : Ctx K} {ps : Point K n}
    {corner : Fin m → List (Fin n)} {qs : Point K m} (hc : ∀ i, Consistent c (ps i))
    (h : cluster c ps corner = some qs) (ls : List (Fin m)) :
    sumR2b qs ls = sumR2b ps (ls.flatMap corner) := by
  rw [sumR2b_eq qs ls fun l _ => C45_consistent hc h l, sumR2b_eq ps _ fun l _ => hc l,
    sumR2_flatMap h]

/-- C45: Mandelstam variables, Gram determinants, traces and spinor strings between single-label
corners have on the clustered point the value they have on the original point with the labels of
each corner spelled out. -/
theorem C45_invariants [NeZero (2 : K)] {c : Ctx K} {ps : Point K n}
    {corner : Fin m → List (Fin n)} {qs : Point K m} (hc : ∀ i, Consistent c (ps i))
    (h : cluster c ps corner = some qs) :
    (∀ ls, computeS qs ls = computeS ps (ls.flatMap corner)) ∧
    (∀ k (g : Fin (k + 2) → List (Fin m)),
      computeDelta qs k g = computeDelta ps k fun i => (g i).flatMap corner) ∧
    (∀ mid, computeTr qs mid = computeTr ps (mid.map (spellSlot corner))) ∧
    (∀ first a i mid d j last, corner a = [i] → corner d = [j] →
      computeNB qs first a mid d last = computeNB ps first i (mid.map (spellSlot corner)) j last) := by
  refine ⟨fun ls => ?_, fun k g => ?_, fun mid => ?_, fun first a i mid d j last ha hd => ?_⟩
  · rw [computeS, computeS, sumR2_flatMap h]
  · have : gram qs (k + 2) g = gram ps (k + 2) fun i => (g i).flatMap corner := by
      ext i j
      simp only [gram, of_apply, sumR2_flatMap h, sumR2b_flatMap hc h]
    rw [computeDelta, computeDelta, this]
  · rw [computeTr, computeTr, chain_spell hc h]
  · rw [computeNB, computeNB, C45_single_leg h a i ha, C45_single_leg h d j hd, chain_spell hc h,
      List.length_map]

/-- C45: clustering in two steps gives the same momenta as clustering once. -/
theorem C45_two_steps {l : ℕ} {c : Ctx K} {ps : Point K n} {A : Fin m → List (Fin n)}
    {B : Fin l → List (Fin m)} {qs : Point K m} {rs ts : Point K l}
    (h1 : cluster c ps A = some qs) (h2 : cluster c qs B = some rs)
    (h : cluster c ps (fun k => (B k).flatMap A) = some ts) (k : Fin l) : pEq (rs k) (ts k) := by
  rw [pEq, cluster_r2 h2, cluster_r2 h, sumR2_flatMap h1]

/-- C45: in the default convention clustering into non-empty corners always succeeds. -/
theorem C45_succeeds (c : Ctx K) (hc : c.conv = .symmetric) (ps : Point K n)
    (corner : Fin m → List (Fin n)) (hne : ∀ k, corner k ≠ []) :
    ∃ qs, cluster c ps corner = some qs := by
  have : ∀ k, (clusterLeg c ps (corner k)).isSome := by
    intro k
    obtain ⟨s, hs⟩ := C06_sum_total c hc ((corner k).map ps) (by simpa using hne k)
    simp [clusterLeg, hs]
  exact ⟨_, by rw [cluster, if_pos this]⟩

/-! ### C47 -/

theorem fermionOf_u (ra la rb lb : V2 K) : fermionOf .u ra la rb lb =
    ⟨!![ra 0, rb 0; ra 1, rb 1], !![-lb 0, -lb 1; la 0, la 1], !![ra 1, -ra 0; rb 1, -rb 0],
      !![-lb 1, la 1; lb 0, -la 0]⟩ := by
  have hr : (Matrix.of fun al i => ![ra al, rb al] i : M2 K) = !![ra 0, rb 0; ra 1, rb 1] := by
    ext i j; fin_cases i <;> fin_cases j <;> rfl
  have hl : (Matrix.of ![la, lb] : M2 K) = !![la 0, la 1; lb 0, lb 1] := by
    ext i j; fin_cases i <;> fin_cases j <;> rfl
  simp only [fermionOf, fermionUp, hr, hl, Fermion.mk.injEq]
  refine ⟨trivial, ?_, ?_, ?_⟩ <;> ext i j <;> fin_cases i <;> fin_cases j <;>
    simp [eps, mul_apply, Fin.sum_univ_two, -cons_mul]

theorem fermionOf_d (ra la rb lb : V2 K) : fermionOf .d ra la rb lb =
    ⟨!![rb 0, -ra 0; rb 1, -ra 1], !![la 0, la 1; lb 0, lb 1], !![rb 1, -rb 0; -ra 1, ra 0],
      !![la 1, lb 1; -la 0, -lb 0]⟩ := by
  have hr : (Matrix.of fun al i => ![ra al, rb al] i : M2 K) = !![ra 0, rb 0; ra 1, rb 1] := by
    ext i j; fin_cases i <;> fin_cases j <;> rfl
  have hl : (Matrix.of ![la, lb] : M2 K) = !![la 0, la 1; lb 0, lb 1] := by
    ext i j; fin_cases i <;> fin_cases j <;> rfl
  simp only [fermionOf, fermionUp, hr, hl, Fermion.mk.injEq]
  refine ⟨?_, trivial, ?_, ?_⟩ <;> ext i j <;> fin_cases i <;> fin_cases j <;>
    simp [eps, mul_apply, Fin.sum_univ_two, -cons_mul]

/-- C47: the completeness relation: the clustered momentum is the sum over states, with the index
contracted by the Levi-Civita tensor in either position. -/
theorem C47_completeness {c : Ctx K} {ps : Point K n} {corner : Fin m → List (Fin n)}
    {qs : Point K m} [NeZero (2 : K)] (hc : ∀ i, Consistent c (ps i))
    (h : cluster c ps corner = some qs) (k : Fin m) (a b : Fin n) (hk : corner k = [a, b])
    {ra la rb lb : V2 K} (ha : IsMassless c (ps a) ra la) (hb : IsMassless c (ps b) rb lb)
    (pos : IndexPos) : ∃ f, clusterFermion ps (corner k) pos = .ok f ∧
      ∀ al be, (qs k).r2b al be = f.r_d al 0 * f.l_d 1 be - f.r_d al 1 * f.l_d 0 be := by
  have hr : (qs k).r2b = (ps a).r2b + (ps b).r2b := by
    have := sumR2b_flatMap hc h [k]
    simpa [sumR2b, hk] using this
  refine ⟨fermionOf pos ra la rb lb, by simp [clusterFermion, hk, ha.r_d, ha.l_d, hb.r_d, hb.l_d], ?_⟩
  intro al be
  rw [hr, Matrix.add_apply, ha.r2b, hb.r2b]
  cases pos <;> simp only [fermionOf_u, fermionOf_d] <;> fin_cases al <;> fin_cases be <;>
    simp [outer_apply] <;> ring

/-- C47: contracting the momentum of a massive fermion made of the massless legs `a`, `b` with its
spinor states gives the mass times the other chirality, with `m = -⟨ab⟩` and `mb = [ab]`, whose
product is the squared mass. Rows or columns are the two spin states; both index positions. -/
theorem C47_dirac {c : Ctx K} {ps : Point K n} {corner : Fin m → List (Fin n)}
    {qs : Point K m} [NeZero (2 : K)] (hc : ∀ i, Consistent c (ps i))
    (h : cluster c ps corner = some qs) (k : Fin m) (a b : Fin n) (hk : corner k = [a, b])
    {ra la rb lb : V2 K} (ha : IsMassless c (ps a) ra la) (hb : IsMassless c (ps b) rb lb)
    (pos : IndexPos) : ∃ f, clusterFermion ps (corner k) pos = .ok f ∧
      (∀ i, (qs k).r2.mulVec (fun al => f.r_d al i) = -(-SpecAngle ra rb) • fun al => f.l_u al i) ∧
      (∀ i, (qs k).r2b.mulVec (fun al => f.l_u al i) = -SpecSquare la lb • fun al => f.r_d al i) ∧
      (∀ i, vecMul (f.r_u i) (qs k).r2b = (-SpecAngle ra rb) • f.l_d i) ∧
      (∀ i, vecMul (f.l_d i) (qs k).r2 = SpecSquare la lb • f.r_u i) ∧
      computeS qs [k] = (-SpecAngle ra rb) * SpecSquare la lb := by
  have hr : (qs k).r2 = (ps a).r2 + (ps b).r2 := by
    rw [cluster_r2 h, hk]; simp [sumR2]
  have hrb : (qs k).r2b = (ps a).r2b + (ps b).r2b := by
    have := sumR2b_flatMap hc h [k]
    simpa [sumR2b, hk] using this
  refine ⟨fermionOf pos ra la rb lb, by simp [clusterFermion, hk, ha.r_d, ha.l_d, hb.r_d, hb.l_d],
    fun i => ?_, fun i => ?_, fun i => ?_, fun i => ?_, ?_⟩
  · rw [hr, ha.r2, hb.r2]
    cases pos <;> simp only [fermionOf_u, fermionOf_d] <;> fin_cases i <;> ext al <;> fin_cases al <;>
      simp [outer_apply, mulVec, dotProduct, Fin.sum_univ_two, SpecAngle] <;> ring
  · rw [hrb, ha.r2b, hb.r2b]
    cases pos <;> simp only [fermionOf_u, fermionOf_d] <;> fin_cases i <;> ext al <;> fin_cases al <;>
      simp [outer_apply, mulVec, dotProduct, Fin.sum_univ_two, SpecSquare] <;> ring
  · rw [hrb, ha.r2b, hb.r2b]
    cases pos <;> simp only [fermionOf_u, fermionOf_d] <;> fin_cases i <;> ext al <;> fin_cases al <;>
      simp [outer_apply, vecMul, dotProduct, Fin.sum_univ_two, SpecAngle] <;> ring
  · rw [hr, ha.r2, hb.r2]
    cases pos <;> simp only [fermionOf_u, fermionOf_d] <;> fin_cases i <;> ext al <;> fin_cases al <;>
      simp [outer_apply, vecMul, dotProduct, Fin.sum_univ_two, SpecSquare] <;> ring
  · rw [computeS_eq]
    have : sumR2 qs [k] = (ps a).r2 + (ps b).r2 := by simp [sumR2, hr]
    rw [this, ha.r2, hb.r2]
    simp [SpecSq, outer, SpecAngle, SpecSquare]
    ring

/-- C47: selecting one spin state by an integer gives the corresponding column or row of all four
spinor arrays. -/
theorem C47_one_state (pos : IndexPos) (ra la rb lb : V2 K) (i : Fin 2) :
    let f := fermionOf pos ra la rb lb
    fermionState f i = (fun al => f.r_d al i, f.l_d i, f.r_u i, fun al => f.l_u al i) := by
  simp only [fermionState, Prod.mk.injEq, true_and]
  cases pos <;> simp only [fermionOf_u, fermionOf_d] <;>
    refine ⟨?_, ?_⟩ <;> fin_cases i <;> ext al <;> fin_cases al <;>
    simp [eps, mulVec, vecMul, dotProduct, Fin.sum_univ_two]

/-- A two-state spinor pair that satisfies the completeness relation for the momentum `P` (lower
bispinor). -/
def Complete (f : Fermion K) (P : M2 K) : Prop :=
  ∀ al be, P al be = f.r_d al 0 * f.l_d 1 be - f.r_d al 1 * f.l_d 0 be

/-- C47: exchanging angle and square brackets on a massive fermion keeps the completeness relation
(now for the transposed bispinor) for both index positions, and with it the Dirac equations. -/
theorem C47_swap (pos : IndexPos) (f : Fermion K) (P : M2 K) (h : Complete f P) :
    Complete (fermionSwap pos f) Pᵀ := by
  intro al be
  rw [transpose_apply, h be al]
  cases pos <;> simp [fermionSwap, fermionUp] <;> ring

/-- C47: the completeness relation implies the Dirac equations; the masses of the two chiralities
are the determinants of the state matrices. -/
theorem C47_dirac_of_completeness (r l P : M2 K) (h : Complete (fermionUp r l) P) (i : Fin 2) :
    let f := fermionUp r l
    let m := r 0 0 * r 1 1 - r 0 1 * r 1 0
    let mb := l 0 0 * l 1 1 - l 0 1 * l 1 0
    ((adjugate P).mulVec (fun al => f.r_d al i) = -m • fun al => f.l_u al i) ∧
    (P.mulVec (fun al => f.l_u al i) = -mb • fun al => f.r_d al i) ∧
    (vecMul (f.r_u i) P = m • f.l_d i) ∧
    (vecMul (f.l_d i) (adjugate P) = mb • f.r_u i) ∧
    P.det = m * mb := by
  have hP : P = !![r 0 0 * l 1 0 - r 0 1 * l 0 0, r 0 0 * l 1 1 - r 0 1 * l 0 1;
      r 1 0 * l 1 0 - r 1 1 * l 0 0, r 1 0 * l 1 1 - r 1 1 * l 0 1] := by
    ext a b
    rw [h a b]
    fin_cases a <;> fin_cases b <;> rfl
  have hu : (fermionUp r l).r_u = !![r 1 0, -r 0 0; r 1 1, -r 0 1] := by
    ext a b
    fin_cases a <;> fin_cases b <;> simp [fermionUp, eps, mul_apply, Fin.sum_univ_two, -cons_mul]
  have hl : (fermionUp r l).l_u = !![l 0 1, l 1 1; -l 0 0, -l 1 0] := by
    ext a b
    fin_cases a <;> fin_cases b <;> simp [fermionUp, eps, mul_apply, Fin.sum_univ_two, -cons_mul]
  have hr : (fermionUp r l).r_d = r := rfl
  have hd : (fermionUp r l).l_d = l := rfl
  simp only [hu, hl, hr, hd]
  rw [hP, adjugate_fin_two, det_fin_two]
  refine ⟨?_, ?_, ?_, ?_, ?_⟩
  · fin_cases i <;> ext al <;> fin_cases al <;> simp [mulVec, dotProduct, Fin.sum_univ_two] <;> ring
  · fin_cases i <;> ext al <;> fin_cases al <;> simp [mulVec, dotProduct, Fin.sum_univ_two] <;> ring
  · fin_cases i <;> ext al <;> fin_cases al <;> simp [vecMul, dotProduct, Fin.sum_univ_two] <;> ring
  · fin_cases i <;> ext al <;> fin_cases al <;> simp [vecMul, dotProduct, Fin.sum_univ_two] <;> ring
  · simp; ring

/-! ### C46 -/

theorem dictOf_nodup {α β : Type*} [DecidableEq α] (items : List (α × β)) : ∀ d : List (α × β),
    (d.map Prod.fst ++ items.map Prod.fst).Nodup → dictOf d items = d ++ items := by
  induction items with
  | nil => intro d _; simp [dictOf]
  | cons kv items ih =>
    intro d h
    have hn : ¬ d.any (fun x => x.1 = kv.1) := by
      intro ha
      obtain ⟨x, hx, he⟩ := List.any_eq_true.1 ha
      simp only [decide_eq_true_eq] at he
      rw [List.nodup_append] at h
      exact h.2.2 x.1 (List.mem_map_of_mem hx) kv.1 (by simp) he
    have : dictOf d (kv :: items) = dictOf (d ++ [kv]) items := by
      simp only [dictOf, List.foldl_cons, dictInsert, hn, if_false, Bool.false_eq_true]
    rw [this, ih (d ++ [kv]) (by simpa using h)]
    simp

/-- The corners as the lists of labels the user writes. -/
def cornerLabels (corner : Fin m → List (Fin n)) : List (List ℕ) :=
  List.ofFn fun k => (corner k).map fun i : Fin n => (i : ℕ) + 1

/-- The text of the Mandelstam variable of a list of labels, with or without underscore. -/
def mandelText (u : Bool) (ls : List (Fin n)) : List Char :=
  's' :: ((if u then ['_'] else []) ++ ls.flatMap fun i : Fin n => pyStr ((i : ℕ) + 1))

theorem find?_unique {α : Type*} {d : List α} {p : α → Bool} {x : α} (hx : x ∈ d) (hp : p x = true)
    (hu : ∀ y ∈ d, p y = true → y = x) : d.find? p = some x := by
  cases h : d.find? p with
  | none => rw [List.find?_eq_none] at h; exact absurd hp (h x hx)
  | some y => rw [hu y (List.mem_of_find?_eq_some h) (List.find?_some h)]

/-- One-digit labels. -/
def digs (ls : List (Fin n)) : List Char := ls.map fun i : Fin n => Nat.digitChar ((i : ℕ) + 1)

theorem pyStr_flatMap (hn : n ≤ 9) (ls : List (Fin n)) :
    (ls.flatMap fun i : Fin n => pyStr ((i : ℕ) + 1)) = digs ls := by
  rw [digs, List.map_eq_flatMap]
  refine List.flatMap_congr fun i _ => pyStr_digit ?_
  have := i.2; omega

theorem digitChar_inj_lt : ∀ a < 10, ∀ b < 10, Nat.digitChar a = Nat.digitChar b → a = b := by decide

theorem digs_head (hn : n ≤ 9) {a b : Fin n} {as bs : List (Fin n)}
    (h : digs (a :: as) <+: digs (b :: bs)) : a = b := by
  simp only [digs, List.map_cons, List.cons_prefix_cons] at h
  have := digitChar_inj_lt _ (by have := a.2; omega) _ (by have := b.2; omega) h.1
  exact Fin.ext (by omega)

theorem digs_prefix (hn : n ≤ 9) {corner : Fin m → List (Fin n)} (hne : ∀ k, corner k ≠ [])
    (hd : ∀ k k', k ≠ k' → (corner k).Disjoint (corner k')) {k k' : Fin m}
    (h : digs (corner k') <+: digs (corner k)) : k' = k := by
  by_contra hkk
  have hdis := hd k' k hkk
  have h1 := hne k'
  have h2 := hne k
  revert hdis h h1 h2
  generalize corner k' = A, corner k = B
  intro h hdis hA hB
  cases A with
  | nil => exact hA rfl
  | cons a A =>
    cases B with
    | nil => exact hB rfl
    | cons b B =>
      have := digs_head hn h
      subst this
      exact hdis List.mem_cons_self List.mem_cons_self

theorem digs_no_underscore (hn : n ≤ 9) (ls : List (Fin n)) : '_' ∉ digs ls := by
  intro h
  obtain ⟨i, _, hi⟩ := List.mem_map.1 h
  have : ∀ a < 10, Nat.digitChar a ≠ '_' := by decide
  exact this _ (by have := i.2; omega) hi

theorem digs_ne_nil {ls : List (Fin n)} (h : ls ≠ []) : digs ls ≠ [] := by simpa [digs] using h

theorem corners_le (corner : Fin m → List (Fin n)) (hne : ∀ k, corner k ≠ [])
    (hd : ∀ k k', k ≠ k' → (corner k).Disjoint (corner k')) : m ≤ n := by
  have hinj : Function.Injective fun k => (corner k).head (hne k) := by
    intro k k' h
    by_contra hkk
    exact hd k k' hkk (List.head_mem (hne k)) (by simp only at h; rw [h]; exact List.head_mem (hne k'))
  simpa using Fintype.card_le_of_injective _ hinj

theorem mapIdx_cornerLabels {γ : Type*} (corner : Fin m → List (Fin n)) (f : ℕ → List ℕ → γ) :
    (cornerLabels corner).mapIdx f =
      (List.finRange m).map fun k : Fin m => f k ((corner k).map fun i : Fin n => (i : ℕ) + 1) := by
  apply List.ext_getElem
  · simp [cornerLabels]
  · intro i h1 h2
    simp [cornerLabels]

theorem clusterRules_eq (hn : n ≤ 9) (corner : Fin m → List (Fin n)) (hne : ∀ k, corner k ≠ [])
    (hd : ∀ k k', k ≠ k' → (corner k).Disjoint (corner k')) :
    clusterRules (cornerLabels corner) =
      ((List.finRange m).map fun k : Fin m => ('s' :: digs (corner k), 's' :: pyStr ((k : ℕ) + 1))) ++
      ((List.finRange m).map fun k : Fin m =>
        ('s' :: '_' :: digs (corner k), 's' :: '_' :: pyStr ((k : ℕ) + 1))) := by
  have hct : ∀ k, cornerText ((corner k).map fun i : Fin n => (i : ℕ) + 1) = digs (corner k) := by
    intro k
    rw [cornerText, List.flatMap_map, pyStr_flatMap hn]
  have hinj : ∀ k k', digs (corner k) = digs (corner k') → k = k' := fun k k' h =>
    digs_prefix hn hne hd (h ▸ List.prefix_refl _)
  have n1 : ((List.finRange m).map fun k : Fin m => 's' :: digs (corner k)).Nodup := by
    refine List.Nodup.map (fun k k' h => ?_) (List.nodup_finRange m)
    simp only [List.cons.injEq, true_and] at h
    exact hinj k k' h
  have n2 : ((List.finRange m).map fun k : Fin m => 's' :: '_' :: digs (corner k)).Nodup := by
    refine List.Nodup.map (fun k k' h => ?_) (List.nodup_finRange m)
    simp only [List.cons.injEq, true_and] at h
    exact hinj k k' h
  unfold clusterRules
  simp only [mapIdx_cornerLabels, hct]
  rw [dictOf_nodup _ [] (by simpa [Function.comp_def] using n1),
    dictOf_nodup _ [] (by simpa [Function.comp_def] using n2), List.nil_append, List.nil_append,
    dictOf_nodup]
  simp only [List.map_map, Function.comp_def]
  rw [List.nodup_append]
  refine ⟨n1, n2, fun x hx y hy he => ?_⟩
  obtain ⟨k, _, rfl⟩ := List.mem_map.1 hx
  obtain ⟨k', _, rfl⟩ := List.mem_map.1 hy
  simp only [List.cons.injEq, true_and] at he
  exact digs_no_underscore hn (corner k) (he ▸ List.mem_cons_self)

theorem subs_corner (hn : n ≤ 9) (corner : Fin m → List (Fin n)) (hne : ∀ k, corner k ≠ [])
    (hd : ∀ k k', k ≠ k' → (corner k).Disjoint (corner k')) (k : Fin m) (u : Bool) :
    subsDict (mandelText u (corner k)) (clusterRules (cornerLabels corner)) =
      .ok (mandelText u [k]) := by
  have hk : mandelText u [k] = 's' :: ((if u then ['_'] else []) ++ pyStr ((k : ℕ) + 1)) := by
    simp [mandelText]
  have hmt : mandelText u (corner k) = 's' :: ((if u then ['_'] else []) ++ digs (corner k)) := by
    rw [mandelText, pyStr_flatMap hn]
  rw [hk, hmt, clusterRules_eq hn corner hne hd, subsDict, if_neg (by
    intro h
    simp only [List.append_eq_nil_iff, List.map_eq_nil_iff] at h
    have := List.mem_finRange k
    rw [h.1] at this
    simp at this)]
  congr 1
  have key := fun h => subsScan_match
    (d := ((List.finRange m).map fun k : Fin m => ('s' :: digs (corner k), 's' :: pyStr ((k : ℕ) + 1))) ++
      ((List.finRange m).map fun k : Fin m =>
        ('s' :: '_' :: digs (corner k), 's' :: '_' :: pyStr ((k : ℕ) + 1))))
    (k := 's' :: ((if u then ['_'] else []) ++ digs (corner k)))
    (v := 's' :: ((if u then ['_'] else []) ++ pyStr ((k : ℕ) + 1))) (t := []) (by simp) h
  rw [List.append_nil] at key
  rw [key]
  · simp [subsScan]
  · rw [firstMatch]
    apply find?_unique
    · cases u
      · exact List.mem_append_left _ (List.mem_map.2 ⟨k, List.mem_finRange k, rfl⟩)
      · exact List.mem_append_right _ (List.mem_map.2 ⟨k, List.mem_finRange k, rfl⟩)
    · simp
    · intro y hy hp
      rw [List.isPrefixOf_iff_prefix] at hp
      rcases List.mem_append.1 hy with hy | hy <;> obtain ⟨k', _, rfl⟩ := List.mem_map.1 hy
      · simp only [List.cons_prefix_cons, true_and] at hp
        cases u
        · simp only [Bool.false_eq_true, if_false, List.nil_append] at hp ⊢
          rw [digs_prefix hn hne hd hp]
        · simp only [if_true, List.singleton_append] at hp
          exfalso
          have h1 := digs_ne_nil (hne k')
          have h2 := digs_no_underscore hn (corner k')
          revert hp h1 h2
          generalize digs (corner k') = A
          intro hp h1 h2
          cases A with
          | nil => exact h1 rfl
          | cons a A =>
            rw [List.cons_prefix_cons] at hp
            exact h2 (hp.1 ▸ List.mem_cons_self)
      · simp only [List.cons_prefix_cons, true_and] at hp
        cases u
        · simp only [Bool.false_eq_true, if_false, List.nil_append] at hp
          exfalso
          exact digs_no_underscore hn (corner k) (hp.subset List.mem_cons_self)
        · simp only [if_true, List.singleton_append, List.cons_prefix_cons, true_and] at hp ⊢
          rw [digs_prefix hn hne hd hp]

theorem isDigits_digs (hn : n ≤ 9) {ls : List (Fin n)} (h : ls ≠ []) : isDigits (digs ls) = true := by
  have h1 := digs_ne_nil h
  simp only [isDigits, Bool.and_eq_true, Bool.not_eq_true', List.isEmpty_eq_false_iff, List.all_eq_true]
  refine ⟨h1, fun x hx => ?_⟩
  obtain ⟨i, _, rfl⟩ := List.mem_map.1 hx
  exact digitChar_isDigit _ (by have := i.2; omega)

theorem readS_mandel (hn : n ≤ 9) (u : Bool) {ls : List (Fin n)} (h : ls ≠ []) :
    readS (mandelText u ls) = some (ls.map fun i : Fin n => (i : ℕ) + 1) := by
  have hdg : (digs ls).map (fun c => c.toNat - 48) = ls.map fun i : Fin n => (i : ℕ) + 1 := by
    rw [digs, List.map_map]
    refine List.map_congr_left fun i _ => ?_
    have : ∀ a < 10, (Nat.digitChar a).toNat - 48 = a := by decide
    exact this _ (by have := i.2; omega)
  rw [mandelText, pyStr_flatMap hn]
  cases u
  · have h2 := digs_no_underscore hn ls
    have h3 := isDigits_digs hn h
    simp only [Bool.false_eq_true, if_false, List.nil_append]
    rw [← hdg]
    revert h2 h3
    generalize digs ls = A
    intro h2 h3
    unfold readS
    split
    · rename_i heq
      simp only [List.cons.injEq, true_and] at heq
      exact absurd (heq ▸ List.mem_cons_self) h2
    · rename_i heq; simp at heq
    · rename_i heq
      simp only [List.cons.injEq, true_and] at heq
      subst heq
      simp [h3]
    · rename_i heq; simp at heq
    · rename_i _ _ heq _; exact absurd rfl (heq A)
  · simp only [if_true, List.singleton_append, readS, isDigits_digs hn h, hdg]

theorem mapM_label (ls : List (Fin n)) :
    (ls.map fun i : Fin n => (i : ℕ) + 1).mapM (label n) = .ok ls := by
  induction ls with
  | nil => rfl
  | cons i ls ih =>
    have hl : label n ((i : ℕ) + 1) = .ok i := by
      rw [label, dif_pos ⟨by omega, by have := i.2; omega⟩]; rfl
    rw [List.map_cons, List.mapM_cons, ih, hl]
    rfl

/-- `compute` on the text of a Mandelstam variable with one-digit labels. -/
theorem computeMass_mandel (hn : n ≤ 9) (ps : Point K n) (u : Bool) {ls : List (Fin n)}
    (h : ls ≠ []) : computeMass ps (.str (mandelText u ls)) = some (.ok (computeS ps ls)) := by
  simp only [computeMass, computeSText, readS_mandel hn u h, mapM_label]

/-- C46, for up to nine particles and disjoint corners: an internal mass given as the Mandelstam
string of a corner is rewritten to the string of the clustered leg, and evaluates on the clustered
point to the value it has on the original one. Missing (and false, see
`C46_wrong_from_ten`): ten particles or more. -/
theorem C46_corner_mass_partial (hn : n ≤ 9) {c : Ctx K} {ps : Point K n}
    {corner : Fin m → List (Fin n)} {qs : Point K m} (hne : ∀ k, corner k ≠ [])
    (hd : ∀ k k', k ≠ k' → (corner k).Disjoint (corner k')) (h : cluster c ps corner = some qs)
    (k : Fin m) (u : Bool) :
    ∃ v : MassVal K, clusterMass (cornerLabels corner) (.str (mandelText u (corner k))) = .ok v ∧
      computeMass qs v = some (.ok (computeS ps (corner k))) ∧
      computeMass ps (.str (mandelText u (corner k))) = some (.ok (computeS ps (corner k))) := by
  have hm : m ≤ 9 := (corners_le corner hne hd).trans hn
  refine ⟨.str (mandelText u [k]), ?_, ?_, computeMass_mandel hn ps u (hne k)⟩
  · simp only [clusterMass, subs_corner hn corner hne hd]
  · rw [computeMass_mandel hm qs u (by simp), computeS, computeS, sumR2_flatMap h]
    simp

/-- The corners of the counterexample: twelve particles in seven corners, with corners `[1, 2]` and
`[12]`. -/
def corners12 : Fin 7 → List (Fin 12) := ![[0, 1], [2, 3], [4, 5], [6, 7], [8, 9], [10], [11]]

/-- C46 is false from twelve particles on: both corners `[1, 2]` and `[12]` are written `s_12`, and
the mass `s_12` of the first becomes the mass of leg twelve on the clustered point. -/
theorem C46_wrong_from_twelve {c : Ctx K} {ps : Point K 12} {qs : Point K 7}
    (h : cluster c ps corners12 = some qs) :
    ∃ v : MassVal K, clusterMass (cornerLabels corners12) (.str "s_12".toList) = .ok v ∧
      computeMass ps (.str "s_12".toList) = some (.ok (computeS ps [0, 1])) ∧
      computeMass qs v = some (.ok (computeS ps [11])) := by
  refine ⟨.str "s_7".toList, ?_, ?_, ?_⟩
  · have : subsDict "s_12".toList (clusterRules (cornerLabels corners12)) = .ok "s_7".toList := by
      decide
    simp only [clusterMass, this]
  · have h1 : readS "s_12".toList = some [1, 2] := by decide
    have h2 : [1, 2].mapM (label 12) = .ok [0, 1] := by rfl
    simp only [computeMass, computeSText, h1, h2]
  · have h1 : readS "s_7".toList = some [7] := by decide
    have h2 : [7].mapM (label 7) = .ok [6] := by rfl
    simp only [computeMass, computeSText, h1, h2]
    rw [computeS, computeS, sumR2_flatMap h]
    rfl

/-- The corners of a second example: five particles, the first two clustered. -/
def corners5 : Fin 4 → List (Fin 5) := ![[0, 1], [2], [3], [4]]

/-- A Mandelstam string that is a union of corners is not translated: `s_34` of the original point
becomes `s_24` of the clustered point, which is `s_35`. -/
theorem C46_union_of_corners_wrong {c : Ctx K} {ps : Point K 5} {qs : Point K 4}
    (h : cluster c ps corners5 = some qs) :
    ∃ v : MassVal K, clusterMass (cornerLabels corners5) (.str "s_34".toList) = .ok v ∧
      computeMass ps (.str "s_34".toList) = some (.ok (computeS ps [2, 3])) ∧
      computeMass qs v = some (.ok (computeS ps [2, 4])) := by
  refine ⟨.str "s_24".toList, ?_, ?_, ?_⟩
  · have : subsDict "s_34".toList (clusterRules (cornerLabels corners5)) = .ok "s_24".toList := by
      decide
    simp only [clusterMass, this]
  · have h1 : readS "s_34".toList = some [3, 4] := by decide
    have h2 : [3, 4].mapM (label 5) = .ok [2, 3] := by rfl
    simp only [computeMass, computeSText, h1, h2]
  · have h1 : readS "s_24".toList = some [2, 4] := by decide
    have h2 : [2, 4].mapM (label 4) = .ok [1, 3] := by rfl
    simp only [computeMass, computeSText, h1, h2]
    rw [computeS, computeS, sumR2_flatMap h]
    rfl

end Lips

import Verif.Lemmas.PairND
import Verif.Props.PairSD

/-!
Property C100: the pairs of a spinor string and a Gram determinant, and of two spinor strings, that are written out
in the code do at seven points what the pair asks for, although other texts are set instead.
-/

namespace Lips

set_option linter.unusedSectionVars false

variable {K Γ : Type*} [Field K] [LinearOrder Γ] {n : ℕ}

/-- What a pair of texts stands for at seven points. The string is `first s | ss | s last`; Δ has the corners `A`, `B`,
`C`, of which `k` in the first one is changed; `p`, `q` restore momentum conservation. -/
structure Meaning (n : ℕ) where
  first : Char
  s : Fin n
  ss : List (List (Fin n))
  last : Char
  A : List (Fin n)
  B : List (Fin n)
  C : List (Fin n)
  k : Fin n
  p : Fin n
  q : Fin n

/-- The string that is set. -/
def Meaning.str (d : Meaning n) : Str n := ⟨d.first, d.s, d.ss, d.s, d.last⟩

/-- Its text without parentheses. -/
def Meaning.text (d : Meaning n) : List Char := strText d.first d.s (d.ss.map fun m => (false, m)) d.s d.last

/-- The labels fit together: the ends of the string are in no slot and not among the labels of Δ that matter, `p` and
`q` in neither. -/
def Meaning.Fits (d : Meaning n) : Prop :=
  d.str.Wf ∧ d.ss ≠ [] ∧ (∀ m ∈ d.ss, m ≠ []) ∧ OneDigit d.str.labels ∧ d.s ∉ d.ss.flatten ∧ d.ss.length % 2 = 0 ∧
    2 ≤ (freeLabels d.str.labels).length ∧ (d.A ++ d.B ++ d.C).Nodup ∧ d.p ≠ d.q ∧
    d.p ∉ d.A ++ d.B ++ d.str.labels ∧ d.q ∉ d.A ++ d.B ++ d.str.labels

theorem Meaning.strOf_eq (d : Meaning n) :
    strOf d.first d.s (d.ss.map fun m => (false, m)) d.s d.last = d.str := by
  have : (d.ss.map fun m => (false, m)).map Prod.snd = d.ss := by
    rw [List.map_map]; exact List.map_id _
  simp only [strOf, this, Meaning.str]

theorem Meaning.text_quadratic [NeZero (2 : K)] {abs : K → Γ} {tol : Γ} (h0 : abs 0 ≤ tol) {c : Ctx K} {ps : Point K n}
    {r l : Fin n → V2 K} (h : Spin c ps r l) {d : Meaning n} (hd : d.Fits) (X : K) (fuel : ℕ) (hg : QuadGuard ps d.str) :
    (∃ D, c.sqrt D = none ∧ setText abs tol c ps fuel d.text X false 1 = some (.error .valueError)) ∨
    ∃ ps' r' l', setText abs tol c ps fuel d.text X false 1 = some (.ok ps') ∧ Spin c ps' r' l' ∧
      d.str.value ps' = .ok X ∧ (∀ k, k ≠ d.s → ps' k = ps k ∧ r' k = r k ∧ l' k = l k) ∧
      (d.first = '⟨' → l' = l) ∧ (d.first = '[' → r' = r) := by
  have e := d.strOf_eq
  obtain ⟨w, hne, hm, h1, hs, hev, hf, -⟩ := hd
  have hs' : d.s ∉ ((d.ss.map fun m => (false, m)).map Prod.snd).flatten := by
    rw [List.map_map]; simpa [Function.comp_def] using hs
  have := Lips.text_quadratic h0 h (first := d.first) (last := d.last) (s := d.s) (ss := d.ss.map fun m => (false, m))
    (e ▸ w) (by simpa using hne) (by simpa using hm) (e ▸ h1) hs' (by simpa using hev) (e ▸ hf) X fuel (e ▸ hg)
  rwa [e] at this

theorem mem_labels_of_slot {t : Str n} {k : Fin n} (h : k ∈ t.ms.flatten) : k ∈ t.labels := by
  unfold Str.labels
  simp only [List.mem_cons, List.mem_append]
  exact .inr (.inl h)

theorem fixLabels_succ (c : Ctx K) (ps : Point K n) (p q : Fin n) : fixLabels c ps (p + 1) (q + 1) = fixAxis1 c ps p q := by
  simp only [fixLabels, label_succ]

/-- The two values at the end and the particles that moved. -/
def Reached (c : Ctx K) (ps : Point K n) (d : Meaning n) (v w : K) (run : Option (Except Err (Point K n))) : Prop :=
  (∃ D, c.sqrt D = none ∧ run = some (.error .valueError)) ∨
  ∃ ps' r' l', run = some (.ok ps') ∧ Spin c ps' r' l' ∧ Conserves ps' ∧ d.str.value ps' = .ok v ∧
    computeDelta ps' 1 ![d.A, d.B, d.C] = w ∧ ∀ j, j ≠ d.k → j ≠ d.s → j ≠ d.p → j ≠ d.q → ps' j = ps j

/-- Δ is set first. -/
theorem hard_delta_first [NeZero (2 : K)] {abs : K → Γ} {tol : Γ} (h0 : abs 0 ≤ tol) {c : Ctx K} {ps : Point K n}
    {r l : Fin n → V2 K} (h : Spin c ps r l) {fuel : ℕ} {d : Meaning n} (hd : d.Fits) {z : HardPair}
    (e1 : z.one = ⟨z.one.text, true, 1⟩) (e2 : z.two = ⟨z.two.text, false, 1⟩) (ht : DeltaText c n fuel z.one.text.toList d.A d.B d.C)
    (hs : z.two.text.toList = d.text) (hp : z.p = d.p + 1) (hq : z.q = d.q + 1) (hk : d.A.head? = some d.k)
    (hsAB : d.s ∉ d.A ++ d.B) (v w : K) (hg : DeltaGuard c ps r l d.A d.B d.C d.k 1)
    (hg2 : ∀ qs, z.one.run abs tol c fuel v w ps = some (.ok qs) → QuadGuard qs d.str)
    (hf : SpecSquare (l d.p) (l d.q) ≠ 0) : Reached c ps d v w (z.run abs tol c fuel v w ps) := by
  obtain ⟨w1, -, -, -, -, hev, -, hnd, hpq, np, nq⟩ := id hd
  simp only [List.mem_append, not_or] at np nq hsAB
  have hsl : d.s ∈ d.str.labels := by simp [Str.labels, Meaning.str]
  have hkA : d.k ∈ d.A := List.mem_of_mem_head? hk
  have hk0 : d.A[(1 - 1) / 2]? = some d.k := by rw [← hk]; simp [List.head?_eq_getElem?]
  have hnd' := List.nodup_append.mp (List.nodup_append.mp hnd).1
  have r1 : z.one.run abs tol c fuel v w ps = setText abs tol c ps fuel z.one.text.toList w false 1 := by
    unfold HardStep.run; rw [e1]; rfl
  rcases text_delta h0 h ht (by decide) hk0 hnd'.1 (fun hb => hnd'.2.2 _ hkA _ hb rfl) w hg with
    ⟨D, hD, e⟩ | ⟨ps1, rr1, l1, e, s1, v1, o1, m1⟩
  · exact .inl ⟨D, hD, by unfold HardPair.run; rw [r1, e]⟩
  have m1 : l1 = l := m1
  have r2 : z.two.run abs tol c fuel v w ps1 = setText abs tol c ps1 fuel d.text v false 1 := by
    unfold HardStep.run; rw [e2]; simp only [hs, Bool.false_eq_true, if_false]
  rcases Meaning.text_quadratic (abs := abs) (tol := tol) h0 s1 hd v fuel (hg2 ps1 (by rw [r1, e])) with
    ⟨D, hD, e'⟩ | ⟨ps2, rr2, l2, e', s2, v2, o2, m2, m3⟩
  · refine .inl ⟨D, hD, ?_⟩
    unfold HardPair.run
    rw [r1, e]
    simp only [r2, e']
  have nps : d.p ≠ d.s := fun q => np.2 (q ▸ hsl)
  have nqs : d.q ≠ d.s := fun q => nq.2 (q ▸ hsl)
  have hf' : SpecSquare (l2 d.p) (l2 d.q) ≠ 0 := by
    rw [(o2 _ nps).2.2, (o2 _ nqs).2.2, m1]; exact hf
  obtain ⟨ps3, rr3, e3, hc, s3, o3⟩ := fixAxis1_spin s2 hpq hf'
  refine .inr ⟨ps3, rr3, l2, ?_, s3, hc, ?_, ?_, ?_⟩
  · unfold HardPair.run
    rw [r1, e]
    simp only [r2, e', hp, hq, fixLabels_succ, e3]
  · rw [← v2]
    refine quad_value_congr s2 s3 w1 rfl hev (fun k hk' => (o3 k ?_ ?_).1) (fun _ => (o3 _ nps.symm nqs.symm).2) fun _ => rfl
    · rintro rfl; exact np.2 (mem_labels_of_slot hk')
    · rintro rfl; exact nq.2 (mem_labels_of_slot hk')
  · rw [← v1]
    refine delta_congr (fun k => (s1 k).cons) (fun k => (s3 k).cons) fun k hk' => ?_
    have hk'' : k ∈ d.A ∨ k ∈ d.B := hk'
    have a1 : k ≠ d.p := by rintro rfl; exact hk''.elim np.1.1 np.1.2
    have a2 : k ≠ d.q := by rintro rfl; exact hk''.elim nq.1.1 nq.1.2
    have a3 : k ≠ d.s := by rintro rfl; exact hk''.elim hsAB.1 hsAB.2
    rw [(o3 k a1 a2).1, (o2 k a3).1]
  · intro j j1 j2 j3 j4
    rw [(o3 j j3 j4).1, (o2 j j2).1, (o1 j j1).1]

/-- The string is set first, then Δ through the left spinor of the ends of the string. -/
theorem hard_string_first [NeZero (2 : K)] {abs : K → Γ} {tol : Γ} (h0 : abs 0 ≤ tol) {c : Ctx K} {ps : Point K n}
    {r l : Fin n → V2 K} (h : Spin c ps r l) {fuel : ℕ} {d : Meaning n} (hd : d.Fits) {z : HardPair} {mode : ℕ}
    (hmode : mode ≠ 0) (hev2 : mode % 2 = 0)
    (e1 : z.one = ⟨z.one.text, false, 1⟩) (e2 : z.two = ⟨z.two.text, true, mode⟩) (ht : DeltaText c n fuel z.two.text.toList d.A d.B d.C)
    (hs : z.one.text.toList = d.text) (hp : z.p = d.p + 1) (hq : z.q = d.q + 1) (hk : d.A[(mode - 1) / 2]? = some d.k)
    (hks : d.k = d.s) (hfirst : d.first = '⟨') (v w : K) (hg : QuadGuard ps d.str)
    (hg2 : ∀ qs r' l', z.one.run abs tol c fuel v w ps = some (.ok qs) → Spin c qs r' l' → DeltaGuard c qs r' l' d.A d.B d.C d.k mode)
    (hf : SpecSquare (l d.p) (l d.q) ≠ 0) : Reached c ps d v w (z.run abs tol c fuel v w ps) := by
  obtain ⟨w1, -, -, -, hss, hev, -, hnd, hpq, np, nq⟩ := id hd
  simp only [List.mem_append, not_or] at np nq
  have hsl : d.s ∈ d.str.labels := by simp [Str.labels, Meaning.str]
  have hkA : d.k ∈ d.A := List.mem_of_getElem? hk
  have hnd' := List.nodup_append.mp (List.nodup_append.mp hnd).1
  have r1 : z.one.run abs tol c fuel v w ps = setText abs tol c ps fuel d.text v false 1 := by
    unfold HardStep.run; rw [e1]; simp only [hs, Bool.false_eq_true, if_false]
  rcases Meaning.text_quadratic (abs := abs) (tol := tol) h0 h hd v fuel hg with
    ⟨D, hD, e⟩ | ⟨ps1, rr1, l1, e, s1, v1, o1, m1, -⟩
  · exact .inl ⟨D, hD, by unfold HardPair.run; rw [r1, e]⟩
  have m1 : l1 = l := m1 hfirst
  have r2 : z.two.run abs tol c fuel v w ps1 = setText abs tol c ps1 fuel z.two.text.toList w false mode := by
    unfold HardStep.run; rw [e2]; rfl
  rcases text_delta h0 s1 ht hmode hk hnd'.1 (fun hb => hnd'.2.2 _ hkA _ hb rfl) w (hg2 ps1 rr1 l1 (by rw [r1, e]) s1) with
    ⟨D, hD, e'⟩ | ⟨ps2, rr2, l2, e', s2, v2, o2, m2⟩
  · refine .inl ⟨D, hD, ?_⟩
    unfold HardPair.run
    rw [r1, e]
    simp only [r2, e']
  rw [if_neg (by omega)] at m2
  have nps : d.p ≠ d.s := fun q => np.2 (q ▸ hsl)
  have nqs : d.q ≠ d.s := fun q => nq.2 (q ▸ hsl)
  have hf' : SpecSquare (l2 d.p) (l2 d.q) ≠ 0 := by
    rw [(o2 _ (hks ▸ nps)).2.2, (o2 _ (hks ▸ nqs)).2.2, m1]; exact hf
  obtain ⟨ps3, rr3, e3, hc, s3, o3⟩ := fixAxis1_spin s2 hpq hf'
  refine .inr ⟨ps3, rr3, l2, ?_, s3, hc, ?_, ?_, ?_⟩
  · unfold HardPair.run
    rw [r1, e]
    simp only [r2, e', hp, hq, fixLabels_succ, e3]
  · rw [← v1]
    refine quad_value_congr s1 s3 w1 rfl hev (fun k hk' => ?_) (fun _ => ?_) fun e => ?_
    · rw [(o3 k ?_ ?_).1, (o2 k ?_).1]
      · rintro rfl; rw [hks] at hk'; exact hss hk'
      · rintro rfl; exact np.2 (mem_labels_of_slot hk')
      · rintro rfl; exact nq.2 (mem_labels_of_slot hk')
    · show rr3 d.s = rr1 d.s
      rw [(o3 _ nps.symm nqs.symm).2, m2]
    · have e' : d.first = '[' := e
      rw [hfirst] at e'; exact absurd e' (by decide)
  · rw [← v2]
    refine delta_congr (fun k => (s2 k).cons) (fun k => (s3 k).cons) fun k hk' => ?_
    have hk'' : k ∈ d.A ∨ k ∈ d.B := hk'
    have a1 : k ≠ d.p := by rintro rfl; exact hk''.elim np.1.1 np.1.2
    have a2 : k ≠ d.q := by rintro rfl; exact hk''.elim nq.1.1 nq.1.2
    rw [(o3 k a1 a2).1]
  · intro j j1 j2 j3 j4
    rw [(o3 j j3 j4).1, (o2 j j1).1, (o1 j j2).1]

/-! ### Seven points -/

/-- What the seven pairs stand for: the string and the corners that are set, with labels from zero. -/
def meanings : List (Meaning 7) :=
  [⟨'⟨', 0, [[2, 3], [4, 5]], '⟩', [2, 3], [4, 5], [6, 0, 1], 2, 6, 1⟩,
   ⟨'⟨', 1, [[0, 6], [2, 3]], '⟩', [6, 0, 1], [2, 3], [4, 5], 1, 4, 5⟩,
   ⟨'⟨', 6, [[2, 3], [4, 5]], '⟩', [2, 3], [4, 5], [6, 0, 1], 2, 0, 1⟩,
   ⟨'⟨', 6, [[0, 1], [4, 5]], '⟩', [4, 5], [0, 1], [2, 3, 6], 4, 2, 3⟩,
   ⟨'[', 6, [[0, 1], [4, 5]], ']', [4, 5], [0, 1], [2, 3, 6], 4, 2, 3⟩,
   ⟨'⟨', 2, [[4, 5], [0, 1]], '⟩', [4, 5], [0, 1], [2, 3, 6], 4, 6, 3⟩,
   ⟨'⟨', 6, [[2, 3], [0, 1]], '⟩', [0, 1], [2, 3], [4, 5, 6], 0, 4, 5⟩]

/-- The denominators met on the way are not zero. -/
def HardGuard (abs : K → Γ) (tol : Γ) (c : Ctx K) (fuel : ℕ) (z : HardPair) (d : Meaning 7) (v w : K) (ps : Point K 7)
    (r l : Fin 7 → V2 K) : Prop :=
  SpecSquare (l d.p) (l d.q) ≠ 0 ∧
  if z.one.second then DeltaGuard c ps r l d.A d.B d.C d.k 1 ∧
    ∀ qs, z.one.run abs tol c fuel v w ps = some (.ok qs) → QuadGuard qs d.str
  else QuadGuard ps d.str ∧ ∀ qs r' l', z.one.run abs tol c fuel v w ps = some (.ok qs) → Spin c qs r' l' →
    DeltaGuard c qs r' l' d.A d.B d.C d.k z.two.mode

theorem Meaning.value_text {d : Meaning n} (hd : d.Fits) (ps : Point K n) (fuel : ℕ) {x : K} (hx : d.str.value ps = .ok x) :
    callNumber ps fuel d.text = some (.ok x) := by
  obtain ⟨w, hne, hm, -⟩ := hd
  have hf : d.first ∈ ['⟨', '['] ∧ d.last ∈ ['⟩', ']'] := by
    rcases w with ⟨w1, w2⟩ | ⟨w1, w2⟩ <;> simp only [Meaning.str] at w1 w2 <;> rw [w1, w2] <;>
      by_cases hh : d.ss.length % 2 = 0 <;> simp [hh]
  refine callNumber_text ps fuel ?_
  unfold Meaning.text
  rw [strText_value ps fuel d.first d.last d.s d.s _ hf.1 hf.2 (by simpa using hne) (by simpa using hm), d.strOf_eq, hx]

/-- The value of Δ named by another text with the same corners in another order. -/
theorem delta_other_text [NeZero (2 : K)] {c : Ctx K} {ps : Point K n} {r l : Fin n → V2 K} (h : Spin c ps r l) (hc : Conserves ps)
    {fuel : ℕ} {t : List Char} {A B C A' B' C' : List (Fin n)} (ht : DeltaText c n fuel t A' B' C') (hL : Partition ![A, B, C])
    (σ : Equiv.Perm (Fin 3)) (e : ![A, B, C] ∘ σ = ![A', B', C']) {w : K} (hw : computeDelta ps 1 ![A, B, C] = w) :
    callNumber ps fuel t = some (.ok w) := by
  refine callNumber_text (r := .ok w) ps fuel ?_
  rw [ht.value ps r l h, ← e, ← hw]
  have := C25_permutation c ps (fun k => (h k).cons) 1 ![A, B, C] (hL.sum hc) σ
  exact congrArg (fun x => some (Except.ok (Val.num x))) this

/-- Momentum conservation in the last slot of `⟨7|3+4|5+6|7⟩`, with a product `P·P` left out. -/
theorem seven_sign {c : Ctx K} {ps : Point K 7} {r l : Fin 7 → V2 K} (h : Spin c ps r l) (hc : Conserves ps) {v : K}
    (hv : (⟨'⟨', 6, [[2, 3], [0, 1]], 6, '⟩'⟩ : Str 7).value ps = .ok v) :
    (⟨'⟨', 6, [[2, 3], [4, 5]], 6, '⟩'⟩ : Str 7).value ps = .ok (-v) := by
  rw [Str.value_eq h (.inl ⟨rfl, rfl⟩)] at hv ⊢
  injection hv with hv
  rw [← hv]
  congr 1
  have hP : sumR2 ps [4, 5] = -sumR2 ps [0, 1] - sumR2 ps [2, 3] - sumR2 ps [6] := by
    have e : sumR2 ps ([0, 1] ++ [2, 3] ++ [4, 5] ++ [6]) = 0 := by
      have p : ([0, 1] ++ [2, 3] ++ [4, 5] ++ [6] : List (Fin 7)).Perm (List.finRange 7) := by decide
      rw [sumR2_perm ps p, sumR2_finRange]; exact (conserves_iff ps).mp hc
    rw [sumR2_append, sumR2_append, sumR2_append] at e
    rw [← sub_eq_zero, ← e]
    abel
  have h6 : sumR2 ps [6] = outer ![l 6 1, -l 6 0] ![r 6 1, -r 6 0] := by
    simp [sumR2, (h 6).r2]
  have hc1 : ∀ a b : List (Fin 7), chain ps true ([a, b].map plusOf) = flip2 (sumR2 ps a) * sumR2 ps b := by
    intro a b
    simp only [List.map_cons, List.map_nil, chain, slotMat_plusOf_bar ps a (fun k => (h k).cons), slotMat_plusOf, mul_one]
  show bil _ (chain ps true ([[2, 3], [4, 5]].map plusOf)) _ = -bil _ (chain ps true ([[2, 3], [0, 1]].map plusOf)) _
  rw [hc1, hc1, hP, h6]
  generalize sumR2 ps [2, 3] = P
  generalize sumR2 ps [0, 1] = R
  simp only [bil_eq, headSp, tailSp, if_true, Matrix.mul_apply, Fin.sum_univ_two, Matrix.sub_apply, Matrix.neg_apply, outer_apply,
    Matrix.cons_val_zero, Matrix.cons_val_one, flip2_eq, Matrix.of_apply, Matrix.cons_val', Matrix.cons_val_fin_one]
  ring

/-- The pair that is found. -/
theorem pairHard_of {table : List HardPair} {abs : K → Γ} {tol : Γ} {c : Ctx K} {fuel : ℕ} {ps : Point K n} {z : HardPair}
    (hz : table.find? (fun h => decide (h.first = z.first ∧ h.second = z.second)) = some z) (v w : K) :
    pairHard table abs tol c fuel ps z.first v z.second w = (z.run abs tol c fuel v w ps).map fun r => r.map some := by
  unfold pairHard; rw [hz]

/-- What is claimed of one pair at seven points. -/
def HardClaim (abs : K → Γ) (tol : Γ) (c : Ctx K) (fuel : ℕ) (z : HardPair) (d : Meaning 7) (v w : K) (ps : Point K 7) : Prop :=
  (∃ D, c.sqrt D = none ∧ pairHard hardDelta abs tol c fuel ps z.first v z.second w = some (.error .valueError)) ∨
  ∃ ps', pairHard hardDelta abs tol c fuel ps z.first v z.second w = some (.ok (some ps')) ∧ GoodPoint c ps' ∧
    callNumber ps' fuel z.first.toList = some (.ok (if z.second = "Δ_135" then -v else v)) ∧
    callNumber ps' fuel z.second.toList = some (.ok w) ∧
    ∀ j, j ≠ d.k → j ≠ d.s → j ≠ d.p → j ≠ d.q → ps' j = ps j

theorem claim_of [NeZero (2 : K)] {abs : K → Γ} {tol : Γ} {c : Ctx K} {fuel : ℕ} {z : HardPair} {d : Meaning 7} {v w : K} {ps : Point K 7}
    (hz : hardDelta.find? (fun h => decide (h.first = z.first ∧ h.second = z.second)) = some z)
    (hR : Reached c ps d v w (z.run abs tol c fuel v w ps))
    {A' B' C' : List (Fin 7)} (ht : DeltaText c 7 fuel z.second.toList A' B' C') (hL : Partition ![d.A, d.B, d.C])
    (σ : Equiv.Perm (Fin 3)) (e : ![d.A, d.B, d.C] ∘ σ = ![A', B', C'])
    (hs : ∀ ps' r' l', Spin c ps' r' l' → Conserves ps' → d.str.value ps' = .ok v →
      callNumber ps' fuel z.first.toList = some (.ok (if z.second = "Δ_135" then -v else v))) :
    HardClaim abs tol c fuel z d v w ps := by
  rcases hR with ⟨D, hD, e1⟩ | ⟨ps', r', l', e1, s1, c1, v1, w1, o1⟩
  · exact .inl ⟨D, hD, by rw [pairHard_of hz, e1]; rfl⟩
  · exact .inr ⟨ps', by rw [pairHard_of hz, e1]; rfl, ⟨c1, r', l', s1⟩, hs _ _ _ s1 c1 v1, delta_other_text s1 c1 ht hL σ e w1, o1⟩

/-- `Δ_735`, `Δ_357` and `Δ_135` at seven points. -/
theorem short7 [NeZero (2 : K)] (c : Ctx K) (m : ℕ) :
    DeltaText c 7 (m + 3) "Δ_735".toList [6, 0, 1] [2, 3] [4, 5] ∧ DeltaText c 7 (m + 3) "Δ_357".toList [2, 3] [4, 5] [6, 0, 1] ∧
    DeltaText c 7 (m + 3) "Δ_135".toList [0, 1] [2, 3] [4, 5, 6] :=
  ⟨deltaText_short (x := 6) (y := 2) (z := 4) (by unfold OneDigit; decide) rfl,
   deltaText_short (x := 2) (y := 4) (z := 6) (by unfold OneDigit; decide) rfl,
   deltaText_short (x := 0) (y := 2) (z := 4) (by unfold OneDigit; decide) rfl⟩

/-- The texts with corners. -/
theorem corners7 (c : Ctx K) (fuel : ℕ) :
    DeltaText c 7 fuel "Δ_56|12|347".toList [4, 5] [0, 1] [2, 3, 6] ∧ DeltaText c 7 fuel "Δ_12|347|56".toList [0, 1] [2, 3, 6] [4, 5] ∧
    DeltaText c 7 fuel "Δ_12|34|567".toList [0, 1] [2, 3] [4, 5, 6] :=
  ⟨deltaText_corners (A := [4, 5]) (B := [0, 1]) (C := [2, 3, 6]) (by unfold OneDigit; decide)
     (by simp) (by simp) (by simp) fuel,
   deltaText_corners (A := [0, 1]) (B := [2, 3, 6]) (C := [4, 5]) (by unfold OneDigit; decide)
     (by simp) (by simp) (by simp) fuel,
   deltaText_corners (A := [0, 1]) (B := [2, 3]) (C := [4, 5, 6]) (by unfold OneDigit; decide)
     (by simp) (by simp) (by simp) fuel⟩

local instance decWf (t : Str n) : Decidable t.Wf := by unfold Str.Wf; infer_instance
local instance decOneDigit (ls : List (Fin n)) : Decidable (OneDigit ls) := by unfold OneDigit; infer_instance
instance decFits (d : Meaning n) : Decidable d.Fits := by unfold Meaning.Fits; infer_instance
local instance decPartition (L : Corners n) : Decidable (Partition L) := by unfold Partition; infer_instance

theorem meanings_fit : ∀ d ∈ meanings, d.Fits ∧ Partition ![d.A, d.B, d.C] := by decide +kernel

/-- **C100.** Each of the seven pairs of a string and a Gram determinant that the code knows, at seven points with massless
kinematics: either a square root is missing and ValueError is raised, or the point that comes out conserves momentum, the
string has its value and the Gram determinant has its value – both read off the texts that were asked for, not the texts
that were set – and only four particles have moved. In the last pair the string comes out with the opposite sign. -/
theorem C100_string_gram [NeZero (2 : K)] {abs : K → Γ} {tol : Γ} (h0 : abs 0 ≤ tol) {c : Ctx K} {ps : Point K 7}
    {r l : Fin 7 → V2 K} (h : Spin c ps r l) (m : ℕ) {z : HardPair} {d : Meaning 7} (hz : (z, d) ∈ hardDelta.zip meanings)
    (v w : K) (hg : HardGuard abs tol c (m + 3) z d v w ps r l) : HardClaim abs tol c (m + 3) z d v w ps := by
  have hd := meanings_fit d (List.of_mem_zip hz).2
  obtain ⟨s1, s2, s3⟩ := short7 c m
  obtain ⟨t1, t2, t3⟩ := corners7 c (m + 3)
  obtain ⟨g1, g2⟩ := hg
  simp only [hardDelta, meanings, List.zip_cons_cons, List.zip_nil_left, List.mem_cons, List.not_mem_nil, or_false,
    Prod.mk.injEq] at hz
  rcases hz with ⟨rfl, rfl⟩ | ⟨rfl, rfl⟩ | ⟨rfl, rfl⟩ | ⟨rfl, rfl⟩ | ⟨rfl, rfl⟩ | ⟨rfl, rfl⟩ | ⟨rfl, rfl⟩
  · exact claim_of rfl (hard_delta_first h0 h hd.1 rfl rfl s2 (by decide) rfl rfl rfl (by decide) v w g2.1 g2.2 g1) s1 hd.2
      (finRotate 3).symm (by decide) fun _ _ _ _ _ hv => Meaning.value_text hd.1 _ _ hv
  · exact claim_of rfl (hard_string_first h0 h hd.1 (by decide) rfl rfl rfl s1 (by decide) rfl rfl rfl rfl rfl v w g2.1 g2.2 g1)
      s1 hd.2 1 (by decide) fun _ _ _ _ _ hv => Meaning.value_text hd.1 _ _ hv
  · exact claim_of rfl (hard_delta_first h0 h hd.1 rfl rfl s2 (by decide) rfl rfl rfl (by decide) v w g2.1 g2.2 g1) s1 hd.2
      (finRotate 3).symm (by decide) fun _ _ _ _ _ hv => Meaning.value_text hd.1 _ _ hv
  · exact claim_of rfl (hard_delta_first h0 h hd.1 rfl rfl t1 (by decide) rfl rfl rfl (by decide) v w g2.1 g2.2 g1) t2 hd.2
      (finRotate 3) (by decide) fun _ _ _ _ _ hv => Meaning.value_text hd.1 _ _ hv
  · exact claim_of rfl (hard_delta_first h0 h hd.1 rfl rfl t1 (by decide) rfl rfl rfl (by decide) v w g2.1 g2.2 g1) t2 hd.2
      (finRotate 3) (by decide) fun _ _ _ _ _ hv => Meaning.value_text hd.1 _ _ hv
  · exact claim_of rfl (hard_delta_first h0 h hd.1 rfl rfl t1 (by decide) rfl rfl rfl (by decide) v w g2.1 g2.2 g1) t2 hd.2
      (finRotate 3) (by decide) fun _ _ _ _ _ hv => Meaning.value_text hd.1 _ _ hv
  · refine claim_of rfl (hard_delta_first h0 h hd.1 rfl rfl t3 (by decide) rfl rfl rfl (by decide) v w g2.1 g2.2 g1) s3 hd.2
      1 (by decide) fun _ _ _ hs hc hv => ?_
    exact Meaning.value_text (meanings_fit meanings[2] (by simp [meanings])).1 _ _ (seven_sign hs hc hv)

/-! ### Two strings -/

/-- The string with angle brackets and the one with square brackets. -/
def seven : Meaning 7 × Meaning 7 :=
  (⟨'⟨', 6, [[2, 3], [4, 5]], '⟩', [], [], [], 6, 0, 1⟩, ⟨'[', 6, [[2, 3], [4, 5]], ']', [], [], [], 6, 0, 1⟩)

/-- **C100.** The pair of two strings that the code knows: both have their values and only the ends of the strings and the two
particles that restore momentum conservation have moved. -/
theorem C100_two_strings [NeZero (2 : K)] {abs : K → Γ} {tol : Γ} (h0 : abs 0 ≤ tol) {c : Ctx K} {ps : Point K 7}
    {r l : Fin 7 → V2 K} (h : Spin c ps r l) (fuel : ℕ) (v w : K) (g1 : QuadGuard ps seven.1.str) (g2 : QuadGuard ps seven.2.str)
    (hf : SpecSquare (l 0) (l 1) ≠ 0) :
    (∃ D, c.sqrt D = none ∧
      pairHard hardStrings abs tol c fuel ps "⟨7|3+4|5+6|7⟩" v "[7|3+4|5+6|7]" w = some (.error .valueError)) ∨
    ∃ ps', pairHard hardStrings abs tol c fuel ps "⟨7|3+4|5+6|7⟩" v "[7|3+4|5+6|7]" w = some (.ok (some ps')) ∧ GoodPoint c ps' ∧
      callNumber ps' fuel "⟨7|3+4|5+6|7⟩".toList = some (.ok v) ∧ callNumber ps' fuel "[7|3+4|5+6|7]".toList = some (.ok w) ∧
      ∀ j, j ≠ 6 → j ≠ 0 → j ≠ 1 → ps' j = ps j := by
  have f1 : seven.1.Fits := by decide +kernel
  have f2 : seven.2.Fits := by decide +kernel
  have hz := pairHard_of (table := hardStrings) (abs := abs) (tol := tol) (c := c) (fuel := fuel) (ps := ps)
    (z := hardStrings[0]) rfl v w
  have hz : pairHard hardStrings abs tol c fuel ps "⟨7|3+4|5+6|7⟩" v "[7|3+4|5+6|7]" w = _ := hz
  rw [hz]
  have r1 : ∀ qs : Point K 7, (hardStrings[0]).one.run abs tol c fuel v w qs = setText abs tol c qs fuel seven.2.text w false 1 := fun _ => rfl
  have r2 : ∀ qs : Point K 7, (hardStrings[0]).two.run abs tol c fuel v w qs = setText abs tol c qs fuel seven.1.text v false 1 := fun _ => rfl
  have r3 : ∀ qs : Point K 7, fixLabels c qs (hardStrings[0]).p (hardStrings[0]).q = fixAxis1 c qs 0 1 := fun qs => fixLabels_succ c qs 0 1
  unfold HardPair.run
  rw [r1]
  rcases Meaning.text_quadratic (abs := abs) (tol := tol) h0 h f2 w fuel g2 with
    ⟨D, hD, e⟩ | ⟨ps1, rr1, l1, e, s1, v1, o1, -, m1⟩
  · exact .inl ⟨D, hD, by rw [e]; rfl⟩
  rw [e]
  simp only [r2]
  have m1 : rr1 = r := m1 rfl
  have g1' : QuadGuard ps1 seven.1.str := by
    have n6 : (6 : Fin 7) ∉ ([[2, 3], [4, 5]] : List (List (Fin 7))).flatten := by decide
    have : chain ps1 true (([[2, 3], [4, 5]] : List (List (Fin 7))).map plusOf) = chain ps true ([[2, 3], [4, 5]].map plusOf) :=
      chain_congr' (fun k hk => (o1 k (fun q => n6 (by
        have q' : k = 6 := q
        exact q' ▸ occurs_plus hk))).1) true
    have g1 : chain ps true (([[2, 3], [4, 5]] : List (List (Fin 7))).map plusOf) 1 0 ≠ 0 := g1
    show chain ps1 true (([[2, 3], [4, 5]] : List (List (Fin 7))).map plusOf) 1 0 ≠ 0
    rwa [this]
  rcases Meaning.text_quadratic (abs := abs) (tol := tol) h0 s1 f1 v fuel g1' with
    ⟨D, hD, e'⟩ | ⟨ps2, rr2, l2, e', s2, v2, o2, m2, -⟩
  · exact .inl ⟨D, hD, by rw [e']; rfl⟩
  have m2 : l2 = l1 := m2 rfl
  simp only [e', r3]
  have hf' : SpecSquare (l2 0) (l2 1) ≠ 0 := by
    rw [m2, (o1 0 (by decide)).2.2, (o1 1 (by decide)).2.2]; exact hf
  obtain ⟨ps3, rr3, e3, hc, s3, o3⟩ := fixAxis1_spin s2 (by decide) hf'
  have nslot : ∀ k ∈ ([[2, 3], [4, 5]] : List (List (Fin 7))).flatten, k ≠ 0 ∧ k ≠ 1 ∧ k ≠ 6 := by decide
  refine .inr ⟨ps3, by rw [e3]; rfl, ⟨hc, rr3, l2, s3⟩, Meaning.value_text f1 _ _ (v2 ▸ ?_), Meaning.value_text f2 _ _ (v1 ▸ ?_), ?_⟩
  · exact quad_value_congr s2 s3 f1.1 rfl rfl (fun k hk => (o3 k (nslot k hk).1 (nslot k hk).2.1).1)
      (fun _ => (o3 6 (by decide) (by decide)).2) fun _ => rfl
  · refine quad_value_congr s1 s3 f2.1 rfl rfl (fun k hk => ?_) (fun e => absurd e (by decide)) fun _ => by rw [m2]
    rw [(o3 k (nslot k hk).1 (nslot k hk).2.1).1]
    exact (o2 k (nslot k hk).2.2).1
  · intro j j1 j2 j3
    rw [(o3 j j2 j3).1, (o2 j j1).1, (o1 j j1).1]

/-! ### All other pairs -/

/-- **C100.** Every other pair of texts leaves the point as it is: nothing is raised and nothing is set. -/
theorem C100_other {table : List HardPair} (abs : K → Γ) (tol : Γ) (c : Ctx K) (fuel : ℕ) (ps : Point K n) (t₁ t₂ : String) (v w : K) :
    pairHard table abs tol c fuel ps t₁ v t₂ w = some (.ok none) ↔ ∀ z ∈ table, ¬ (z.first = t₁ ∧ z.second = t₂) := by
  rcases hf : table.find? fun h => decide (h.first = t₁ ∧ h.second = t₂) with _ | z
  · have e : pairHard table abs tol c fuel ps t₁ v t₂ w = some (.ok none) := by unfold pairHard; rw [hf]
    refine ⟨fun _ z hz hh => ?_, fun _ => e⟩
    have := List.find?_eq_none.mp hf z hz
    exact this (decide_eq_true hh)
  · have e : pairHard table abs tol c fuel ps t₁ v t₂ w = (z.run abs tol c fuel v w ps).map fun r => r.map some := by
      unfold pairHard; rw [hf]
    have hz := List.find?_some hf
    have hm := List.mem_of_find?_eq_some hf
    refine ⟨fun e' => ?_, fun hh => absurd (of_decide_eq_true hz) (hh z hm)⟩
    rw [e] at e'
    rcases hr : z.run abs tol c fuel v w ps with _ | r
    · rw [hr] at e'; cases e'
    · rw [hr] at e'
      rcases r with _ | q <;> cases e'

end Lips

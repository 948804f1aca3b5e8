import Verif.Props.PairND
import Verif.Examples.Pair
import Verif.Examples.SetText

/-! Concrete cases meeting the hypotheses of the theorems on the pairs of a string and Δ that are written out. -/

namespace Lips

/-- Spinors of seven particles, one list for each pair. -/
def spin7 (i : Fin 7) : Fin 7 → V2 F13 × V2 F13 :=
  ![![(![4, 1], ![3, 8]), (![11, 1], ![7, 7]), (![10, 5], ![8, 4]), (![7, 8], ![0, 12]), (![1, 5], ![8, 0]), (![6, 5], ![1, 11]), (![9, 10], ![6, 11])],
    ![(![12, 10], ![3, 3]), (![10, 0], ![12, 2]), (![9, 7], ![12, 8]), (![5, 3], ![7, 1]), (![11, 5], ![1, 5]), (![11, 1], ![8, 7]), (![3, 9], ![1, 4])],
    ![(![11, 0], ![11, 4]), (![4, 5], ![2, 0]), (![11, 0], ![3, 5]), (![9, 3], ![5, 7]), (![2, 2], ![4, 4]), (![7, 1], ![8, 10]), (![7, 5], ![5, 2])],
    ![(![10, 0], ![5, 9]), (![2, 1], ![1, 9]), (![12, 6], ![1, 12]), (![10, 3], ![5, 5]), (![9, 6], ![8, 7]), (![8, 3], ![5, 4]), (![7, 3], ![0, 8])],
    ![(![6, 0], ![5, 9]), (![3, 3], ![2, 6]), (![10, 4], ![9, 12]), (![5, 2], ![0, 2]), (![3, 5], ![9, 0]), (![3, 2], ![10, 6]), (![6, 7], ![11, 12])],
    ![(![9, 9], ![6, 8]), (![12, 6], ![8, 1]), (![8, 3], ![1, 9]), (![10, 0], ![11, 7]), (![10, 2], ![12, 0]), (![8, 10], ![3, 6]), (![7, 4], ![9, 12])],
    ![(![3, 6], ![2, 0]), (![7, 11], ![9, 8]), (![5, 5], ![4, 5]), (![1, 9], ![11, 3]), (![6, 12], ![6, 3]), (![1, 11], ![5, 2]), (![0, 12], ![12, 2])]] i
def pt7 (i : Fin 7) : Point F13 7 := spinPoint (f13 .symmetric) (spin7 i)
def r7 (i : Fin 7) (k : Fin 7) : V2 F13 := (spin7 i k).1
def l7 (i : Fin 7) (k : Fin 7) : V2 F13 := (spin7 i k).2
theorem spin_pt7 (i : Fin 7) : Spin (f13 .symmetric) (pt7 i) (r7 i) (l7 i) := spinPoint_isMassless (f13 .symmetric) (spin7 i)

/-- The sum of momenta written with spinors. -/
def momenta (r l : Fin 7 → V2 F13) (ls : List (Fin 7)) : M2 F13 :=
  (ls.map fun k => outer ![l k 1, -l k 0] ![r k 1, -r k 0]).sum

/-- The product of the slots. -/
def quadMat (r l : Fin 7 → V2 F13) (ang : Bool) (a b : List (Fin 7)) : M2 F13 :=
  if ang then flip2 (momenta r l a) * momenta r l b else momenta r l a * flip2 (momenta r l b)

theorem momenta_eq {ps : Point F13 7} {r l : Fin 7 → V2 F13} (h : Spin (f13 .symmetric) ps r l) (ls : List (Fin 7)) :
    sumR2 ps ls = momenta r l ls := by
  unfold sumR2 momenta
  congr 1
  exact List.map_congr_left fun k _ => (h k).r2

theorem chain_quadMat {ps : Point F13 7} {r l : Fin 7 → V2 F13} (h : Spin (f13 .symmetric) ps r l) (ang : Bool) (a b : List (Fin 7)) :
    chain ps ang ([a, b].map plusOf) = quadMat r l ang a b := by
  cases ang <;>
    simp [List.map_cons, List.map_nil, chain, slotMat_plusOf_bar ps _ (fun k => (h k).cons), slotMat_plusOf, mul_one,
      momenta_eq h, quadMat]

theorem vec_eta (u : V2 F13) : ![u 0, u 1] = u := by ext i; fin_cases i <;> rfl

theorem fun_update {r r' : Fin 7 → V2 F13} {k : Fin 7} (h : ∀ j, j ≠ k → r' j = r j) :
    r' = Function.update r k ![r' k 0, r' k 1] := by
  funext j
  by_cases hj : j = k
  · subst hj; rw [Function.update_self, vec_eta]
  · rw [Function.update_of_ne hj, h j hj]

/-- The guards of a pair whose Δ is set first, checked on spinors. -/
def Check7 (r l : Fin 7 → V2 F13) (d : Meaning 7) (a b : List (Fin 7)) : Prop :=
  SpecSquare (l d.p) (l d.q) ≠ 0 ∧ ((flip2 (momenta r l d.B)).mulVec ![l d.k 1, -l d.k 0]) 0 ≠ 0 ∧
  ∀ x y, (if d.first = '⟨' then quadMat (Function.update r d.k ![x, y]) l true a b 1 0
    else quadMat (Function.update r d.k ![x, y]) l false a b 0 1) ≠ 0

theorem guard7 {fuel : ℕ} {z : HardPair} {d : Meaning 7} {v w : F13} {ps : Point F13 7} {r l : Fin 7 → V2 F13}
    (h : Spin (f13 .symmetric) ps r l) (e1 : z.one = ⟨z.one.text, true, 1⟩)
    (ht : DeltaText (f13 .symmetric) 7 fuel z.one.text.toList d.A d.B d.C) (hk : d.A.head? = some d.k) (hn : 2 ≤ d.A.length)
    (hB : d.B ≠ []) (hC : d.C ≠ []) (hnd : (d.A ++ d.B).Nodup) {a b : List (Fin 7)} (hss : d.ss = [a, b]) (hc : Check7 r l d a b) :
    HardGuard abs13 0 (f13 .symmetric) fuel z d v w ps r l := by
  obtain ⟨c1, c2, c3⟩ := hc
  have hs : z.one.second = true := by rw [e1]
  have hk0 : d.A[(1 - 1) / 2]? = some d.k := by rw [← hk]; simp [List.head?_eq_getElem?]
  have hnd' := List.nodup_append.mp hnd
  have hkA : d.k ∈ d.A := List.mem_of_mem_head? hk
  have g : DeltaGuard (f13 .symmetric) ps r l d.A d.B d.C d.k 1 := by
    refine deltaGuard_of rfl h ?_ hB hC ?_
    · intro e
      have := congrArg List.length e
      rw [List.length_eraseIdx] at this
      simp only [List.length_nil] at this
      split at this <;> omega
    · rw [if_pos rfl, momenta_eq h]; exact c2
  refine ⟨c1, ?_⟩
  rw [if_pos hs]
  refine ⟨g, fun qs e => ?_⟩
  have r1 : z.one.run abs13 0 (f13 .symmetric) fuel v w ps = setText abs13 0 (f13 .symmetric) ps fuel z.one.text.toList w false 1 := by
    unfold HardStep.run; rw [e1]; rfl
  rcases text_delta (abs := abs13) (tol := 0) (by decide) h ht (by decide) hk0 hnd'.1 (fun hb => hnd'.2.2 _ hkA _ hb rfl) w g with
    ⟨D, hD, e'⟩ | ⟨ps1, rr1, l1, e', s1, v1, o1, m1⟩
  · rw [r1, e'] at e; cases e
  · rw [r1, e'] at e
    injection e with e
    injection e with e
    subst e
    have m1 : l1 = l := m1
    subst m1
    have hu := fun_update (fun j hj => (o1 j hj).2.1)
    have := c3 (rr1 d.k 0) (rr1 d.k 1)
    rw [← hu] at this
    unfold QuadGuard
    simp only [Meaning.str, hss, chain_quadMat s1]
    exact this

instance (r l : Fin 7 → V2 F13) (d : Meaning 7) (a b : List (Fin 7)) : Decidable (Check7 r l d a b) := by
  unfold Check7; infer_instance

theorem check7_0 : Check7 (r7 0) (l7 0) meanings[0] [2, 3] [4, 5] := by decide +kernel
theorem check7_2 : Check7 (r7 2) (l7 2) meanings[2] [2, 3] [4, 5] := by decide +kernel
theorem check7_3 : Check7 (r7 3) (l7 3) meanings[3] [0, 1] [4, 5] := by decide +kernel
theorem check7_4 : Check7 (r7 4) (l7 4) meanings[4] [0, 1] [4, 5] := by decide +kernel
theorem check7_5 : Check7 (r7 5) (l7 5) meanings[5] [4, 5] [0, 1] := by decide +kernel
theorem check7_6 : Check7 (r7 6) (l7 6) meanings[6] [2, 3] [0, 1] := by decide +kernel

/-- C100: all pairs whose Δ is set first, each at its own configuration. -/
theorem hard7 (v w : F13) (m : ℕ) : ∀ i : Fin 7, i ≠ 1 →
    HardGuard abs13 0 (f13 .symmetric) (m + 3) hardDelta[i] meanings[i] v w (pt7 i) (r7 i) (l7 i) := by
  obtain ⟨s1, s2, s3⟩ := short7 (f13 .symmetric) m
  obtain ⟨t1, t2, t3⟩ := corners7 (f13 .symmetric) (m + 3)
  have h0 : HardGuard abs13 0 (f13 .symmetric) (m + 3) hardDelta[0] meanings[0] v w (pt7 0) (r7 0) (l7 0) :=
    guard7 (spin_pt7 0) rfl s2 rfl (by decide) (by decide) (by decide) (by decide) rfl check7_0
  have h2 : HardGuard abs13 0 (f13 .symmetric) (m + 3) hardDelta[2] meanings[2] v w (pt7 2) (r7 2) (l7 2) :=
    guard7 (spin_pt7 2) rfl s2 rfl (by decide) (by decide) (by decide) (by decide) rfl check7_2
  have h3 : HardGuard abs13 0 (f13 .symmetric) (m + 3) hardDelta[3] meanings[3] v w (pt7 3) (r7 3) (l7 3) :=
    guard7 (spin_pt7 3) rfl t1 rfl (by decide) (by decide) (by decide) (by decide) rfl check7_3
  have h4 : HardGuard abs13 0 (f13 .symmetric) (m + 3) hardDelta[4] meanings[4] v w (pt7 4) (r7 4) (l7 4) :=
    guard7 (spin_pt7 4) rfl t1 rfl (by decide) (by decide) (by decide) (by decide) rfl check7_4
  have h5 : HardGuard abs13 0 (f13 .symmetric) (m + 3) hardDelta[5] meanings[5] v w (pt7 5) (r7 5) (l7 5) :=
    guard7 (spin_pt7 5) rfl t1 rfl (by decide) (by decide) (by decide) (by decide) rfl check7_5
  have h6 : HardGuard abs13 0 (f13 .symmetric) (m + 3) hardDelta[6] meanings[6] v w (pt7 6) (r7 6) (l7 6) :=
    guard7 (spin_pt7 6) rfl t3 rfl (by decide) (by decide) (by decide) (by decide) rfl check7_6
  intro i hi
  match i, hi with
  | 0, _ => exact h0
  | 2, _ => exact h2
  | 3, _ => exact h3
  | 4, _ => exact h4
  | 5, _ => exact h5
  | 6, _ => exact h6
  | 1, hi => exact absurd rfl hi

theorem zip7 (i : Fin 7) : (hardDelta[i], meanings[i]) ∈ hardDelta.zip meanings := by
  have : (hardDelta.zip meanings)[i]'(by simp [hardDelta, meanings]) = (hardDelta[i], meanings[i]) := List.getElem_zip
  rw [← this]
  exact List.getElem_mem _

example (i : Fin 7) (hi : i ≠ 1) (v w : F13) : HardClaim abs13 0 (f13 .symmetric) 3 hardDelta[i] meanings[i] v w (pt7 i) :=
  C100_string_gram (by decide) (spin_pt7 i) 0 (zip7 i) v w (hard7 v w 0 i hi)

/-- The guards of the pair whose string is set first, checked on spinors. -/
def CheckString7 (r l : Fin 7 → V2 F13) (d : Meaning 7) (a b : List (Fin 7)) (v : F13) : Prop :=
  SpecSquare (l d.p) (l d.q) ≠ 0 ∧ quadMat r l true a b 1 0 ≠ 0 ∧
  ∀ x y : F13, bil ![y, -x] (quadMat r l true a b) ![x, y] = v → (Matrix.vecMul ![y, -x] (flip2 (momenta r l d.B))) 0 ≠ 0

instance (r l : Fin 7 → V2 F13) (d : Meaning 7) (a b : List (Fin 7)) (v : F13) : Decidable (CheckString7 r l d a b v) := by
  unfold CheckString7; infer_instance

theorem guard7_string {fuel : ℕ} {z : HardPair} {d : Meaning 7} {v w : F13} {ps : Point F13 7} {r l : Fin 7 → V2 F13}
    (h : Spin (f13 .symmetric) ps r l) (e1 : z.one = ⟨z.one.text, false, 1⟩) (ht : z.one.text.toList = d.text) (hd : d.Fits)
    (hfirst : d.first = '⟨') (hlast : d.last = '⟩') (hm : z.two.mode % 2 = 0) (hks : d.k = d.s)
    (hA : d.A.eraseIdx ((z.two.mode - 1) / 2) ≠ []) (hB : d.B ≠ []) (hC : d.C ≠ []) (hkB : d.s ∉ d.B)
    {a b : List (Fin 7)} (hss : d.ss = [a, b]) (hc : CheckString7 r l d a b v) :
    HardGuard abs13 0 (f13 .symmetric) fuel z d v w ps r l := by
  obtain ⟨c1, c2, c3⟩ := hc
  have hs : ¬ z.one.second = true := by rw [e1]; simp
  have q1 : QuadGuard ps d.str := by
    unfold QuadGuard
    simp only [Meaning.str, hss, hfirst, if_true, chain_quadMat h]
    exact c2
  refine ⟨c1, ?_⟩
  rw [if_neg hs]
  refine ⟨q1, fun qs r' l' e s => ?_⟩
  have r1 : z.one.run abs13 0 (f13 .symmetric) fuel v w ps = setText abs13 0 (f13 .symmetric) ps fuel d.text v false 1 := by
    unfold HardStep.run; rw [e1, ← ht]; rfl
  rcases Meaning.text_quadratic (abs := abs13) (tol := 0) (by decide) h hd v fuel q1 with
    ⟨D, hD, e'⟩ | ⟨ps1, rr1, l1, e', s1, v1, o1, m1, -⟩
  · rw [r1, e'] at e; cases e
  rw [r1, e'] at e
  injection e with e
  injection e with e
  subst e
  have hr : r' d.s = rr1 d.s := by
    have e1 := (s d.s).r_d
    rw [(s1 d.s).r_d] at e1
    injection e1 with e1
    exact e1.symm
  have hBs : sumR2 ps1 d.B = sumR2 ps d.B := sumR2_congr fun k hk => (o1 k (by rintro rfl; exact hkB hk)).1
  refine deltaGuard_of rfl s hA hB hC ?_
  rw [if_neg (by omega), hBs, momenta_eq h, hks, hr]
  have hch : chain ps1 true (d.str.ms.map plusOf) = quadMat r l true a b := by
    rw [← chain_quadMat h, ← hss]
    refine chain_congr' (fun k hk => (o1 k ?_).1) true
    rintro rfl
    exact hd.2.2.2.2.1 (occurs_plus hk)
  rw [Str.value_eq s1 hd.1] at v1
  injection v1 with v1
  have df : d.str.first = '⟨' := hfirst
  have dl : d.str.last = '⟩' := hlast
  simp only [df, headSp, tailSp, dl, if_true, decide_true, hch] at v1
  have v1 : bil ![rr1 d.s 1, -rr1 d.s 0] (quadMat r l true a b) (rr1 d.s) = v := v1
  rw [← vec_eta (rr1 d.s)] at v1
  exact c3 (rr1 d.s 0) (rr1 d.s 1) v1

theorem check7_1 : CheckString7 (r7 1) (l7 1) meanings[1] [0, 6] [2, 3] 7 := by decide +kernel

/-- C100: the pair whose string is set first, `⟨2|1+7|3+4|2⟩` to 7 and `Δ_735`. -/
theorem hard7_string (w : F13) (m : ℕ) : HardGuard abs13 0 (f13 .symmetric) (m + 3) hardDelta[1] meanings[1] 7 w (pt7 1) (r7 1) (l7 1) :=
  guard7_string (spin_pt7 1) rfl (by decide) (meanings_fit meanings[1] (by simp [meanings])).1 rfl rfl rfl rfl (by decide) (by decide)
    (by decide) (by decide) rfl check7_1

example (w : F13) : HardClaim abs13 0 (f13 .symmetric) 3 hardDelta[1] meanings[1] 7 w (pt7 1) :=
  C100_string_gram (by decide) (spin_pt7 1) 0 (zip7 1) 7 w (hard7_string w 0)

theorem quad7 {d : Meaning 7} {a b : List (Fin 7)} (hss : d.ss = [a, b])
    (hc : (if d.first = '⟨' then quadMat (r7 0) (l7 0) true a b 1 0 else quadMat (r7 0) (l7 0) false a b 0 1) ≠ 0) :
    QuadGuard (pt7 0) d.str := by
  unfold QuadGuard
  simp only [Meaning.str, hss, chain_quadMat (spin_pt7 0)]
  exact hc

/-- C100: the two strings. -/
example (v w : F13) : (∃ D, (f13 .symmetric).sqrt D = none ∧ pairHard hardStrings abs13 0 (f13 .symmetric) 0 (pt7 0)
      "⟨7|3+4|5+6|7⟩" v "[7|3+4|5+6|7]" w = some (.error .valueError)) ∨
    ∃ ps', pairHard hardStrings abs13 0 (f13 .symmetric) 0 (pt7 0) "⟨7|3+4|5+6|7⟩" v "[7|3+4|5+6|7]" w = some (.ok (some ps')) ∧
      callNumber ps' 0 "⟨7|3+4|5+6|7⟩".toList = some (.ok v) ∧ callNumber ps' 0 "[7|3+4|5+6|7]".toList = some (.ok w) := by
  rcases C100_two_strings (abs := abs13) (tol := 0) (by decide) (spin_pt7 0) 0 v w (quad7 rfl (by decide +kernel))
    (quad7 rfl (by decide +kernel)) (by decide +kernel) with h | ⟨ps', h1, -, h2, h3, -⟩
  · exact .inl h
  · exact .inr ⟨ps', h1, h2, h3⟩

/-- C100 (finding): with parentheses, or the two texts exchanged, nothing is set. -/
example (ps : Point F13 7) (v w : F13) :
    pairHard hardDelta abs13 0 (f13 .symmetric) 3 ps "⟨1|(3+4)|(5+6)|1⟩" v "Δ_735" w = some (.ok none) ∧
    pairHard hardDelta abs13 0 (f13 .symmetric) 3 ps "⟨1|3+4|5+6|1⟩" v "Δ_357" w = some (.ok none) ∧
    pairHard hardStrings abs13 0 (f13 .symmetric) 3 ps "[7|3+4|5+6|7]" v "⟨7|3+4|5+6|7⟩" w = some (.ok none) := by
  refine ⟨?_, ?_, ?_⟩ <;> rw [C100_other] <;> decide

end Lips

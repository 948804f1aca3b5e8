import Verif.Props.PairTwo
import Verif.Props.SetPairSteps

/-! Properties C88 and C89: setting a two-bracket and a Mandelstam invariant, and two Mandelstam invariants. -/

namespace Lips

open Matrix

set_option linter.unusedSectionVars false

variable {K Γ : Type*} [Field K] [LinearOrder Γ] {n : ℕ}

/-! ### C88 -/

theorem takeOut_perm (a : Fin n) (z : List (Fin n) × List (Fin n)) :
    ((takeOut a z).1 ++ (takeOut a z).2).Perm (z.1 ++ z.2) := by
  unfold takeOut
  split
  · rename_i h
    simp only
    have p := List.perm_cons_erase h
    refine List.Perm.trans ?_ (p.append_right z.2).symm
    rw [← List.append_assoc]
    exact (List.perm_append_comm).trans (by simp)
  · exact List.Perm.refl _

/-- The labels are only rearranged. -/
theorem split2S_perm (a b : Fin n) (ls : List (Fin n)) : ((split2S a b ls).1 ++ (split2S a b ls).2).Perm ls := by
  have := (takeOut_perm b (takeOut a (ls, []))).trans (takeOut_perm a (ls, []))
  simpa [split2S] using this

/-- What is taken out are labels of the two-bracket. -/
theorem split2S_snd {a b : Fin n} {ls : List (Fin n)} : ∀ k ∈ (split2S a b ls).2, k = a ∨ k = b := by
  unfold split2S takeOut
  intro k hk
  split at hk <;> split at hk <;> simp at hk <;> tauto

/-- The first label is not a label of the two-bracket. -/
theorem split2S_fst {a b : Fin n} {ls : List (Fin n)} (h : ls.Nodup) : a ∉ (split2S a b ls).1 ∧ b ∉ (split2S a b ls).1 := by
  have key : ∀ (a : Fin n) (z : List (Fin n) × List (Fin n)), z.1.Nodup → a ∉ (takeOut a z).1 ∧ (takeOut a z).1.Nodup ∧
      ∀ k, k ∈ (takeOut a z).1 → k ∈ z.1 := by
    intro a z hz
    unfold takeOut
    split
    · exact ⟨hz.not_mem_erase, hz.erase a, fun k hk => List.mem_of_mem_erase hk⟩
    · exact ⟨by assumption, hz, fun k hk => hk⟩
  obtain ⟨h1, h2, -⟩ := key a (ls, []) h
  obtain ⟨h3, -, h5⟩ := key b (takeOut a (ls, [])) h2
  exact ⟨fun hk => h1 (h5 a hk), h3⟩

theorem split2S_mem {a b : Fin n} {ls : List (Fin n)} (k : Fin n) :
    k ∈ (split2S a b ls).1 ++ [a, b] ↔ k ∈ ls ∨ k = a ∨ k = b := by
  have p := (split2S_perm a b ls).mem_iff (a := k)
  rw [List.mem_append] at p
  have q := split2S_snd (a := a) (b := b) (ls := ls) k
  simp only [List.mem_append, List.mem_cons, List.not_mem_nil, or_false]
  tauto

theorem computeS_perm (ps : Point K n) {A B : List (Fin n)} (h : A.Perm B) : computeS ps A = computeS ps B := by
  unfold computeS; rw [sumR2_perm ps h]

/-- The list of labels that is set, as head and rest. -/
theorem split2S_cons {a b : Fin n} {ls : List (Fin n)} (hn : ls.Nodup) (hlen : 3 ≤ ls.length) :
    ∃ i rest, (split2S a b ls).1 ++ (split2S a b ls).2 = i :: rest ∧ i ≠ a ∧ i ≠ b ∧ i ∉ rest ∧ 2 ≤ rest.length := by
  have p := split2S_perm a b ls
  have hf := split2S_fst (a := a) (b := b) hn
  have hs := split2S_snd (a := a) (b := b) (ls := ls)
  have nd := p.symm.nodup hn
  have len := p.length_eq
  match h1 : (split2S a b ls).1 with
  | [] =>
    rw [h1, List.nil_append] at nd len
    exfalso
    have : (split2S a b ls).2.length ≤ 2 := by
      have sub : (split2S a b ls).2.toFinset ⊆ {a, b} := by
        intro k hk; simp only [List.mem_toFinset] at hk
        rcases hs k hk with e | e <;> simp [e]
      have c1 := Finset.card_le_card sub
      rw [List.toFinset_card_of_nodup nd] at c1
      exact c1.trans Finset.card_le_two
    omega
  | i :: t =>
    rw [h1] at hf nd len
    refine ⟨i, t ++ (split2S a b ls).2, rfl, fun e => hf.1 (by simp [e]), fun e => hf.2 (by simp [e]), ?_, ?_⟩
    · rw [List.cons_append, List.nodup_cons] at nd; exact nd.1
    · simp only [List.cons_append, List.length_cons] at len; omega

/-- The point at which the second invariant is set is good enough: the component by which the step divides is not
zero. -/
def SecondOk (ps : Point K n) (i : Fin n) (rest : List (Fin n)) (last : Char) : Prop :=
  ∃ u, computeOpenBegin ps [plusOf rest] i last = .ok u ∧ u 0 ≠ 0

/-- The two steps before momentum conservation is restored. -/
theorem pair2S_steps [NeZero (2 : K)] {c : Ctx K} {T : Tol K Γ} (hT : T.abs 0 ≤ T.tol) {ps : Point K n}
    {r l : Fin n → V2 K} (h : Spin c ps r l) {x : Bool} {a b : Fin n} (hab : a ≠ b) (v w : K)
    (h1 : HeadOk x (r a) (l a)) {ls : List (Fin n)} {i : Fin n} {rest : List (Fin n)} (hls : ls = i :: rest)
    (hi : i ∉ rest) (hlen : 2 ≤ rest.length)
    (h2 : ∀ qs, setTwo c T x a b v ps = .ok qs → SecondOk qs i rest (if x then '⟩' else ']')) :
    ∃ ps' r' l', andThen (setTwo c T x a b v ps) (setMandel c T ls (if x then 2 else 1) w) = .ok ps' ∧
      Spin c ps' r' l' ∧ twoVal x a b ps' = .ok v ∧ computeS ps' ls = w ∧
      (∀ k, k ≠ b → k ≠ i → ps' k = ps k ∧ r' k = r k ∧ l' k = l k) := by
  subst hls
  obtain ⟨ps1, r1, l1, e1, s1, v1, o1, -⟩ := setTwo_spec (T := T) hT h hab v h1
  obtain ⟨u, hu, hu0⟩ := h2 ps1 e1
  obtain ⟨ps2, r2, l2, e2, s2, w2, o2, m1, m2⟩ := setMandel_spec (T := T) hT s1 hi hlen (mode := if x then 2 else 1)
    (by cases x <;> simp) w (v := u) (by rw [← hu]; cases x <;> simp) hu0
  refine ⟨ps2, r2, l2, by simp [andThen, e1, e2], s2, ?_, w2, ?_⟩
  · rw [twoVal_kind s1 s2, v1]
    cases x
    · simpa using m1
    · simpa using m2
  · intro k hb hi
    exact ⟨(o2 k hi).1.trans (o1 k hb).1, (o2 k hi).2.1.trans (o1 k hb).2.1, (o2 k hi).2.2.trans (o1 k hb).2.2⟩

theorem split2S_head {a b : Fin n} {ls : List (Fin n)} {i : Fin n} {rest : List (Fin n)}
    (hir : (split2S a b ls).1 ++ (split2S a b ls).2 = i :: rest) (hia : i ≠ a) (hib : i ≠ b) :
    (split2S a b ls).1.head? = some i := by
  match h3 : (split2S a b ls).1 with
  | [] =>
    rw [h3, List.nil_append] at hir
    have := split2S_snd (a := a) (b := b) (ls := ls) i (by rw [hir]; simp)
    rcases this with e | e <;> contradiction
  | j :: t => rw [h3] at hir; simp at hir; simp [hir.1]

theorem pair2SRun_free [NeZero (2 : K)] {c : Ctx K} {T : Tol K Γ} (hT : T.abs 0 ≤ T.tol) {ps : Point K n}
    {r l : Fin n → V2 K} (h : Spin c ps r l) {x : Bool} {a b : Fin n} (hab : a ≠ b) {ls : List (Fin n)} (hn : ls.Nodup)
    (hlen : 3 ≤ ls.length) {p q : Fin n} (hpq : FirstTwoFree (a :: b :: ls) p q) (v w : K) (h1 : HeadOk x (r a) (l a))
    (h2 : ∀ qs i rest, setTwo c T x a b v ps = .ok qs → (split2S a b ls).1 ++ (split2S a b ls).2 = i :: rest →
      SecondOk qs i rest (if x then '⟩' else ']'))
    (hd : SpecSquare (l p) (l q) ≠ 0) :
    ∃ ps', pair2SRun c T ps x a b v ls w = .ok ps' ∧ twoVal x a b ps' = .ok v ∧ computeS ps' ls = w ∧ GoodPoint c ps' ∧
      (∀ k, k ≠ b → k ∉ (split2S a b ls).1.head? → k ≠ p → k ≠ q → ps' k = ps k) := by
  obtain ⟨i, rest, hir, hia, hib, hi, hlen'⟩ := split2S_cons (a := a) (b := b) hn hlen
  obtain ⟨ps1, r1, l1, e1, s1, v1, w1, o1⟩ := pair2S_steps (T := T) hT h hab v w h1 hir hi hlen' (fun qs hq => h2 qs i rest hq hir)
  have pm := split2S_perm a b ls
  have mi : i ∈ ls := pm.mem_iff.mp (by rw [hir]; simp)
  have hfl : freeLabels ((split2S a b ls).1 ++ [a, b]) = freeLabels (a :: b :: ls) :=
    freeLabels_congr fun k => by rw [split2S_mem]; simp; tauto
  have na := firstTwoFree_ne hpq (k := a) (by simp)
  have nb := firstTwoFree_ne hpq (k := b) (by simp)
  have nl : ∀ k ∈ ls, k ≠ p ∧ k ≠ q := fun k hk => firstTwoFree_ne hpq (by simp [hk])
  obtain ⟨ps2, e2, g2, o2⟩ := fixAfter_free (T := T) s1 hpq (by
    rw [(o1 p nb.1.symm (nl i mi).1.symm).2.2, (o1 q nb.2.symm (nl i mi).2.symm).2.2]; exact hd) x a b
  have hh := split2S_head hir hia hib
  refine ⟨ps2, ?_, ?_, ?_, g2, fun k k1 k2 k3 k4 => (o2 k k3 k4).trans (o1 k k1 ?_).1⟩
  · simp only [pair2SRun, e1]
    simp only [andThen, fixAfter, hfl] at e2 ⊢
    exact e2
  · rw [twoVal_congr (o2 a na.1 na.2) (o2 b nb.1 nb.2), v1]
  · rw [computeS_congr fun k hk => o2 k (nl k hk).1 (nl k hk).2, ← w1, computeS_perm _ pm]
  · intro e; exact k2 (by rw [hh]; simp [e])

/-- C88: a two-bracket and `s` of at least three labels that share a label with it, or at more than six points,
with two further labels `p`, `q`: both have the values asked for, momentum is conserved, and only `b`, the
first label of `s` that is not in the bracket, `p` and `q` change. The guards: the component by which the
first step divides, the one by which the second divides at the point the first leaves, and `[p|q]`. -/
theorem C88_two_free [NeZero (2 : K)] (c : Ctx K) (T : Tol K Γ) (hT : T.abs 0 ≤ T.tol) (ps : Point K n)
    (r l : Fin n → V2 K) (h : ∀ k, IsMassless c (ps k) (r k) (l k)) (x : Bool) (a b : Fin n) (hab : a ≠ b) (ls : List (Fin n))
    (hn : ls.Nodup) (hlen : 3 ≤ ls.length) (hov : a ∈ ls ∨ b ∈ ls ∨ 6 < n) (p q : Fin n) (hpq : FirstTwoFree (a :: b :: ls) p q)
    (v w : K) (h1 : HeadOk x (r a) (l a))
    (h2 : ∀ qs i rest, setTwo c T x a b v ps = .ok qs → (split2S a b ls).1 ++ (split2S a b ls).2 = i :: rest →
      SecondOk qs i rest (if x then '⟩' else ']'))
    (hd : SpecSquare (l p) (l q) ≠ 0) :
    ∃ ps', pair2S c T ps x a b v ls w = .ok ps' ∧ twoVal x a b ps' = .ok v ∧ computeS ps' ls = w ∧ GoodPoint c ps' ∧
      (∀ k, k ≠ b → k ∉ (split2S a b ls).1.head? → k ≠ p → k ≠ q → ps' k = ps k) := by
  obtain ⟨ps', e, rest⟩ := pair2SRun_free (T := T) hT (h : Spin c ps r l) hab hn hlen hpq v w h1 h2 hd
  refine ⟨ps', ?_, rest⟩
  unfold pair2S
  split
  · exact e
  · rw [if_neg (by rintro ⟨h6, -⟩; subst h6; rcases hov with h | h | h
                   · tauto
                   · tauto
                   · omega), if_pos (by tauto)]
    exact e

/-- C88: at six points, `s` of three labels disjoint from the bracket is set through its complement. -/
theorem C88_six_disjoint [NeZero (2 : K)] (c : Ctx K) (T : Tol K Γ) (hT : T.abs 0 ≤ T.tol) (ps : Point K 6)
    (r l : Fin 6 → V2 K) (h : ∀ k, IsMassless c (ps k) (r k) (l k)) (x : Bool) (a b : Fin 6) (hab : a ≠ b) (ls : List (Fin 6))
    (hn : ls.Nodup) (hlen : ls.length = 3) (ha : a ∉ ls) (hb : b ∉ ls) (p q : Fin 6)
    (hpq : FirstTwoFree (freeLabels ls) p q) (v w : K) (h1 : HeadOk x (r a) (l a))
    (h2 : ∀ qs i rest, setTwo c T x a b v ps = .ok qs →
      (split2S a b (freeLabels ls)).1 ++ (split2S a b (freeLabels ls)).2 = i :: rest → SecondOk qs i rest (if x then '⟩' else ']'))
    (hd : SpecSquare (l p) (l q) ≠ 0) :
    ∃ ps', pair2S c T ps x a b v ls w = .ok ps' ∧ twoVal x a b ps' = .ok v ∧ computeS ps' ls = w ∧ GoodPoint c ps' := by
  have len := length_free ls
  rw [List.toFinset_card_of_nodup hn, hlen] at len
  have mem : ∀ k, k ∈ freeLabels ls ↔ k ∈ a :: b :: freeLabels ls := by
    intro k
    have := (mem_freeLabels ls a).mpr ha
    have := (mem_freeLabels ls b).mpr hb
    simp only [List.mem_cons]
    constructor
    · tauto
    · rintro (rfl | rfl | h) <;> assumption
  obtain ⟨ps', e, ev, ew, eg, -⟩ := pair2SRun_free (T := T) hT (h : Spin c ps r l) hab (nodup_free ls) (by omega)
    (firstTwoFree_congr mem hpq) v w h1 h2 hd
  refine ⟨ps', ?_, ev, ?_, eg⟩
  · unfold pair2S
    rw [if_neg (by tauto), if_pos ⟨rfl, hlen⟩]; exact e
  · rw [← ew]; exact C16_complement ps' eg.1 (perm_free hn)

/-- C88: with one free label `p` momentum conservation is restored with `p` and `a`: when `a` is not a label of `s`
both invariants have the values asked for. -/
theorem C88_one_free [NeZero (2 : K)] (c : Ctx K) (T : Tol K Γ) (hT : T.abs 0 ≤ T.tol) (ps : Point K n)
    (r l : Fin n → V2 K) (h : ∀ k, IsMassless c (ps k) (r k) (l k)) (x : Bool) (a b : Fin n) (hab : a ≠ b) (ls : List (Fin n))
    (hn : ls.Nodup) (hlen : 3 ≤ ls.length) (ha : a ∉ ls) (hov : b ∈ ls ∨ 6 < n) (p : Fin n) (hp : freeLabels (a :: b :: ls) = [p])
    (v w : K) (h1 : HeadOk x (r a) (l a))
    (h2 : ∀ qs i rest, setTwo c T x a b v ps = .ok qs → (split2S a b ls).1 ++ (split2S a b ls).2 = i :: rest →
      SecondOk qs i rest (if x then '⟩' else ']'))
    (hd : if x then SpecAngle (r a) (r p) ≠ 0 else SpecSquare (l a) (l p) ≠ 0) :
    ∃ ps', pair2S c T ps x a b v ls w = .ok ps' ∧ twoVal x a b ps' = .ok v ∧ computeS ps' ls = w ∧ GoodPoint c ps' := by
  obtain ⟨i, rest, hir, hia, hib, hi, hlen'⟩ := split2S_cons (a := a) (b := b) hn hlen
  obtain ⟨ps1, r1, l1, e1, s1, v1, w1, o1⟩ := pair2S_steps (T := T) hT (h : Spin c ps r l) hab v w h1 hir hi hlen'
    (fun qs hq => h2 qs i rest hq hir)
  have pm := split2S_perm a b ls
  have mi : i ∈ ls := pm.mem_iff.mp (by rw [hir]; simp)
  have hfl : freeLabels ((split2S a b ls).1 ++ [a, b]) = [p] := by
    rw [← hp]; exact freeLabels_congr fun k => by rw [split2S_mem]; simp; tauto
  have hp' : p ∉ a :: b :: ls := (mem_freeLabels _ p).mp (by simp [hp])
  simp only [List.mem_cons, not_or] at hp'
  have hpi : p ≠ i := fun e => hp'.2.2 (e ▸ mi)
  obtain ⟨ps2, r2, l2, e2, hc, s2, kk, o2⟩ := fixAfter_one (T := T) s1 hfl (a := a) (x := x) (fun e' => hp'.1 e'.symm) (by
    rw [(o1 p hp'.2.1 hpi).2.1, (o1 p hp'.2.1 hpi).2.2, (o1 a hab hia.symm).2.1, (o1 a hab hia.symm).2.2]; exact hd) b
  refine ⟨ps2, ?_, ?_, ?_, s2.good hc⟩
  · have run : pair2SRun c T ps x a b v ls w = .ok ps2 := by
      simp only [pair2SRun, e1]
      exact e2
    unfold pair2S
    split
    · exact run
    · rw [if_neg (by rintro ⟨h6, -⟩; subst h6; rcases hov with h | h
                     · tauto
                     · omega), if_pos (by tauto)]
      exact run
  · rw [twoVal_kind s1 s2 kk, v1]
  · rw [computeS_congr fun k hk => o2 k (fun e => ha (e ▸ hk)) (fun e => hp'.2.2 (e ▸ hk)), ← w1, computeS_perm _ pm]

/-- Momentum conservation determines `|p]`, also when square spinors with `⟨k|a⟩ = 0` are not known. -/
theorem conserve_unique_or {c : Ctx K} {A B : Point K n} {r l l' : Fin n → V2 K} (hA : Spin c A r l) (hB : Spin c B r l')
    (cA : Conserves A) (cB : Conserves B) {a p : Fin n} (hl : ∀ k, k ≠ a → k ≠ p → SpecAngle (r k) (r a) = 0 ∨ l k = l' k)
    (hd : SpecAngle (r p) (r a) ≠ 0) : l p = l' p := by
  rw [hA.conserves_iff] at cA
  rw [hB.conserves_iff] at cB
  funext j
  have key : ∑ k, SpecAngle (r k) (r a) * (l k j - l' k j) = 0 := by
    have e : ∀ k, SpecAngle (r k) (r a) * (l k j - l' k j) =
        (r a 0 * (r k 1 * l k j) - r a 1 * (r k 0 * l k j)) - (r a 0 * (r k 1 * l' k j) - r a 1 * (r k 0 * l' k j)) := by
      intro k; unfold SpecAngle; ring
    simp only [e, Finset.sum_sub_distrib, ← Finset.mul_sum, cA, cB]
    simp
  rw [Finset.sum_eq_single p] at key
  · rcases mul_eq_zero.mp key with h | h
    · exact absurd h hd
    · exact sub_eq_zero.mp h
  · intro k _ hk
    by_cases hka : k = a
    · subst hka; rw [specAngle_self, zero_mul]
    · rcases hl k hka hk with h | h
      · rw [h, zero_mul]
      · rw [h, sub_self, mul_zero]
  · simp

/-- C88 (finding): with one free label `p` and `a` a label of `s`, momentum conservation is restored with `|a]` and
`|p]`, which spoils `s`. It is easily seen where `⟨i|a⟩ = 0` for the label `i` through which `s` was set: then `s` ends
up with one and the same value, whatever value was asked for, and the final comparison of `_set_pair` raises
for all other values. -/
theorem C88_shared_head_partial [NeZero (2 : K)] (c : Ctx K) (T : Tol K Γ) (hT : T.abs 0 ≤ T.tol) (ps : Point K n)
    (r l : Fin n → V2 K) (h : ∀ k, IsMassless c (ps k) (r k) (l k)) (a b : Fin n) (hab : a ≠ b) (ls : List (Fin n))
    (hn : ls.Nodup) (hlen : 3 ≤ ls.length) (ha : a ∈ ls) (hb : b ∉ ls) (p : Fin n) (hp : freeLabels (a :: b :: ls) = [p])
    (v : K) (h1 : r a 1 ≠ 0)
    (h2 : ∀ qs i rest, setTwo c T true a b v ps = .ok qs → (split2S a b ls).1 ++ (split2S a b ls).2 = i :: rest →
      SecondOk qs i rest '⟩')
    (hi0 : ∀ i, (split2S a b ls).1.head? = some i → SpecAngle (r i) (r a) = 0)
    (hd : SpecAngle (r a) (r p) ≠ 0) :
    ∃ z, ∀ w, ∃ ps', pair2S c T ps true a b v ls w = .ok ps' ∧ twoVal true a b ps' = .ok v ∧ computeS ps' ls = z ∧
      GoodPoint c ps' := by
  obtain ⟨i, rest, hir, hia, hib, hi, hlen'⟩ := split2S_cons (a := a) (b := b) hn hlen
  obtain ⟨ps1, r1, l1, e1, s1, v1, o1, -⟩ := setTwo_spec (T := T) hT (h : Spin c ps r l) (ang := true) hab v h1
  obtain ⟨u, hu, hu0⟩ := h2 ps1 i rest e1 hir
  have pm := split2S_perm a b ls
  have mi : i ∈ ls := pm.mem_iff.mp (by rw [hir]; simp)
  have hh : (split2S a b ls).1.head? = some i := split2S_head hir hia hib
  have hfl : freeLabels ((split2S a b ls).1 ++ [a, b]) = [p] := by
    rw [← hp]; exact freeLabels_congr fun k => by rw [split2S_mem]; simp; tauto
  have hp' : p ∉ a :: b :: ls := (mem_freeLabels _ p).mp (by simp [hp])
  simp only [List.mem_cons, not_or] at hp'
  have hpi : p ≠ i := fun e => hp'.2.2 (e ▸ mi)
  have run : ∀ w, ∃ ps' l', pair2S c T ps true a b v ls w = .ok ps' ∧ Conserves ps' ∧ Spin c ps' r1 l' ∧
      (∀ k, k ≠ a → k ≠ p → k ≠ i → ps' k = ps1 k ∧ l' k = l1 k) ∧ twoVal true a b ps' = .ok v := by
    intro w
    obtain ⟨ps2, r2, l2, e2, s2, w2, o2, -, m2⟩ := setMandel_spec (T := T) hT s1 hi hlen' (mode := 2)
      (Or.inr rfl) w (v := u) (by rw [← hu]; simp) hu0
    have m2 := m2 rfl
    subst m2
    obtain ⟨ps3, r3, l3, e3, hc, s3, kk, o3⟩ := fixAfter_one (T := T) s2 hfl (a := a) (x := true) (fun e' => hp'.1 e'.symm) (by
      simp only [if_true]
      rw [(o1 a hab).2.1, (o1 p hp'.2.1).2.1]; exact hd) b
    simp only [if_true] at kk
    subst kk
    refine ⟨ps3, l3, ?_, hc, s3, fun k k1 k2 k3 => ?_, ?_⟩
    · unfold pair2S
      rw [if_pos (Or.inl ha)]
      simp only [pair2SRun, if_true, andThen, e1, hir, e2]
      exact e3
    · have e := (o3 k k1 k2).trans (o2 k k3).1
      refine ⟨e, ?_⟩
      have := (s3 k).l_d; rw [e] at this
      exact Option.some.inj (this.symm.trans (s1 k).l_d)
    · rw [twoVal_kind s1 s3 (by simp), v1]
  obtain ⟨q0, l0, -, c0, s0, o0, -⟩ := run 0
  refine ⟨computeS q0 ls, fun w => ?_⟩
  obtain ⟨q, l', e, hc, s, o, hv⟩ := run w
  refine ⟨q, e, hv, ?_, s.good hc⟩
  have lp : l' p = l0 p := conserve_unique_or s s0 hc c0 (a := a) (fun k k1 k2 => by
      by_cases k3 : k = i
      · subst k3; left; rw [(o1 k hib).2.1, (o1 a hab).2.1]; exact hi0 k hh
      · right; rw [(o k k1 k2 k3).2, (o0 k k1 k2 k3).2]) (by
    rw [(o1 a hab).2.1, (o1 p hp'.2.1).2.1]
    intro e0; exact hd (by unfold SpecAngle at e0 ⊢; linear_combination -e0))
  have hbi : b ≠ i := fun e => hb (e ▸ mi)
  rw [C16_complement q hc (perm_free hn), C16_complement q0 c0 (perm_free hn)]
  refine computeS_congr fun k hk => ?_
  have hk := (mem_freeLabels _ k).mp hk
  by_cases k1 : k = b
  · subst k1
    rw [(o k hab.symm (fun e => hp'.2.1 e.symm) hbi).1, (o0 k hab.symm (fun e => hp'.2.1 e.symm) hbi).1]
  · have : k ∈ freeLabels (a :: b :: ls) := (mem_freeLabels _ k).mpr (by
      simp only [List.mem_cons, not_or]; exact ⟨fun e => hk (e ▸ ha), k1, hk⟩)
    rw [hp, List.mem_singleton] at this
    subst this
    exact IsMassless.eq_of (s k) (by rw [lp]; exact s0 k)

/-- C88: a Mandelstam invariant of two labels is not set: the step does nothing and is refused unless the value is
within tolerance already. -/
theorem C88_two_labels_partial (c : Ctx K) (T : Tol K Γ) (i j : Fin n) (mode : ℕ) (w : K) (ps : Point K n) :
    setMandel c T [i, j] mode w ps = if T.abs (computeS ps [i, j] - w) ≤ T.tol then .ok ps else .error .exception := by
  simp [setMandel, setThen, setS]

/-- C88: disjoint labels below six points, or at six points with another number of labels, raise. -/
theorem C88_disjoint_refused (c : Ctx K) (T : Tol K Γ) (ps : Point K n) (x : Bool) (a b : Fin n) (v w : K) (ls : List (Fin n))
    (ha : a ∉ ls) (hb : b ∉ ls) (h : n < 6 ∨ (n = 6 ∧ ls.length ≠ 3)) : pair2S c T ps x a b v ls w = .error .exception := by
  unfold pair2S
  rw [if_neg (by tauto), if_neg (by rintro ⟨h6, h3⟩; rcases h with h | h
                                    · omega
                                    · exact h.2 h3), if_neg (by omega)]

/-! ### C89 -/

/-- C89: two Mandelstam invariants with two labels `p`, `q` in neither: when the second has a label that the first does
not have, both have the values asked for, momentum is conserved, and only one label of each, `p` and `q` change.
The strings set are `A` and `B` with the common labels last. Guards: the components by which the steps divide,
the second at the point the first step leaves, and `[p|q]`. -/
theorem C89_two_free [NeZero (2 : K)] (c : Ctx K) (T : Tol K Γ) (hT : T.abs 0 ≤ T.tol) (ps : Point K n)
    (r l : Fin n → V2 K) (h : ∀ k, IsMassless c (ps k) (r k) (l k)) (A B : List (Fin n)) (hA : A.Nodup) (hB : B.Nodup)
    (lA : 3 ≤ A.length) (lB : 3 ≤ B.length) (j : Fin n) (restB : List (Fin n))
    (hjB : B.filter (· ∉ A) = j :: restB) (p q : Fin n) (hpq : FirstTwoFree (A ++ B) p q) (v w : K) (i : Fin n)
    (restA : List (Fin n)) (hiA : A.filter (· ∉ B) ++ A.filter (· ∈ B) = i :: restA) (h1 : SecondOk ps i restA ']')
    (h2 : ∀ qs, setMandel c T (i :: restA) 1 v ps = .ok qs → SecondOk qs j (restB ++ A.filter (· ∈ B)) '⟩')
    (hd : SpecSquare (l p) (l q) ≠ 0) :
    ∃ ps', pairSS c T ps A v B w = some (.ok ps') ∧ computeS ps' A = v ∧ computeS ps' B = w ∧ GoodPoint c ps' ∧
      (∀ k, k ≠ i → k ≠ j → k ≠ p → k ≠ q → ps' k = ps k) := by
  obtain ⟨A', B', e, pA, pB⟩ := C70_set A B hA hB v w p q hpq
  have e' := stepSS_set hpq v w
  rw [e] at e'
  simp only [SSAction.set.injEq, true_and, and_true] at e'
  obtain ⟨eA, eB⟩ := e'
  rw [hiA] at eA
  rw [hjB, List.cons_append] at eB
  subst eA eB
  have nA := pA.symm.nodup hA
  have nB := pB.symm.nodup hB
  rw [List.nodup_cons] at nA nB
  have lenA := pA.length_eq
  have lenB := pB.length_eq
  simp only [List.length_cons] at lenA lenB
  have hj : j ∈ B.filter (· ∉ A) := by rw [hjB]; simp
  simp only [List.mem_filter, decide_eq_true_eq] at hj
  have mi : i ∈ A := pA.mem_iff.mp (by simp)
  obtain ⟨u, hu, hu0⟩ := h1
  obtain ⟨ps1, r1, l1, e1, s1, v1, o1, m1, -⟩ := setMandel_spec (T := T) hT (h : Spin c ps r l) nA.1 (by omega) (mode := 1)
    (Or.inl rfl) v (v := u) (by simpa using hu) hu0
  obtain ⟨u2, hu2, hu20⟩ := h2 ps1 e1
  obtain ⟨ps2, r2, l2, e2, s2, w2, o2, -, -⟩ := setMandel_spec (T := T) hT s1 nB.1 (by omega) (mode := 2)
    (Or.inr rfl) w (v := u2) (by simpa using hu2) hu20
  have nl : ∀ k ∈ A ++ B, k ≠ p ∧ k ≠ q := fun k hk => firstTwoFree_ne hpq hk
  have hip := nl i (by simp [mi])
  have hjp := nl j (by simp [hj.1])
  obtain ⟨ps3, r3, e3, hc, s3, o3⟩ := fixAxis1_spin s2 hpq.2.2.1.ne (by
    rw [(o2 p hjp.1.symm).2.2, (o2 q hjp.2.symm).2.2, (o1 p hip.1.symm).2.2, (o1 q hip.2.symm).2.2]; exact hd)
  refine ⟨ps3, ?_, ?_, ?_, s3.good hc, fun k k1 k2 k3 k4 => (o3 k k3 k4).1.trans ((o2 k k2).1.trans (o1 k k1).1)⟩
  · simp only [pairSS, e, andThen, e1, e2, e3]
  · rw [computeS_congr fun k hk => (o3 k (nl k (by simp [hk])).1 (nl k (by simp [hk])).2).1,
      computeS_congr fun k hk => (o2 k (fun e => hj.2 (e ▸ hk))).1, ← v1, computeS_perm _ pA]
  · rw [computeS_congr fun k hk => (o3 k (nl k (by simp [hk])).1 (nl k (by simp [hk])).2).1, ← w2, computeS_perm _ pB]

/-- C89 (finding): when all labels of the second invariant are labels of the first, the second step changes a
label of the first and spoils it. It is easily seen for `s` with labels `i`, `B` and `s` with labels `B`, `B`
beginning with `j`, where `⟨i|` and `⟨j|` have no first component, so `⟨i|j⟩ = 0`: the first invariant ends up with its value plus the change of the second. -/
theorem C89_contained_partial [NeZero (2 : K)] (c : Ctx K) (T : Tol K Γ) (hT : T.abs 0 ≤ T.tol) (ps : Point K n)
    (r l : Fin n → V2 K) (h : ∀ k, IsMassless c (ps k) (r k) (l k)) (i j : Fin n) (rest : List (Fin n))
    (hB : (i :: j :: rest).Nodup) (lB : 2 ≤ rest.length) (p q : Fin n) (hpq : FirstTwoFree (i :: j :: rest) p q) (v w : K)
    (h1 : SecondOk ps i (j :: rest) ']') (h2 : ∀ qs, setMandel c T (i :: j :: rest) 1 v ps = .ok qs → SecondOk qs j rest '⟩')
    (hd : SpecSquare (l p) (l q) ≠ 0) (h0 : r i 0 = 0) (h0' : r j 0 = 0) :
    ∃ ps', pairSS c T ps (i :: j :: rest) v (j :: rest) w = some (.ok ps') ∧
      computeS ps' (i :: j :: rest) = v + (w - computeS ps (j :: rest)) ∧ computeS ps' (j :: rest) = w ∧ GoodPoint c ps' := by
  have hpq' : FirstTwoFree ((i :: j :: rest) ++ (j :: rest)) p q := firstTwoFree_congr (by simp; tauto) hpq
  have e := stepSS_set hpq' v w
  have nA := List.nodup_cons.mp hB
  have nB := List.nodup_cons.mp nA.2
  have f1 : (i :: j :: rest).filter (· ∉ j :: rest) = [i] := by
    rw [List.filter_cons_of_pos (by simpa using nA.1), List.filter_eq_nil_iff.mpr]
    intro k hk; simp only [List.mem_cons] at hk ⊢; simp; tauto
  have f2 : (i :: j :: rest).filter (· ∈ j :: rest) = j :: rest := by
    rw [List.filter_cons_of_neg (by simpa using nA.1), List.filter_eq_self.mpr]
    intro k hk; simpa using hk
  have f3 : (j :: rest).filter (· ∉ i :: j :: rest) = [] := List.filter_eq_nil_iff.mpr (by
    intro k hk; simp only [List.mem_cons] at hk ⊢; simp; tauto)
  rw [f1, f2, f3] at e
  simp only [List.nil_append, List.singleton_append] at e
  obtain ⟨u, hu, hu0⟩ := h1
  obtain ⟨ps1, r1, l1, e1, s1, v1, o1, m1, -, g1, -⟩ := setMandel_comp (T := T) hT (h : Spin c ps r l) nA.1 (by simp; omega) (mode := 1)
    (Or.inl rfl) v (v := u) (by simpa using hu) hu0
  obtain ⟨u2, hu2, hu20⟩ := h2 ps1 e1
  obtain ⟨ps2, r2, l2, e2, s2, w2, o2, -, m2⟩ := setMandel_spec (T := T) hT s1 nB.1 lB (mode := 2)
    (Or.inr rfl) w (v := u2) (by simpa using hu2) hu20
  have m2 := m2 rfl
  subst m2
  have nl : ∀ k ∈ i :: j :: rest, k ≠ p ∧ k ≠ q := fun k hk => firstTwoFree_ne hpq hk
  have hip := nl i (by simp)
  have hjp := nl j (by simp)
  obtain ⟨ps3, r3, e3, hc, s3, o3⟩ := fixAxis1_spin s2 hpq.2.2.1.ne (by
    rw [(o2 p hjp.1.symm).2.2, (o2 q hjp.2.symm).2.2, (o1 p hip.1.symm).2.2, (o1 q hip.2.symm).2.2]; exact hd)
  have hij : i ≠ j := fun e => nA.1 (by simp [e])
  have big : computeS ps2 (i :: j :: rest) = v + (w - computeS ps (j :: rest)) := by
    have a1 := C15_sum_of_pairs c ps1 (i :: j :: rest) r2 l1 (fun k _ => s1 k)
    have a2 := C15_sum_of_pairs c ps2 (i :: j :: rest) r2 l2 (fun k _ => s2 k)
    have b1 := C15_sum_of_pairs c ps1 (j :: rest) r2 l1 (fun k _ => s1 k)
    have b2 := C15_sum_of_pairs c ps2 (j :: rest) r2 l2 (fun k _ => s2 k)
    have z : SpecAngle (r2 i) (r2 j) = 0 := by
      rw [SpecAngle, g1 rfl, (o1 j hij.symm).2.1, h0, h0']; ring
    rw [specPairs, ← b1, v1] at a1
    rw [specPairs, ← b2, w2] at a2
    have same : computeS ps1 (j :: rest) = computeS ps (j :: rest) :=
      computeS_congr fun k hk => (o1 k (fun e => nA.1 (e ▸ hk))).1
    have tail : rest.map (fun k => SpecAngle (r2 i) (r2 k) * SpecSquare (l2 k) (l2 i)) =
        rest.map (fun k => SpecAngle (r2 i) (r2 k) * SpecSquare (l1 k) (l1 i)) :=
      List.map_congr_left fun k hk => by rw [(o2 k (fun e => nB.1 (e ▸ hk))).2.2, (o2 i hij).2.2]
    simp only [List.map_cons, List.sum_cons, z, zero_mul, zero_add] at a1 a2
    rw [tail] at a2
    rw [a2, ← same]
    linear_combination -a1
  refine ⟨ps3, ?_, ?_, ?_, s3.good hc⟩
  · simp only [pairSS, e, andThen, e1, e2, e3]
  · rw [computeS_congr fun k hk => (o3 k (nl k hk).1 (nl k hk).2).1, big]
  · rw [computeS_congr fun k hk => (o3 k (nl k (List.mem_cons_of_mem _ hk)).1 (nl k (List.mem_cons_of_mem _ hk)).2).1, w2]

/-- C88: the same when no label is left beside the two-bracket and the invariant. -/
theorem C88_none_free_checked (c : Ctx K) (T : Tol K Γ) (ps ps' : Point K n) (x : Bool) (a b : Fin n) (v w : K) (ls : List (Fin n))
    (hf : freeLabels ((split2S a b ls).1 ++ [a, b]) = []) (h : pair2SRun c T ps x a b v ls w = .ok ps') :
    ∀ i j, T.abs (∑ k, (ps' k).r2 i j) ≤ T.tol := by
  obtain ⟨qs, -, h⟩ := andThen_eq_ok.mp h
  exact fixAfter_checked hf h

end Lips

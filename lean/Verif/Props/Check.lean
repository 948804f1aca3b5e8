import Verif.Model.Check
import Mathlib.Data.List.Perm.Basic
import Mathlib.Data.List.Perm.Subperm
import Mathlib.Tactic.Ring

/-!
Property C48: the consistency check.
-/

namespace Lips

variable {V I : Type*}

theorem bubblePass_perm (gt : V → V → Bool) (l : List (V × I)) : (bubblePass gt l).1.Perm l := by
  induction l using bubblePass.induct gt with
  | case1 => simp [bubblePass]
  | case2 x => simp [bubblePass]
  | case3 x y l h ih =>
    rw [bubblePass, if_pos h]
    exact (List.Perm.cons y ih).trans (List.Perm.swap x y l)
  | case4 x y l h ih =>
    rw [bubblePass, if_neg h]
    exact List.Perm.cons x ih

/-- Number of later entries that are smaller than `x`. -/
def below (gt : V → V → Bool) (x : V × I) (l : List (V × I)) : ℕ := l.countP fun y => gt x.1 y.1

/-- Number of pairs in the wrong order. -/
def inversions (gt : V → V → Bool) : List (V × I) → ℕ
  | [] => 0
  | x :: l => below gt x l + inversions gt l

theorem below_perm (gt : V → V → Bool) (x : V × I) {l m : List (V × I)} (h : l.Perm m) :
    below gt x l = below gt x m := h.countP_eq _

/-- A pass that exchanges something lowers the number of inversions; one that does not leaves the
list unchanged. Only asymmetry of the comparison is needed. -/
theorem bubblePass_inversions (gt : V → V → Bool) (ha : ∀ a b, gt a b = true → gt b a = false)
    (l : List (V × I)) :
    inversions gt (bubblePass gt l).1 ≤ inversions gt l ∧
    ((bubblePass gt l).2 = true → inversions gt (bubblePass gt l).1 < inversions gt l) ∧
    ((bubblePass gt l).2 = false → (bubblePass gt l).1 = l) := by
  induction l using bubblePass.induct gt with
  | case1 => simp [bubblePass]
  | case2 x => simp [bubblePass]
  | case3 x y l h ih =>
    rw [bubblePass, if_pos h]
    have hb := below_perm gt y (bubblePass_perm gt (x :: l))
    have h1 : below gt y (x :: l) = below gt y l := by simp [below, ha _ _ h]
    have h2 : below gt x (y :: l) = below gt x l + 1 := by simp [below, h]
    simp only [inversions, hb, h1, h2]
    have := ih.1
    simp only [inversions] at this
    refine ⟨by omega, fun _ => by omega, fun hf => ?_⟩
    cases hf
  | case4 x y l h ih =>
    rw [bubblePass, if_neg h]
    have hb := below_perm gt x (bubblePass_perm gt (y :: l))
    simp only [inversions, hb]
    have := ih.1
    have := ih.2.1
    simp only [inversions] at *
    refine ⟨by omega, fun hf => ?_, fun hf => by rw [ih.2.2 hf]⟩
    have := this hf
    omega

/-- A pass without exchange means that no entry is greater than its successor. -/
theorem bubblePass_sorted (gt : V → V → Bool) (l : List (V × I)) (h : (bubblePass gt l).2 = false) :
    l.IsChain fun x y => gt x.1 y.1 = false := by
  induction l using bubblePass.induct gt with
  | case1 => exact .nil
  | case2 x => exact .singleton x
  | case3 x y l hg ih => rw [bubblePass, if_pos hg] at h; cases h
  | case4 x y l hg ih =>
    rw [bubblePass, if_neg hg] at h
    exact .cons_cons (by simpa using hg) (ih h)

theorem bubbleSort_terminates (gt : V → V → Bool) (ha : ∀ a b, gt a b = true → gt b a = false) :
    ∀ (k : ℕ) (l : List (V × I)), inversions gt l < k → ∃ m, bubbleSort gt k l = some m ∧ m.Perm l ∧
      m.IsChain fun x y => gt x.1 y.1 = false := by
  intro k
  induction k with
  | zero => intro l h; omega
  | succ k ih =>
    intro l h
    rw [bubbleSort]
    obtain ⟨h1, h2, h3⟩ := bubblePass_inversions gt ha l
    cases hb : (bubblePass gt l).2 with
    | true =>
      obtain ⟨m, hm, hp, hs⟩ := ih (bubblePass gt l).1 (by have := h2 hb; omega)
      exact ⟨m, by simpa using hm, hp.trans (bubblePass_perm gt l), hs⟩
    | false =>
      refine ⟨_, by simp, bubblePass_perm gt l, ?_⟩
      rw [h3 hb]
      exact bubblePass_sorted gt l hb

/-- More fuel does not change the result. -/
theorem bubbleSort_mono (gt : V → V → Bool) : ∀ (k : ℕ) (l m : List (V × I)) (j : ℕ),
    bubbleSort gt k l = some m → bubbleSort gt (k + j) l = some m := by
  intro k
  induction k with
  | zero => intro l m j h; cases h
  | succ k ih =>
    intro l m j h
    have e : k + 1 + j = (k + j) + 1 := by omega
    rw [e, bubbleSort]
    rw [bubbleSort] at h
    split
    · rename_i hc; rw [if_pos hc] at h; exact ih _ _ j h
    · rename_i hc; rw [if_neg hc] at h; exact h

theorem bigLoop_eq (le : V → V → Bool) (t : V) (l : List (V × I)) :
    bigLoop le t l = (l.filter fun x => le t x.1).map Prod.snd := by
  induction l with
  | nil => rfl
  | cons x l ih =>
    rw [bigLoop, ih, List.filter_cons]
    split <;> simp

theorem smallLoop_eq (le gt : V → V → Bool) (htr : ∀ a b c, le a b → le b c → le a c)
    (hgt : ∀ a b, gt a b = !le a b) (t : V) (l : List (V × I)) (hs : l.Pairwise fun x y => le x.1 y.1) :
    smallLoop le gt t l = (l.filter fun x => le x.1 t).map Prod.snd := by
  induction l with
  | nil => rfl
  | cons x l ih =>
    rw [List.pairwise_cons] at hs
    rw [smallLoop, List.filter_cons, hgt]
    cases h : le x.1 t with
    | true => simp [ih hs.2]
    | false =>
      simp only [Bool.not_false, if_true, List.append_nil, Bool.false_eq_true, if_false]
      symm
      rw [List.map_eq_nil_iff, List.filter_eq_nil_iff]
      intro y hy hyt
      have := htr _ _ _ (hs.1 y hy) hyt
      rw [h] at this
      cases this

theorem valuesOf_ok (val : I → Except Err V) (bad : V → Bool) (silent : Bool) (v : I → V)
    (is : List I) (hv : ∀ i ∈ is, val i = .ok (v i)) (hb : ∀ i ∈ is, (bad (v i) && !silent) = false) :
    valuesOf val bad silent is = .ok (is.map fun i => (v i, i)) := by
  induction is with
  | nil => rfl
  | cons i is ih =>
    rw [valuesOf, hv i List.mem_cons_self]
    simp only [hb i List.mem_cons_self, Bool.false_eq_true, if_false]
    rw [ih (fun j hj => hv j (List.mem_cons_of_mem _ hj)) (fun j hj => hb j (List.mem_cons_of_mem _ hj))]
    rfl

/-- C48, termination: whatever the values (including not-a-number: only asymmetry of `>` is used),
some number of passes is enough for the check to return or raise. -/
theorem C48_terminates (le gt : V → V → Bool) (ha : ∀ a b, gt a b = true → gt b a = false)
    (thr invThr : V) (val : I → Except Err V) (bad : V → Bool) (silent mc os : Bool)
    (dflt caller : List I) :
    ∃ k, ∀ j, (consistencyCheck le gt thr invThr val bad silent mc os dflt (k + j) caller).isSome := by
  unfold consistencyCheck
  cases h : valuesOf val bad silent (if caller.isEmpty then dflt else caller) with
  | err e => exact ⟨0, fun j => by simp only [h, Option.isSome_some]⟩
  | stop => exact ⟨0, fun j => by simp only [h, Option.isSome_some]⟩
  | ok vs =>
    obtain ⟨m, hm, -, -⟩ := bubbleSort_terminates gt ha (inversions gt vs + 1) vs (by omega)
    refine ⟨inversions gt vs + 1, fun j => ?_⟩
    simp only [h, bubbleSort_mono gt _ _ _ j hm, Option.isSome_some]

/-- C48: for values ordered by a total preorder the check returns; `small_outliers` is, with
multiplicity, the list of the given invariants whose value is at most the threshold, sorted by
value; `big_outliers` that of those whose value is at least the inverse threshold, sorted by value;
the caller's list is unchanged. -/
theorem C48_outliers (le gt : V → V → Bool) (htr : ∀ a b c, le a b → le b c → le a c)
    (htot : ∀ a b, le a b || le b a) (hgt : ∀ a b, gt a b = !le a b)
    (thr invThr : V) (val : I → Except Err V) (v : I → V) (bad : V → Bool) (silent mc os : Bool)
    (dflt caller : List I) (hne : caller ≠ []) (hv : ∀ i ∈ caller, val i = .ok (v i))
    (hb : ∀ i ∈ caller, (bad (v i) && !silent) = false) :
    ∃ (k : ℕ) (r : CheckResult I),
      (∀ j, consistencyCheck le gt thr invThr val bad silent mc os dflt (k + j) caller = some (caller, .ok r)) ∧
      r.mom_cons = mc ∧ r.on_shell = os ∧
      r.small.Perm (caller.filter fun i => le (v i) thr) ∧
      r.big.Perm (caller.filter fun i => le invThr (v i)) ∧
      (r.small.Pairwise fun i j => le (v i) (v j)) ∧ (r.big.Pairwise fun i j => le (v i) (v j)) := by
  have ha : ∀ a b, gt a b = true → gt b a = false := by
    intro a b h
    rw [hgt] at h ⊢
    have := htot a b
    cases h1 : le a b <;> cases h2 : le b a <;> simp_all
  have hval := valuesOf_ok val bad silent v caller hv hb
  obtain ⟨m, hm, hp, hs⟩ := bubbleSort_terminates gt ha
    (inversions gt (caller.map fun i => (v i, i)) + 1) (caller.map fun i => (v i, i)) (by omega)
  have hsorted : m.Pairwise fun x y => le x.1 y.1 := by
    let R : V × I → V × I → Prop := fun x y => le x.1 y.1 = true
    have : Trans R R R := ⟨fun {a b c} (h1 : le a.1 b.1 = true) (h2 : le b.1 c.1 = true) =>
      htr a.1 b.1 c.1 h1 h2⟩
    change m.Pairwise R
    rw [← List.isChain_iff_pairwise]
    refine hs.imp fun x y h => ?_
    rw [hgt] at h
    simpa [R] using h
  have hmem : ∀ x ∈ m, x.1 = v x.2 := by
    intro x hx
    obtain ⟨i, -, rfl⟩ := List.mem_map.1 (hp.subset hx)
    rfl
  have hpw : ∀ q : V × I → Bool, ((m.filter q).map Prod.snd).Pairwise fun i j => le (v i) (v j) := by
    intro q
    rw [List.pairwise_map]
    have := hsorted.filter q
    refine this.imp_of_mem fun {x y} hx hy h => ?_
    rw [← hmem x (List.mem_of_mem_filter hx), ← hmem y (List.mem_of_mem_filter hy)]
    exact h
  have hperm : ∀ q : V → Bool, ((m.filter fun x => q x.1).map Prod.snd).Perm
      (caller.filter fun i => q (v i)) := by
    intro q
    have := (hp.filter fun x => q x.1).map Prod.snd
    rwa [List.filter_map, List.map_map, Function.comp_def, Function.comp_def, List.map_id''] at this
    intro x; rfl
  refine ⟨inversions gt (caller.map fun i => (v i, i)) + 1, ⟨mc, os, bigLoop le invThr m, smallLoop le gt thr m⟩, fun j => ?_, rfl, rfl, ?_, ?_, ?_, ?_⟩
  · have he : caller.isEmpty = false := by simpa using hne
    unfold consistencyCheck
    simp only [he, Bool.false_eq_true, if_false, hval]
    rw [bubbleSort_mono gt _ _ _ j hm]
  · rw [smallLoop_eq le gt htr hgt thr m hsorted]; exact hperm fun x => le x thr
  · rw [bigLoop_eq]; exact hperm fun x => le invThr x
  · rw [smallLoop_eq le gt htr hgt thr m hsorted]; exact hpw _
  · rw [bigLoop_eq]; exact hpw _

/-- C48: whatever happens (including an exception or the early return) the caller's list is
unchanged. -/
theorem C48_caller_unchanged (le gt : V → V → Bool) (thr invThr : V) (val : I → Except Err V)
    (bad : V → Bool) (silent mc os : Bool) (dflt caller : List I) (k : ℕ)
    (out : List I × Except Err (CheckResult I))
    (h : consistencyCheck le gt thr invThr val bad silent mc os dflt k caller = some out) :
    out.1 = caller := by
  unfold consistencyCheck at h
  dsimp only at h
  generalize valuesOf val bad silent (if caller.isEmpty then dflt else caller) = w at h
  split at h
  · cases h; rfl
  · cases h; rfl
  · split at h
    · cases h
    · cases h; rfl

/-- C48: the default invariants are the angle and the square brackets of all pairs `i < j`, each
once. -/
theorem C48_default_pairs (n : ℕ) : (pairsUpTo n).Nodup ∧
    ∀ i j, (i, j) ∈ pairsUpTo n ↔ 1 ≤ i ∧ i < j ∧ j ≤ n := by
  constructor
  · rw [pairsUpTo, List.nodup_flatMap]
    refine ⟨fun i _ => List.Nodup.map (fun a b h => by simpa using h) List.nodup_range', ?_⟩
    refine List.Pairwise.imp_of_mem ?_ (List.nodup_range' (s := 1) (n := n))
    intro a b _ _ hab x hx hy
    obtain ⟨_, _, rfl⟩ := List.mem_map.1 hx
    obtain ⟨_, _, h⟩ := List.mem_map.1 hy
    simp only [Prod.mk.injEq] at h
    exact hab h.1.symm
  · intro i j
    simp only [pairsUpTo, List.mem_flatMap, List.mem_map, List.mem_range'_1, Prod.mk.injEq]
    constructor
    · rintro ⟨a, ha, b, hb, rfl, rfl⟩; omega
    · intro h; exact ⟨i, by omega, j, by omega, rfl, rfl⟩

/-! A list of invariants with values in wrong order, two of them equal, one small and two big. -/
example : consistencyCheck (V := ℕ) (fun a b => decide (a ≤ b)) (fun a b => decide (a > b)) 2 7
    (fun i : ℕ => .ok i) (fun _ => false) true true true [] 10 [9, 3, 1, 3, 8] =
    some ([9, 3, 1, 3, 8], .ok ⟨true, true, [8, 9], [1]⟩) := by
  simp [consistencyCheck, valuesOf, bubbleSort, bubblePass, bigLoop, smallLoop]

end Lips

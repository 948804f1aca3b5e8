import Verif.Model.Indexing
import Mathlib.Data.List.Chain
import Mathlib.Data.List.Perm.Basic
import Mathlib.Tactic.Linarith
import Mathlib.Tactic.Ring

/-!
Properties C43, C44: cutting the cycle of labels into three arcs.
-/

namespace Lips

/-- The cyclic successor of a label of `1, ..., n`. -/
def CyclicNext (n : ℕ) (x y : ℤ) : Prop := y = if x = n then 1 else x + 1

theorem nextLabel_in {n : ℕ} {x : ℤ} (h1 : 1 ≤ x) (h2 : x ≤ n) :
    nextLabel n x = if x = n then 1 else x + 1 := by
  unfold nextLabel
  by_cases hx : x = n
  · subst hx
    rw [if_pos rfl]
    by_cases hn : (n : ℤ) = 1
    · rw [hn]; norm_num
    · have : ((n : ℤ) + 1) % n = 1 := by
        rw [Int.add_emod, Int.emod_self, zero_add, Int.emod_emod, Int.emod_eq_of_lt] <;> omega
      rw [this, if_neg (by norm_num)]
  · rw [if_neg hx]
    by_cases h : x + 1 = n
    · rw [h, Int.emod_self, if_pos rfl]
    · rw [Int.emod_eq_of_lt (by omega) (by omega), if_neg (by omega)]

theorem nextLabel_range {n : ℕ} (hn : 1 ≤ n) (x : ℤ) : 1 ≤ nextLabel n x ∧ nextLabel n x ≤ n := by
  unfold nextLabel
  have h1 := Int.emod_nonneg (x + 1) (show (n : ℤ) ≠ 0 by omega)
  have h2 := Int.emod_lt_of_pos (x + 1) (show (0 : ℤ) < n by omega)
  split <;> omega

/-- The label `o` steps after label `a + 1` on the cycle. -/
def lab (n a o : ℕ) : ℤ := ((if a + o < n then a + o else a + o - n : ℕ) : ℤ) + 1

theorem nextLabel_lab {n a o : ℕ} (ha : a < n) (ho : o < n) :
    nextLabel n (lab n a o) = lab n a (o + 1) := by
  rw [nextLabel_in (by unfold lab; omega) (by unfold lab; split <;> omega)]
  unfold lab
  split <;> split <;> split <;> omega

theorem lab_wrap {n a : ℕ} (ha : a < n) : lab n a n = lab n a 0 := by
  unfold lab
  split <;> split <;> omega

theorem lab_inj {n a o o' : ℕ} (_ha : a < n) (ho : o < n) (ho' : o' < n) (h : lab n a o = lab n a o') :
    o = o' := by
  unfold lab at h
  split at h <;> split at h <;> omega

theorem growArc_run {n a : ℕ} (ha : a < n) (others : List ℤ) :
    ∀ (k p fuel : ℕ) (acc : List ℤ), p + k < n → k < fuel →
      (∀ o, p < o → o ≤ p + k → lab n a o ∉ others) → lab n a (p + k + 1) ∈ others →
      growArc n others fuel (lab n a p) acc = some (acc ++ (List.range' p (k + 1)).map (lab n a)) := by
  intro k
  induction k with
  | zero =>
    intro p fuel acc hp hf _ h2
    obtain ⟨f, rfl⟩ : ∃ f, fuel = f + 1 := ⟨fuel - 1, by omega⟩
    rw [growArc, nextLabel_lab ha (by omega), if_pos (by simpa using h2)]
    simp
  | succ k ih =>
    intro p fuel acc hp hf h1 h2
    obtain ⟨f, rfl⟩ : ∃ f, fuel = f + 1 := ⟨fuel - 1, by omega⟩
    rw [growArc, nextLabel_lab ha (by omega), if_neg (h1 (p + 1) (by omega) (by omega)),
      ih (p + 1) f _ (by omega) (by omega) (fun o ho1 ho2 => h1 o (by omega) (by omega))
        (by have : p + 1 + k + 1 = p + (k + 1) + 1 := by omega
            rw [this]; exact h2)]
    simp [List.range'_succ]

theorem growArc_from {n a : ℕ} (ha : a < n) (others : List ℤ) (p q fuel : ℕ) (hpq : p < q) (hq : q ≤ n)
    (hf : n ≤ fuel) (h1 : ∀ o, p < o → o < q → lab n a o ∉ others) (h2 : lab n a q ∈ others) :
    growArc n others fuel (lab n a p) [] = some ((List.range' p (q - p)).map (lab n a)) := by
  have := growArc_run ha others (q - p - 1) p fuel [] (by omega) (by omega)
    (fun o ho ho' => h1 o ho (by omega))
    (by have : p + (q - p - 1) + 1 = q := by omega
        rw [this]; exact h2)
  rw [this, List.nil_append]
  congr 3
  omega

theorem lab_chain {n a : ℕ} (ha : a < n) (p k : ℕ) (h : p + k ≤ n) :
    ((List.range' p k).map (lab n a)).IsChain (CyclicNext n) := by
  rw [List.isChain_map]
  have : (List.range' p k).IsChain (fun x y => y = x + 1) := List.isChain_range' _ _ 1
  refine List.IsChain.imp_of_mem_imp ?_ this
  intro x y hx hy hxy
  rw [List.mem_range'_1] at hx hy
  subst hxy
  unfold CyclicNext
  rw [← nextLabel_lab ha (by omega), nextLabel_in (by unfold lab; omega) (by unfold lab; split <;> omega)]

theorem lab_mem {n a p k o : ℕ} (ha : a < n) (ho : o < n) (h : p + k ≤ n) :
    lab n a o ∈ (List.range' p k).map (lab n a) ↔ p ≤ o ∧ o < p + k := by
  simp only [List.mem_map, List.mem_range'_1]
  constructor
  · rintro ⟨x, hx, hxo⟩
    obtain rfl := lab_inj ha (by omega) ho hxo
    exact hx
  · intro hx; exact ⟨o, hx, rfl⟩

theorem lab_perm {n a : ℕ} (ha : a < n) :
    ((List.range' 0 n).map (lab n a)).Perm ((List.range' 1 n).map Int.ofNat) := by
  refine List.perm_of_nodup_nodup_toFinset_eq ?_ ?_ ?_
  · refine List.Nodup.map_on ?_ List.nodup_range'
    intro x hx y hy h
    rw [List.mem_range'_1] at hx hy
    exact lab_inj ha (by omega) (by omega) h
  · exact (List.nodup_map_iff (fun x y h => by simpa using h)).2 List.nodup_range'
  · ext x
    simp only [List.mem_toFinset, List.mem_map, List.mem_range'_1, Int.ofNat_eq_natCast]
    constructor
    · rintro ⟨o, ho, rfl⟩
      refine ⟨(lab n a o).toNat, ?_, ?_⟩ <;> unfold lab <;> split <;> omega
    · rintro ⟨y, hy, rfl⟩
      refine ⟨if a + 1 ≤ y then y - a - 1 else y + n - a - 1, ?_, ?_⟩
      · split <;> omega
      · unfold lab; split <;> split <;> omega

/-- C43: for pairwise distinct seeds in `1, ..., n` the construction ends within `n` iterations of
each loop, whatever larger bound is allowed, and returns three lists that start with the seeds, run
through cyclically consecutive labels, and together contain every label of `1, ..., n` exactly
once (hence are disjoint). -/
theorem C43_three_arcs (n : ℕ) (a b c : ℤ) (ha : 1 ≤ a ∧ a ≤ n) (hb : 1 ≤ b ∧ b ≤ n)
    (hc : 1 ≤ c ∧ c ≤ n) (hab : a ≠ b) (hbc : b ≠ c) (hac : a ≠ c) :
    ∃ A B C : List ℤ, (∀ fuel, n ≤ fuel → arcs n fuel a b c = some (A, B, C)) ∧
      A.head? = some a ∧ B.head? = some b ∧ C.head? = some c ∧
      A.IsChain (CyclicNext n) ∧ B.IsChain (CyclicNext n) ∧ C.IsChain (CyclicNext n) ∧
      (A ++ B ++ C).Perm ((List.range' 1 n).map Int.ofNat) := by
  obtain ⟨a', rfl⟩ : ∃ a' : ℕ, a = (a' : ℤ) + 1 := ⟨(a - 1).toNat, by omega⟩
  have ha' : a' < n := by omega
  have off : ∀ x : ℤ, 1 ≤ x ∧ x ≤ n → ∃ o : ℕ, o < n ∧ x = lab n a' o := by
    intro x hx
    refine ⟨(if (a' : ℤ) + 1 ≤ x then x - a' - 1 else x + n - a' - 1).toNat, ?_, ?_⟩
    · split <;> omega
    · unfold lab; split <;> split <;> omega
  have ea : (a' : ℤ) + 1 = lab n a' 0 := by unfold lab; split <;> omega
  obtain ⟨pb, hpb, rfl⟩ := off b hb
  obtain ⟨pc, hpc, rfl⟩ := off c hc
  rw [ea] at hab hac ⊢
  have hb0 : pb ≠ 0 := by rintro rfl; exact hab rfl
  have hc0 : pc ≠ 0 := by rintro rfl; exact hac rfl
  have hbc' : pb ≠ pc := by rintro rfl; exact hbc rfl
  have hd : ∀ p k, 0 < k → ((List.range' p k).map (lab n a')).head? = some (lab n a' p) := by
    intro p k hk
    obtain ⟨k, rfl⟩ : ∃ k', k = k' + 1 := ⟨k - 1, by omega⟩
    simp [List.range'_succ]
  have single : ∀ o p, o < n → p < n → (lab n a' o = lab n a' p ↔ o = p) :=
    fun o p ho hp => ⟨lab_inj ha' ho hp, fun h => by rw [h]⟩
  rcases Nat.lt_or_gt_of_ne hbc' with h | h
  · refine ⟨_, _, _, fun fuel hf => ?_, hd 0 (pb - 0) (by omega), hd pb (pc - pb) (by omega),
      hd pc (n - pc) (by omega), lab_chain ha' _ _ (by omega), lab_chain ha' _ _ (by omega),
      lab_chain ha' _ _ (by omega), ?_⟩
    · unfold arcs
      rw [growArc_from ha' _ 0 pb fuel (by omega) (by omega) hf ?_ (by simp)]
      · simp only
        rw [growArc_from ha' _ pb pc fuel (by omega) (by omega) hf ?_ (by simp)]
        · simp only
          rw [growArc_from ha' _ pc n fuel (by omega) (by omega) hf]
          · intro o h1 h2
            rw [List.mem_append, lab_mem ha' h2 (by omega), lab_mem ha' h2 (by omega)]
            omega
          · rw [lab_wrap ha', List.mem_append, lab_mem ha' (by omega) (by omega)]
            left; omega
        · intro o h1 h2
          rw [List.mem_append, lab_mem ha' (by omega) (by omega), List.mem_singleton,
            single _ _ (by omega) (by omega)]
          omega
      · intro o h1 h2
        rw [List.mem_append, List.mem_singleton, List.mem_singleton, single _ _ (by omega) (by omega),
          single _ _ (by omega) (by omega)]
        omega
    · rw [← List.map_append, ← List.map_append]
      refine List.Perm.trans (List.Perm.of_eq ?_) (lab_perm ha')
      congr 1
      have e1 : List.range' 0 (pb - 0) ++ List.range' pb (pc - pb) = List.range' 0 pc := by
        have := List.range'_append_1 (s := 0) (m := pb) (n := pc - pb)
        rw [Nat.zero_add] at this
        rw [Nat.sub_zero, this]; congr 1; omega
      have e2 : List.range' 0 pc ++ List.range' pc (n - pc) = List.range' 0 n := by
        have := List.range'_append_1 (s := 0) (m := pc) (n := n - pc)
        rw [Nat.zero_add] at this
        rw [this]; congr 1; omega
      rw [e1, e2]
  · refine ⟨_, _, _, fun fuel hf => ?_, hd 0 (pc - 0) (by omega), hd pb (n - pb) (by omega),
      hd pc (pb - pc) (by omega), lab_chain ha' _ _ (by omega), lab_chain ha' _ _ (by omega),
      lab_chain ha' _ _ (by omega), ?_⟩
    · unfold arcs
      rw [growArc_from ha' _ 0 pc fuel (by omega) (by omega) hf ?_ (by simp)]
      · simp only
        rw [growArc_from ha' _ pb n fuel (by omega) (by omega) hf ?_ ?_]
        · simp only
          rw [growArc_from ha' _ pc pb fuel (by omega) (by omega) hf]
          · intro o h1 h2
            rw [List.mem_append, lab_mem ha' (by omega) (by omega), lab_mem ha' (by omega) (by omega)]
            omega
          · rw [List.mem_append, lab_mem ha' hpb (by omega), lab_mem ha' hpb (by omega)]
            right; omega
        · intro o h1 h2
          rw [List.mem_append, lab_mem ha' (by omega) (by omega), List.mem_singleton,
            single _ _ (by omega) (by omega)]
          omega
        · rw [lab_wrap ha', List.mem_append, lab_mem ha' (by omega) (by omega)]
          right; omega
      · intro o h1 h2
        rw [List.mem_append, List.mem_singleton, List.mem_singleton, single _ _ (by omega) (by omega),
          single _ _ (by omega) (by omega)]
        omega
    · rw [← List.map_append, ← List.map_append]
      refine List.Perm.trans ?_ (lab_perm ha')
      apply List.Perm.map
      have e1 : List.range' 0 (pc - 0) ++ List.range' pc (pb - pc) = List.range' 0 pb := by
        have := List.range'_append_1 (s := 0) (m := pc) (n := pb - pc)
        rw [Nat.zero_add] at this
        rw [Nat.sub_zero, this]; congr 1; omega
      have e2 : List.range' 0 pb ++ List.range' pb (n - pb) = List.range' 0 n := by
        have := List.range'_append_1 (s := 0) (m := pb) (n := n - pb)
        rw [Nat.zero_add] at this
        rw [this]; congr 1; omega
      rw [← e2, ← e1, List.append_assoc, List.append_assoc]
      exact List.Perm.append_left _ List.perm_append_comm

/-! ### C44 -/

theorem growArc_mono {n : ℕ} {others : List ℤ} : ∀ (k : ℕ) (x : ℤ) (acc r : List ℤ),
    growArc n others k x acc = some r → ∀ m, growArc n others (k + m) x acc = some r := by
  intro k
  induction k with
  | zero => intro x acc r h; cases h
  | succ k ih =>
    intro x acc r h m
    rw [growArc] at h
    rw [Nat.add_right_comm, growArc]
    split
    · rename_i h'; rw [if_pos h'] at h; exact h
    · rename_i h'; rw [if_neg h'] at h; exact ih _ _ _ h m

theorem growArc_diverges {n : ℕ} (hn : 1 ≤ n) {others : List ℤ}
    (h : ∀ y ∈ others, ¬ (1 ≤ y ∧ y ≤ n)) : ∀ (k : ℕ) (x : ℤ) (acc : List ℤ),
    growArc n others k x acc = none := by
  intro k
  induction k with
  | zero => intros; rfl
  | succ k ih =>
    intro x acc
    rw [growArc, if_neg (fun h' => h _ h' (nextLabel_range hn x))]
    exact ih _ _

theorem growArc_ends {n : ℕ} (hn : 1 ≤ n) {others : List ℤ} {y : ℤ} (hy : y ∈ others)
    (hyr : 1 ≤ y ∧ y ≤ n) (x : ℤ) (acc : List ℤ) : ∃ k r, growArc n others k x acc = some r := by
  have key : ∀ (m : ℕ) (x : ℤ) (acc : List ℤ), 1 ≤ x ∧ x ≤ n →
      (if x < y then y - x else y + n - x).toNat ≤ m →
      ∃ k r, growArc n others k x acc = some r := by
    intro m
    induction m with
    | zero => intro x acc hx hm; split at hm <;> omega
    | succ m ih =>
      intro x acc hx hm
      by_cases h : nextLabel n x ∈ others
      · exact ⟨1, _, by rw [growArc, if_pos h]⟩
      · have hne : nextLabel n x ≠ y := by rintro rfl; exact h hy
        have hr := nextLabel_range hn x
        obtain ⟨k, r, hk⟩ := ih (nextLabel n x) (acc ++ [x]) hr (by
          have := nextLabel_in hx.1 hx.2
          rw [this] at hne ⊢
          split at hm <;> split <;> split at hne <;> split <;> omega)
        exact ⟨k + 1, r, by rw [growArc, if_neg h]; exact hk⟩
  by_cases h : nextLabel n x ∈ others
  · exact ⟨1, _, by rw [growArc, if_pos h]⟩
  · obtain ⟨k, r, hk⟩ := key _ (nextLabel n x) (acc ++ [x]) (nextLabel_range hn x) le_rfl
    exact ⟨k + 1, r, by rw [growArc, if_neg h]; exact hk⟩

/-- What a list grown from `x` contains besides `acc`: `x`, and a label in range exactly if `x` is
one or the loop did not end at once. -/
theorem growArc_contains {n : ℕ} {others : List ℤ} : ∀ (k : ℕ) (x : ℤ) (acc r : List ℤ),
    growArc n others k x acc = some r → (∀ y ∈ acc, y ∈ r) ∧ x ∈ r ∧
      (nextLabel n x ∉ others → nextLabel n x ∈ r) ∧ (nextLabel n x ∈ others → r = acc ++ [x]) := by
  intro k
  induction k with
  | zero => intro x acc r h; cases h
  | succ k ih =>
    intro x acc r h
    rw [growArc] at h
    by_cases h' : nextLabel n x ∈ others
    · rw [if_pos h'] at h
      obtain rfl := Option.some.inj h
      refine ⟨fun y hy => by simp [hy], by simp, fun h'' => absurd h' h'', fun _ => rfl⟩
    · rw [if_neg h'] at h
      obtain ⟨h1, h2, -, -⟩ := ih _ _ _ h
      exact ⟨fun y hy => h1 y (by simp [hy]), h1 x (by simp), fun _ => h2, fun h'' => absurd h'' h'⟩

/-- `x` is a label. -/
def InRange (n : ℕ) (x : ℤ) : Prop := 1 ≤ x ∧ x ≤ n

/-- C44 (finding): the construction does not end when the second and third seed are not labels,
however long it runs. -/
theorem C44_diverges (n : ℕ) (hn : 1 ≤ n) (a b c : ℤ) (hb : ¬ InRange n b) (hc : ¬ InRange n c) :
    ∀ fuel, arcs n fuel a b c = none := by
  intro fuel
  unfold arcs
  rw [growArc_diverges hn]
  intro y hy
  simp only [List.cons_append, List.nil_append, List.mem_cons, List.not_mem_nil, or_false] at hy
  rcases hy with rfl | rfl
  · exact hb
  · exact hc

/-- C44, the exact answer: the construction ends on a triple of integers exactly if the third seed
is a label and the first two are not both non-labels preceding it, or it is not one, the second is,
and the first is not a non-label preceding that. The full claim (termination on every triple) is
false. -/
theorem C44_terminates_iff (n : ℕ) (hn : 1 ≤ n) (a b c : ℤ) :
    (∃ fuel, arcs n fuel a b c ≠ none) ↔
      (InRange n c ∧ ¬ (¬ InRange n a ∧ ¬ InRange n b ∧ nextLabel n a = c ∧ nextLabel n b = c)) ∨
      (¬ InRange n c ∧ InRange n b ∧ ¬ (¬ InRange n a ∧ nextLabel n a = b)) := by
  have hmem : ∀ y (x z : ℤ), y ∈ [x] ++ [z] ↔ y = x ∨ y = z := by simp
  constructor
  · rintro ⟨fuel, h⟩
    unfold arcs at h
    cases hA : growArc n ([b] ++ [c]) fuel a [] with
    | none => rw [hA] at h; exact absurd rfl h
    | some A =>
      cases hB : growArc n ([c] ++ A) fuel b [] with
      | none => simp only [hA, hB] at h; exact absurd rfl h
      | some B =>
        cases hC : growArc n (A ++ B) fuel c [] with
        | none => simp only [hA, hB, hC] at h; exact absurd rfl h
        | some C =>
          obtain ⟨-, a1, a2, a3⟩ := growArc_contains _ _ _ _ hA
          obtain ⟨-, b1, b2, b3⟩ := growArc_contains _ _ _ _ hB
          by_cases hc : InRange n c
          · left
            refine ⟨hc, ?_⟩
            rintro ⟨ha, hb, h1, h2⟩
            have eA : A = [a] := by simpa using a3 (by rw [hmem]; right; exact h1)
            have eB : B = [b] := by simpa using b3 (by rw [List.mem_append]; left; simp [h2])
            rw [growArc_diverges hn] at hC
            · cases hC
            · intro y hy
              rw [eA, eB, hmem] at hy
              rcases hy with rfl | rfl
              · exact ha
              · exact hb
          · right
            refine ⟨hc, ?_, ?_⟩
            · by_contra hb
              rw [growArc_diverges hn] at hA
              · cases hA
              · intro y hy
                rw [hmem] at hy
                rcases hy with rfl | rfl
                · exact hb
                · exact hc
            · rintro ⟨ha, h1⟩
              have eA : A = [a] := by simpa using a3 (by rw [hmem]; left; exact h1)
              rw [growArc_diverges hn] at hB
              · cases hB
              · intro y hy
                rw [eA, hmem] at hy
                rcases hy with rfl | rfl
                · exact hc
                · exact ha
  · intro h
    have hA : ∃ k A, growArc n ([b] ++ [c]) k a [] = some A := by
      rcases h with ⟨hc, -⟩ | ⟨-, hb, -⟩
      · exact growArc_ends hn (by simp) hc a []
      · exact growArc_ends hn (by simp) hb a []
    obtain ⟨k, A, hA⟩ := hA
    obtain ⟨-, a1, a2, a3⟩ := growArc_contains _ _ _ _ hA
    have hB : ∃ k B, growArc n ([c] ++ A) k b [] = some B := by
      rcases h with ⟨hc, -⟩ | ⟨hc, hb, h⟩
      · exact growArc_ends hn (by simp) hc b []
      · by_cases ha : InRange n a
        · exact growArc_ends hn (y := a) (by simp [a1]) ha b []
        · have h1 : nextLabel n a ≠ b := fun h' => h ⟨ha, h'⟩
          have h2 : nextLabel n a ≠ c := by rintro rfl; exact hc (nextLabel_range hn a)
          have := a2 (by rw [hmem]; rintro (h | h); exacts [h1 h, h2 h])
          exact growArc_ends hn (y := nextLabel n a) (by simp [this]) (nextLabel_range hn a) b []
    obtain ⟨k', B, hB⟩ := hB
    obtain ⟨-, b1, b2, b3⟩ := growArc_contains _ _ _ _ hB
    have hC : ∃ k C, growArc n (A ++ B) k c [] = some C := by
      rcases h with ⟨hc, h⟩ | ⟨hc, hb, h⟩
      · by_cases ha : InRange n a
        · exact growArc_ends hn (y := a) (by simp [a1]) ha c []
        by_cases hb : InRange n b
        · exact growArc_ends hn (y := b) (by simp [b1]) hb c []
        by_cases hna : nextLabel n a ∈ [b] ++ [c]
        · have hnac : nextLabel n a = c := by
            rw [hmem] at hna
            rcases hna with h' | h'
            · exact absurd (h' ▸ nextLabel_range hn a) hb
            · exact h'
          have hnbc : nextLabel n b ≠ c := fun h' => h ⟨ha, hb, hnac, h'⟩
          have eA : A = [a] := by simpa using a3 hna
          have : nextLabel n b ∈ B := by
            apply b2
            rw [eA, hmem]
            rintro (h' | h')
            · exact hnbc h'
            · exact ha (h' ▸ nextLabel_range hn b)
          exact growArc_ends hn (y := nextLabel n b) (by simp [this]) (nextLabel_range hn b) c []
        · exact growArc_ends hn (y := nextLabel n a) (by simp [a2 hna]) (nextLabel_range hn a) c []
      · exact growArc_ends hn (y := b) (by simp [b1]) hb c []
    obtain ⟨k'', C, hC⟩ := hC
    refine ⟨k + k' + k'', ?_⟩
    unfold arcs
    have e1 := growArc_mono _ _ _ _ hA (k' + k'')
    have e2 := growArc_mono _ _ _ _ hB (k + k'')
    have e3 := growArc_mono _ _ _ _ hC (k + k')
    rw [show k + k' + k'' = k + (k' + k'') by omega, e1]
    simp only
    rw [show k + (k' + k'') = k' + (k + k'') by omega, e2]
    simp only
    rw [show k' + (k + k'') = k'' + (k + k') by omega, e3]
    simp

/-- C44, the part that holds: it ends whenever at least two of the seeds are labels. Missing: the triples with fewer labels,
on some of which it does not end (`C44_diverges`, `C44_terminates_iff`). -/
theorem C44_terminates_partial (n : ℕ) (hn : 1 ≤ n) (a b c : ℤ)
    (h : (InRange n a ∧ InRange n b) ∨ (InRange n b ∧ InRange n c) ∨ (InRange n a ∧ InRange n c)) :
    ∃ fuel, arcs n fuel a b c ≠ none := by
  rw [C44_terminates_iff n hn]
  by_cases hc : InRange n c
  · left
    refine ⟨hc, ?_⟩
    rintro ⟨h1, h2, -⟩
    tauto
  · right
    refine ⟨hc, by tauto, ?_⟩
    rintro ⟨h1, -⟩
    tauto

end Lips

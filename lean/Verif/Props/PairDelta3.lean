import Verif.Props.PairDelta
import Verif.Props.SetPairSteps

/-!
Property C96: setting a three-bracket and a three-mass Gram determinant as a pair.
-/

namespace Lips

set_option linter.unusedSectionVars false

variable {K Γ : Type*} [Field K] [LinearOrder Γ] {n : ℕ}

/-! ### The order in which strings and corners are taken -/

theorem toEnd_perm {α : Type*} [BEq α] [LawfulBEq α] {L : List α} {A : α} (h : A ∈ L) : (L.erase A ++ [A]).Perm L :=
  (List.perm_append_comm).trans (List.perm_cons_erase h).symm

theorem orderEnds_spec {t t' : T3 n} {L L' : List (List (Fin n))} (h : orderEnds t L = .ok (L', t')) :
    L'.Perm L ∧ (t' = t ∨ t' = t.rev) := by
  unfold orderEnds at h
  split at h
  · split at h
    · cases h; exact ⟨.refl _, .inl rfl⟩
    · rename_i A hA
      have hm := List.mem_of_find?_eq_some hA
      split at h
      · cases h
      · split at h <;> cases h
        · exact ⟨toEnd_perm hm, .inl rfl⟩
        · exact ⟨(List.perm_cons_erase hm).symm, .inl rfl⟩
  · split at h
    · cases h; exact ⟨.refl _, .inl rfl⟩
    · rename_i A hA
      cases h
      refine ⟨(List.perm_cons_erase (List.mem_of_find?_eq_some hA)).symm, ?_⟩
      split <;> simp

/-- The corners are those given; the string is the one given or the same read backwards; the last corner has no label
of the string, the last one aside. -/
theorem reorder3D_spec {t t' : T3 n} {L : List (List (Fin n))} {A B C : List (Fin n)}
    (h : reorder3D t L = .ok (some (t', [A, B, C]))) :
    [A, B, C].Perm L ∧ (t' = t ∨ t' = t.rev) ∧ t'.s ∉ C ∧ ∀ k ∈ t'.m, k ∉ C := by
  unfold reorder3D at h
  rcases e : orderEnds t L with _ | ⟨L', t''⟩ <;> rw [e] at h
  · cases h
  obtain ⟨p1, p2⟩ := orderEnds_spec e
  simp only at h
  split at h
  · rename_i X hX
    simp only [Except.ok.injEq, Option.some.injEq, Prod.mk.injEq] at h
    obtain ⟨rfl, h⟩ := h
    have hm := List.mem_of_find?_eq_some hX
    have hp := List.find?_some hX
    have hC : X = C := by
      have := congrArg List.getLast? h
      simpa using this
    subst hC
    rw [← h]
    simp only [List.all_eq_true, decide_eq_true_eq, List.mem_cons, forall_eq_or_imp] at hp
    exact ⟨(toEnd_perm hm).trans p1, p2, hp⟩
  · cases h

theorem three_perm {L : Corners n} {A B C : List (Fin n)} (h : [A, B, C].Perm [L 0, L 1, L 2]) :
    ∃ σ : Equiv.Perm (Fin 3), ![A, B, C] = L ∘ σ := by
  have h1 : [A, B, C] ∈ ([0, 1, 2].map L).permutations' := List.mem_permutations'.mpr h
  rw [← List.map_permutations', List.mem_map] at h1
  obtain ⟨ρ, hρ, e⟩ := h1
  have h2 : ∀ ρ ∈ [(0 : Fin 3), 1, 2].permutations', ∃ σ : Equiv.Perm (Fin 3), ρ = [σ 0, σ 1, σ 2] := by decide +kernel
  obtain ⟨σ, rfl⟩ := h2 ρ hρ
  simp only [List.map_cons, List.map_nil, List.cons.injEq, and_true] at e
  refine ⟨σ, ?_⟩
  funext i
  fin_cases i
  · exact e.1.symm
  · exact e.2.1.symm
  · exact e.2.2.symm

theorem Partition.of_perm {L : Corners n} (h : Partition L) {A B C : List (Fin n)} (hp : [A, B, C].Perm [L 0, L 1, L 2]) :
    Partition ![A, B, C] := by
  have := hp.flatten
  simp only [List.flatten_cons, List.flatten_nil, List.append_nil] at this
  unfold Partition at h ⊢
  simp only [Matrix.cons_val_zero, Matrix.cons_val_one, Matrix.cons_val_two, Matrix.tail_cons, Matrix.head_cons]
  rw [List.append_assoc]
  refine this.trans ?_
  rw [← List.append_assoc]; exact h

/-! ### The steps -/

/-- The mode in which Δ is set, lines 772-780. -/
def mode3D (t : T3 n) (A : List (Fin n)) : ℕ :=
  if t.ang then (if A.headD t.s ∈ t.m ++ [t.e] then 3 else 2) else 1

/-- The label whose spinor is changed to set Δ does not disturb the string: nothing in the code makes sure of it. -/
def Undisturbed (t : T3 n) (A : List (Fin n)) (k : Fin n) : Prop :=
  if t.ang then mode3D t A = 3 → k ≠ t.s ∧ k ∉ t.m else k ≠ t.e ∧ k ∉ t.m

/-- Setting the string and then Δ. -/
theorem run3D_spec [NeZero (2 : K)] {c : Ctx K} {T : Tol K Γ} (hT : T.abs 0 ≤ T.tol) {ps : Point K n}
    {r l : Fin n → V2 K} (h : Spin c ps r l) {t : T3 n} {A B C C₀ : List (Fin n)} {p q k : Fin n}
    (hP : Partition ![A, B, C]) (hC : C = p :: q :: C₀) (hk : A[(mode3D t A - 1) / 2]? = some k)
    (hs : t.s ∉ t.m) (hf : t.s ∉ C ∧ ∀ k ∈ t.m, k ∉ C) (hu : Undisturbed t A k) (v w : K)
    (h1 : t.slope r l ≠ 0)
    (h2 : ∀ qs r' l', setThree c T t 1 v ps = .ok qs → Spin c qs r' l' → DeltaGuard c qs r' l' A B C k (mode3D t A))
    (hd : if t.ang then SpecSquare (l p) (l q) ≠ 0 else SpecAngle (r p) (r q) ≠ 0) :
    (∃ D, c.sqrt D = none ∧ run3D c T ps t v A B C w = .error .valueError) ∨
    ∃ ps' r' l', run3D c T ps t v A B C w = .ok ps' ∧ Spin c ps' r' l' ∧ Conserves ps' ∧ t.str.value ps' = .ok v ∧
      computeDelta ps' 1 ![A, B, C] = w ∧ ∀ j, j ≠ t.s → j ≠ k → j ≠ p → j ≠ q → ps' j = ps j := by
  have nd := hP.nodup
  have nd1 := List.nodup_append.mp nd
  have nd2 := List.nodup_append.mp nd1.1
  have hkA : k ∈ A := (eraseIdx_perm hk).mem_iff.mpr (List.mem_cons_self)
  have hkB : k ∉ B := fun hb => nd2.2.2 k hkA k hb rfl
  have pC : p ∈ C ∧ q ∈ C := by rw [hC]; simp
  have away : ∀ j, j ∈ A ∨ j ∈ B → j ≠ p ∧ j ≠ q := fun j hj =>
    ⟨nd1.2.2 j (List.mem_append.mpr hj) p pC.1, nd1.2.2 j (List.mem_append.mpr hj) q pC.2⟩
  have hpq : p ≠ q := by
    have : C.Nodup := nd1.2.1
    rw [hC] at this
    exact fun e => (List.nodup_cons.mp this).1 (by simp [e])
  have hsp : p ≠ t.s ∧ q ≠ t.s := ⟨fun e => hf.1 (e ▸ pC.1), fun e => hf.1 (e ▸ pC.2)⟩
  have hmp : ∀ j ∈ t.m, j ≠ p ∧ j ≠ q := fun j hj => ⟨fun e => hf.2 j hj (e ▸ pC.1), fun e => hf.2 j hj (e ▸ pC.2)⟩
  obtain ⟨hkp, hkq⟩ := away k (.inl hkA)
  obtain ⟨ps1, r1, l1, e1, s1, v1, o1, k1, -⟩ := setThree_head hT h hs v (headGuard_of_slope h h1)
  have run := setDelta_plain hT s1 hk nd2.1 hkB w (h2 ps1 r1 l1 e1 s1)
  obtain ⟨a0, A', hA⟩ : ∃ a0 A', A = a0 :: A' := by
    cases A with
    | nil => simp at hkA
    | cons a A => exact ⟨a, A, rfl⟩
  have hmode : mode3D t A = if t.ang then (if a0 ∈ t.m ++ [t.e] then 3 else 2) else 1 := by rw [hA]; rfl
  have fold : run3D c T ps t v A B C w = andThen (setDelta c T ![A, B, C] (mode3D t A) false w ps1)
      fun ps2 => if t.ang then fixAxis1 c ps2 p q else fixAxis2 c ps2 p q := by
    unfold run3D
    rw [e1, hmode]
    subst hA hC
    rfl
  rcases run with ⟨D, d1, d2⟩ | ⟨ps2, r2, l2, e2, s2, hv2, o2, m2⟩
  · exact .inl ⟨D, d1, by rw [fold, d2]; rfl⟩
  right
  rw [fold, e2]
  simp only [andThen]
  have delta : ∀ {ps3 : Point K n} {r3 l3 : Fin n → V2 K}, Spin c ps3 r3 l3 → (∀ j, j ≠ p → j ≠ q → ps3 j = ps2 j) →
      computeDelta ps3 1 ![A, B, C] = w := by
    intro ps3 r3 l3 s3 o3
    rw [← hv2]
    exact delta_congr (fun k => (s2 k).cons) (fun k => (s3 k).cons) fun j hj => o3 j (away j hj).1 (away j hj).2
  have spins : ∀ j, j ≠ k → r2 j = r1 j ∧ l2 j = l1 j := fun j hj => (o2 j hj).2
  have hval : t.str.value ps2 = .ok v := by
    rw [← v1]
    unfold Undisturbed at hu
    rcases ha : t.ang with _ | _
    · rw [ha] at hu
      simp only [Bool.false_eq_true, if_false] at hu
      rw [hmode, ha] at m2
      have hl : l2 = l1 := by simpa using m2
      refine T3.value_congr s1 s2 (fun j hj => spins j fun e => hu.2 (e ▸ hj)) (by simp [ha, hl]) ?_
      simp only [ha, Bool.false_eq_true, if_false]
      exact (spins t.e hu.1.symm).1
    · rw [ha] at hu
      simp only [if_true] at hu
      by_cases hin : a0 ∈ t.m ++ [t.e]
      · have hm3 : mode3D t A = 3 := by rw [hmode, ha]; simp only [if_true, if_pos hin]
        have hu' := hu hm3
        rw [hm3] at m2
        have hl : l2 = l1 := by simpa using m2
        refine T3.value_congr s1 s2 (fun j hj => spins j fun e => hu'.2 (e ▸ hj)) ?_ (by simp [ha, hl])
        simp only [ha, if_true]
        exact (spins t.s hu'.1.symm).1
      · have hm2 : mode3D t A = 2 := by rw [hmode, ha]; simp only [if_true, if_neg hin]
        rw [hm2] at hk m2
        have hr : r2 = r1 := by simpa using m2
        have hk0 : k = a0 := by rw [hA] at hk; simpa using hk.symm
        have hkm : k ∉ t.m ∧ k ≠ t.e := by
          rw [hk0]
          simp only [List.mem_append, List.mem_singleton, not_or] at hin
          exact hin
        refine T3.value_congr s1 s2 (fun j hj => spins j fun e => hkm.1 (e ▸ hj)) (by simp [ha, hr]) ?_
        simp only [ha, if_true]
        exact (spins t.e hkm.2.symm).2
  have rest : ∀ {ps3 : Point K n}, (∀ j, j ≠ p → j ≠ q → ps3 j = ps2 j) →
      ∀ j, j ≠ t.s → j ≠ k → j ≠ p → j ≠ q → ps3 j = ps j := fun o3 j a b d e => by
    rw [o3 j d e, (o2 j b).1, (o1 j a).1]
  rcases ha : t.ang with _ | _
  · rw [ha] at hd k1
    simp only [Bool.false_eq_true, if_false] at hd k1 ⊢
    obtain ⟨ps3, l3, e3, hc, s3, o3⟩ := fixAxis2_spin s2 hpq (by
      rw [(spins p hkp.symm).1, (spins q hkq.symm).1, k1]; exact hd)
    refine ⟨ps3, r2, l3, e3, s3, hc, ?_, delta s3 fun j a b => (o3 j a b).1, rest fun j a b => (o3 j a b).1⟩
    rw [← hval]
    refine T3.value_congr s2 s3 (fun j hj => ⟨rfl, (o3 j (hmp j hj).1 (hmp j hj).2).2⟩) ?_ (by simp [ha])
    simp only [ha, Bool.false_eq_true, if_false]
    exact (o3 t.s hsp.1.symm hsp.2.symm).2
  · rw [ha] at hd k1
    simp only [if_true] at hd k1 ⊢
    obtain ⟨ps3, r3, e3, hc, s3, o3⟩ := fixAxis1_spin s2 hpq (by
      rw [(spins p hkp.symm).2, (spins q hkq.symm).2, k1]; exact hd)
    refine ⟨ps3, r3, l2, e3, s3, hc, ?_, delta s3 fun j a b => (o3 j a b).1, rest fun j a b => (o3 j a b).1⟩
    rw [← hval]
    refine T3.value_congr s2 s3 (fun j hj => ⟨(o3 j (hmp j hj).1 (hmp j hj).2).2, rfl⟩) ?_ (by simp [ha])
    simp only [ha, if_true]
    exact (o3 t.s hsp.1.symm hsp.2.symm).2

/-- Setting a three-bracket and Δ as a pair, when the corners can be ordered for the string as it is given. `t'` is
the string as it is set, given or read backwards; `k` the label whose spinor is changed for Δ, of which the code
does not make sure that the string is left alone (`Undisturbed`). -/
theorem C96_three_delta_partial [NeZero (2 : K)] (c : Ctx K) (T : Tol K Γ) (hT : T.abs 0 ≤ T.tol) (ps : Point K n)
    (r l : Fin n → V2 K) (h : Spin c ps r l) (t t' : T3 n) (L : Corners n) (hL : Partition L) (A B C₀ : List (Fin n))
    (p q k : Fin n) (ho : reorder3D t [L 0, L 1, L 2] = .ok (some (t', [A, B, p :: q :: C₀])))
    (hk : A[(mode3D t' A - 1) / 2]? = some k) (hs : t'.s ∉ t'.m) (hu : Undisturbed t' A k) (v w : K)
    (h1 : t'.slope r l ≠ 0)
    (h2 : ∀ qs r' l', setThree c T t' 1 v ps = .ok qs → Spin c qs r' l' →
      DeltaGuard c qs r' l' A B (p :: q :: C₀) k (mode3D t' A))
    (hd : if t'.ang then SpecSquare (l p) (l q) ≠ 0 else SpecAngle (r p) (r q) ≠ 0) :
    (∃ D, c.sqrt D = none ∧ pair3D c T ps t v L w = some (.error .valueError)) ∨
    ∃ ps', pair3D c T ps t v L w = some (.ok ps') ∧ GoodPoint c ps' ∧ t.str.value ps' = .ok v ∧
      computeDelta ps' 1 L = w ∧ ∀ j, j ≠ t'.s → j ≠ k → j ≠ p → j ≠ q → ps' j = ps j := by
  obtain ⟨hp, ht, hf⟩ := reorder3D_spec ho
  have run := run3D_spec hT h (hL.of_perm hp) rfl hk hs hf hu v w h1 h2 hd
  have e0 : pair3D c T ps t v L w = some (run3D c T ps t' v A B (p :: q :: C₀) w) := by
    unfold pair3D order3D; rw [ho]
  rw [e0]
  rcases run with ⟨D, d1, d2⟩ | ⟨ps', r', l', e, s', hc, hv, hw, o⟩
  · exact .inl ⟨D, d1, by rw [d2]⟩
  refine .inr ⟨ps', by rw [e], s'.good hc, ?_, ?_, o⟩
  · rcases ht with rfl | rfl
    · exact hv
    · rw [← hv, T3.value_rev s']
  · obtain ⟨σ, hσ⟩ := three_perm hp
    rw [← hw, hσ, C25_permutation c ps' (fun k => (s' k).cons) 1 L (hL.sum hc) σ]

/-- A string with different ends, one of which is the first label of a corner: it is turned so that it starts with that label, and
the corner stays first. -/
theorem reorder3D_ends {t t' : T3 n} (hse : t.s ≠ t.e) {L : List (List (Fin n))} {A B C : List (Fin n)}
    (hA : ∃ X ∈ L, X.head? = some t.s ∨ X.head? = some t.e) (h : reorder3D t L = .ok (some (t', [A, B, C]))) :
    A.head? = some t'.s := by
  unfold reorder3D orderEnds at h
  rw [if_neg hse] at h
  rcases hf : L.find? (fun A => decide (A.head? = some t.s ∨ A.head? = some t.e)) with _ | X
  · obtain ⟨X, hX, hx⟩ := hA
    have := List.find?_eq_none.mp hf X hX
    simp only [decide_eq_true_eq] at this
    exact absurd hx this
  rw [hf] at h
  simp only at h
  have hX := List.find?_some hf
  simp only [decide_eq_true_eq] at hX
  have hs : X.head? = some (if X.head? = some t.s then t else t.rev).s := by
    split
    · assumption
    · rename_i h1; exact hX.resolve_left h1
  generalize hu : (if X.head? = some t.s then t else t.rev) = u at h hs
  split at h
  · rename_i Y hY
    simp only [Except.ok.injEq, Option.some.injEq, Prod.mk.injEq] at h
    obtain ⟨rfl, h⟩ := h
    have hp := List.find?_some hY
    have hne : Y ≠ X := by
      rintro rfl
      simp only [List.all_cons, Bool.and_eq_true, decide_eq_true_eq] at hp
      exact hp.1 (List.mem_of_mem_head? hs)
    rw [List.erase_cons_tail (by simpa using hne.symm)] at h
    simp only [List.cons_append, List.cons.injEq] at h
    rw [← h.1]; exact hs
  · cases h

/-- C96: with different ends, one of which is the first label of a corner, both are set without further conditions on the labels: the
particle changed for Δ is the start of the string. -/
theorem C96_ends [NeZero (2 : K)] (c : Ctx K) (T : Tol K Γ) (hT : T.abs 0 ≤ T.tol) (ps : Point K n)
    (r l : Fin n → V2 K) (h : Spin c ps r l) (t t' : T3 n) (hse : t.s ≠ t.e) (hm : t.s ∉ t.m ∧ t.e ∉ t.m) (L : Corners n) (hL : Partition L)
    (hA : ∃ i, (L i).head? = some t.s ∨ (L i).head? = some t.e) (A B C₀ : List (Fin n))
    (p q : Fin n) (ho : reorder3D t [L 0, L 1, L 2] = .ok (some (t', [A, B, p :: q :: C₀]))) (v w : K)
    (h1 : t'.slope r l ≠ 0)
    (h2 : ∀ qs r' l', setThree c T t' 1 v ps = .ok qs → Spin c qs r' l' →
      DeltaGuard c qs r' l' A B (p :: q :: C₀) t'.s (if t'.ang then 2 else 1))
    (hd : if t'.ang then SpecSquare (l p) (l q) ≠ 0 else SpecAngle (r p) (r q) ≠ 0) :
    (∃ D, c.sqrt D = none ∧ pair3D c T ps t v L w = some (.error .valueError)) ∨
    ∃ ps', pair3D c T ps t v L w = some (.ok ps') ∧ GoodPoint c ps' ∧ t.str.value ps' = .ok v ∧
      computeDelta ps' 1 L = w ∧ ∀ j, j ≠ t'.s → j ≠ p → j ≠ q → ps' j = ps j := by
  have ht : t'.s ≠ t'.e ∧ t'.s ∉ t'.m := by
    obtain ⟨-, rfl | rfl, -⟩ := reorder3D_spec ho
    · exact ⟨hse, hm.1⟩
    · exact ⟨hse.symm, hm.2⟩
  have hhead : A.head? = some t'.s := by
    refine reorder3D_ends hse ?_ ho
    obtain ⟨i, hi⟩ := hA
    refine ⟨L i, ?_, hi⟩
    fin_cases i <;> simp
  obtain ⟨A₀, rfl⟩ : ∃ A₀, A = t'.s :: A₀ := by
    rcases A with _ | ⟨a, A₀⟩
    · cases hhead
    · exact ⟨A₀, by rw [List.head?_cons, Option.some.injEq] at hhead; rw [hhead]⟩
  have hmode : mode3D t' (t'.s :: A₀) = if t'.ang then 2 else 1 := by
    unfold mode3D
    have : t'.s ∉ t'.m ++ [t'.e] := by simp [ht.1, ht.2]
    rw [List.headD_cons, if_neg this]
  have hk : (t'.s :: A₀)[(mode3D t' (t'.s :: A₀) - 1) / 2]? = some t'.s := by
    rw [hmode]; split <;> rfl
  have hu : Undisturbed t' (t'.s :: A₀) t'.s := by
    unfold Undisturbed
    rw [hmode]
    split
    · intro h; simp at h
    · exact ht
  have key := C96_three_delta_partial c T hT ps r l h t t' L hL (t'.s :: A₀) B C₀ p q t'.s ho hk ht.2 hu v w h1
    (by rw [hmode]; exact h2) hd
  rcases key with key | ⟨ps', k1, k2, k3, k4, k5⟩
  · exact .inl key
  · exact .inr ⟨ps', k1, k2, k3, k4, fun j j1 j2 j3 => k5 j j1 j1 j2 j3⟩

/-- Setting a three-bracket and Δ as a pair (finding): when the corners can only be ordered after momentum conservation
is used on the string, the string set is the negative of the string given, and ends with minus the value. -/
theorem C96_negated_partial [NeZero (2 : K)] (c : Ctx K) (T : Tol K Γ) (hT : T.abs 0 ≤ T.tol) (ps : Point K n)
    (r l : Fin n → V2 K) (h : Spin c ps r l) (t t' : T3 n) (hm : t.m.Nodup) (L : Corners n) (hL : Partition L)
    (A B C₀ : List (Fin n)) (p q k : Fin n) (hn : reorder3D t [L 0, L 1, L 2] = .ok none)
    (ho : reorder3D t.flip [L 0, L 1, L 2] = .ok (some (t', [A, B, p :: q :: C₀])))
    (hk : A[(mode3D t' A - 1) / 2]? = some k) (hs : t'.s ∉ t'.m) (hu : Undisturbed t' A k) (v w : K)
    (h1 : t'.slope r l ≠ 0)
    (h2 : ∀ qs r' l', setThree c T t' 1 v ps = .ok qs → Spin c qs r' l' →
      DeltaGuard c qs r' l' A B (p :: q :: C₀) k (mode3D t' A))
    (hd : if t'.ang then SpecSquare (l p) (l q) ≠ 0 else SpecAngle (r p) (r q) ≠ 0) :
    (∃ D, c.sqrt D = none ∧ pair3D c T ps t v L w = some (.error .valueError)) ∨
    ∃ ps', pair3D c T ps t v L w = some (.ok ps') ∧ GoodPoint c ps' ∧ t.str.value ps' = .ok (-v) ∧
      computeDelta ps' 1 L = w ∧ ∀ j, j ≠ t'.s → j ≠ k → j ≠ p → j ≠ q → ps' j = ps j := by
  obtain ⟨hp, ht, hf⟩ := reorder3D_spec ho
  have run := run3D_spec hT h (hL.of_perm hp) rfl hk hs hf hu v w h1 h2 hd
  have hne : t.flip.m ≠ [] := by
    intro e
    have em : t'.m = [] := by rcases ht with rfl | rfl <;> simpa [T3.rev] using e
    exact h1 (by simp [T3.slope, em])
  have e0 : pair3D c T ps t v L w = some (run3D c T ps t' v A B (p :: q :: C₀) w) := by
    unfold pair3D order3D; simp only [hn, if_neg hne, ho]
  rw [e0]
  rcases run with ⟨D, d1, d2⟩ | ⟨ps', r', l', e, s', hc, hv, hw, o⟩
  · exact .inl ⟨D, d1, by rw [d2]⟩
  refine .inr ⟨ps', by rw [e], s'.good hc, ?_, ?_, o⟩
  · have hv' : t.flip.str.value ps' = .ok v := by
      rcases ht with rfl | rfl
      · exact hv
      · rw [← hv, T3.value_rev s']
    have hz := t.value_eq s'
    have := T3.flip_value s' hc t hm hz
    rw [hv'] at this
    injection this with this
    rw [hz, this, neg_neg]
  · obtain ⟨σ, hσ⟩ := three_perm hp
    rw [← hw, hσ, C25_permutation c ps' (fun k => (s' k).cons) 1 L (hL.sum hc) σ]

end Lips

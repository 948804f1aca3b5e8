import Verif.Props.PairMandel
import Verif.Props.PairAll

/-! Property C89 with fewer than two labels in neither invariant: `_set_pair_inner` is called again with the complement of the longer one. -/

namespace Lips

set_option linter.unusedSectionVars false

variable {K Γ : Type*} [Field K] [LinearOrder Γ] {n : ℕ}

/-- The value of an invariant and of its complement. -/
theorem computeS_free {ps : Point K n} (hc : Conserves ps) {B : List (Fin n)} (hB : B.Nodup) : computeS ps (freeLabels B) = computeS ps B :=
  (C16_complement ps hc (perm_free hB)).symm

theorem mandel_not_blank {A : List (Fin n)} (h : A ≠ []) : (Inv.mandel A).blank = false := by
  cases A with
  | nil => exact absurd rfl h
  | cons a as => rfl

theorem pairInner_flip (E : PairEnv K Γ) (ps : Point K n) (k : ℕ) (s₁ s₂ : String) {A B C D : List (Fin n)} (v w : K) (hA : A ≠ []) (hB : B ≠ [])
    (hC : C ≠ []) (hD : D ≠ []) (h : stepSS A v B w = .again C v D w) {ps' : Point K n} (e : pairSS E.c E.T ps C v D w = some (.ok ps')) :
    pairInner E ps (k + 2) s₁ s₂ (.mandel A, v) (.mandel B, w) = some (.ok (.set ps')) := by
  have e2 : pairInner E ps (k + 1) s₁ s₂ (.mandel C, v) (.mandel D, w) = some (.ok (.set ps')) := by
    unfold pairInner
    simp only [mandel_not_blank hC, mandel_not_blank hD, Bool.or_false, Bool.false_eq_true, if_false]
    rcases hs : stepSS C v D w with ⟨A', v', B', w', p, q⟩ | ⟨C', v', D', w'⟩
    · simp only [e, Except.map]
    · unfold pairSS at e
      rw [hs] at e
      cases e
  unfold pairInner
  simp only [mandel_not_blank hA, mandel_not_blank hB, Bool.or_false, Bool.false_eq_true, if_false, h]
  exact e2

/-- **C89**, with at most one label in neither invariant. `A` is not the longer one, two labels `p`, `q` are only in `B`, and there is a label `j` in
neither: then `B` is replaced by its complement, and `_set_pair` returns a point with the values asked for. Guards as in `C89_two_free`. -/
theorem C89_one_free [NeZero (2 : K)] (E : PairEnv K Γ) (hT : E.T.abs 0 ≤ E.T.tol) (rest : Point K n → Except Err K) (k : ℕ) (s₁ s₂ : String)
    (ps : Point K n) (r l : Fin n → V2 K) (h : ∀ k, IsMassless E.c (ps k) (r k) (l k)) (A B : List (Fin n)) (hA : A.Nodup) (hB : B.Nodup)
    (hAB : A.length ≤ B.length) (hf : (freeLabels (A ++ B)).length < 2) (lA : 3 ≤ A.length) (lB : B.length + 3 ≤ n) (j : Fin n)
    (restB : List (Fin n)) (hj : (freeLabels B).filter (· ∉ A) = j :: restB) (p q : Fin n) (hpq : FirstTwoFree (A ++ freeLabels B) p q) (v w : K)
    (i : Fin n) (restA : List (Fin n)) (hi : A.filter (· ∉ freeLabels B) ++ A.filter (· ∈ freeLabels B) = i :: restA) (h1 : SecondOk ps i restA ']')
    (h2 : ∀ qs, setMandel E.c E.T (i :: restA) 1 v ps = .ok qs → SecondOk qs j (restB ++ A.filter (· ∈ freeLabels B)) '⟩')
    (hd : SpecSquare (l p) (l q) ≠ 0) :
    ∃ ps', setPair E rest (k + 2) s₁ s₂ (.mandel A, v) (.mandel B, w) ps = some (.ok ps') ∧ computeS ps' A = v ∧ computeS ps' B = w ∧
      GoodPoint E.c ps' ∧ (∀ k, k ≠ i → k ≠ j → k ≠ p → k ≠ q → ps' k = ps k) := by
  have hlen : B.length + (freeLabels B).length = n := by simpa using (perm_free hB).length_eq
  obtain ⟨ps', e, eA, eB, g, o⟩ := C89_two_free E.c E.T hT ps r l h A (freeLabels B) hA (nodup_free B) lA (by omega) j restB hj p q hpq v w i restA hi
    h1 h2 hd
  rw [computeS_free g.1 hB] at eB
  have hs := stepSS_again hf v w
  rw [if_neg (by omega)] at hs
  have hne : ∀ L : List (Fin n), 3 ≤ L.length → L ≠ [] := by rintro L hl rfl; simp at hl
  refine ⟨ps', C101_returns E hT (by have := j.2; omega) rest _ s₁ s₂ _ _ ps ps'
    (pairInner_flip E ps k s₁ s₂ v w (hne A lA) (hne B (by omega)) (hne A lA) (hne _ (by omega)) hs e) g v w ?_ ?_ (.inl rfl) (.inl rfl), eA, eB, g, o⟩
  · simp only [Inv.number, eA]
  · simp only [Inv.number, eB]

/-- **C89** (finding), with at most one label in neither invariant and `A` the longer one: the two change places but their values do not, so that
`B` gets the value asked for `A` and `A` the one asked for `B`. -/
theorem C89_exchanged_partial [NeZero (2 : K)] (E : PairEnv K Γ) (hT : E.T.abs 0 ≤ E.T.tol) (k : ℕ) (s₁ s₂ : String)
    (ps : Point K n) (r l : Fin n → V2 K) (h : ∀ k, IsMassless E.c (ps k) (r k) (l k)) (A B : List (Fin n)) (hA : A.Nodup) (hB : B.Nodup)
    (hAB : B.length < A.length) (hf : (freeLabels (A ++ B)).length < 2) (lB : 3 ≤ B.length) (lA : A.length + 3 ≤ n) (j : Fin n)
    (restB : List (Fin n)) (hj : (freeLabels A).filter (· ∉ B) = j :: restB) (p q : Fin n) (hpq : FirstTwoFree (B ++ freeLabels A) p q) (v w : K)
    (i : Fin n) (restA : List (Fin n)) (hi : B.filter (· ∉ freeLabels A) ++ B.filter (· ∈ freeLabels A) = i :: restA) (h1 : SecondOk ps i restA ']')
    (h2 : ∀ qs, setMandel E.c E.T (i :: restA) 1 v ps = .ok qs → SecondOk qs j (restB ++ B.filter (· ∈ freeLabels A)) '⟩')
    (hd : SpecSquare (l p) (l q) ≠ 0) :
    ∃ ps', pairInner E ps (k + 2) s₁ s₂ (.mandel A, v) (.mandel B, w) = some (.ok (.set ps')) ∧ computeS ps' A = w ∧ computeS ps' B = v ∧
      GoodPoint E.c ps' := by
  have hlen : A.length + (freeLabels A).length = n := by simpa using (perm_free hA).length_eq
  obtain ⟨ps', e, eB, eA, g, -⟩ := C89_two_free E.c E.T hT ps r l h B (freeLabels A) hB (nodup_free A) lB (by omega) j restB hj p q hpq v w i restA hi
    h1 h2 hd
  rw [computeS_free g.1 hA] at eA
  have hs := stepSS_again hf v w
  rw [if_pos hAB] at hs
  have hne : ∀ L : List (Fin n), 3 ≤ L.length → L ≠ [] := by rintro L hl rfl; simp at hl
  exact ⟨ps', pairInner_flip E ps k s₁ s₂ v w (hne A (by omega)) (hne B (by omega)) (hne B (by omega)) (hne _ (by omega)) hs e, eA, eB, g⟩

/-- **C89** (finding), with no label in neither invariant: the complement of `B` is contained in `A`, and the second step spoils the first value. Shown
as in `C89_contained_partial` for `A` with the labels `i` and those outside `B`, of which the first is `j`, where `⟨i|` and `⟨j|` have no first component. -/
theorem C89_no_free_partial [NeZero (2 : K)] (E : PairEnv K Γ) (hT : E.T.abs 0 ≤ E.T.tol) (k : ℕ) (s₁ s₂ : String)
    (ps : Point K n) (r l : Fin n → V2 K) (h : ∀ k, IsMassless E.c (ps k) (r k) (l k)) (i j : Fin n) (rest B : List (Fin n)) (hB : B.Nodup)
    (hr : freeLabels B = j :: rest) (hi : i ∈ B) (hAB : rest.length + 2 ≤ B.length) (lB : 2 ≤ rest.length) (p q : Fin n)
    (hpq : FirstTwoFree (i :: j :: rest) p q) (v w : K) (h1 : SecondOk ps i (j :: rest) ']')
    (h2 : ∀ qs, setMandel E.c E.T (i :: j :: rest) 1 v ps = .ok qs → SecondOk qs j rest '⟩') (hd : SpecSquare (l p) (l q) ≠ 0) (h0 : r i 0 = 0)
    (h0' : r j 0 = 0) :
    ∃ ps', pairInner E ps (k + 2) s₁ s₂ (.mandel (i :: j :: rest), v) (.mandel B, w) = some (.ok (.set ps')) ∧
      computeS ps' (i :: j :: rest) = v + (w - computeS ps (j :: rest)) ∧ computeS ps' B = w ∧ GoodPoint E.c ps' := by
  have hn : (i :: j :: rest).Nodup := by
    rw [← hr]
    exact List.nodup_cons.mpr ⟨fun hm => ((mem_freeLabels _ _).mp hm) hi, nodup_free B⟩
  obtain ⟨ps', e, eA, eB, g⟩ := C89_contained_partial E.c E.T hT ps r l h i j rest hn lB p q hpq v w h1 h2 hd h0 h0'
  have hf : (freeLabels ((i :: j :: rest) ++ B)).length < 2 := by
    have : freeLabels ((i :: j :: rest) ++ B) = [] := by
      rw [← hr]
      refine List.eq_nil_iff_forall_not_mem.mpr fun x hx => ?_
      have := (mem_freeLabels _ _).mp hx
      simp only [List.mem_append, List.mem_cons, not_or] at this
      exact this.1.2 ((mem_freeLabels _ _).mpr this.2)
    rw [this]; simp
  have hs := stepSS_again hf v w
  rw [if_neg (by simp; omega), hr] at hs
  have hBn : B ≠ [] := by rintro rfl; simp at hi
  rw [← hr, computeS_free g.1 hB] at eB
  exact ⟨ps', pairInner_flip E ps k s₁ s₂ v w (by simp) hBn (by simp) (by simp) hs e, eA, eB, g⟩

end Lips

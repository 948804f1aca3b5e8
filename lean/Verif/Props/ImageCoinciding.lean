import Verif.Props.Image
import Mathlib.Data.List.Forall2

/-!
C33: for which permutations `image` is right although momenta coincide.
-/

namespace Lips

variable {α : Type*} {n : ℕ}

section
variable (eq : α → α → Bool) (ps : Fin n → α)

/-- The first particle equal to particle `i`. -/
theorem pyIndex_first (hr : ∀ x, eq x x = true) (i : Fin n) :
    ∃ f : Fin n, pyIndex eq (List.ofFn ps) (ps i) = f ∧ eq (ps f) (ps i) = true := by
  have h1 : pyIndex eq (List.ofFn ps) (ps i) < (List.ofFn ps).length := by
    unfold pyIndex
    rw [List.findIdx_lt_length]
    exact ⟨ps i, by simp, hr _⟩
  have h2 : pyIndex eq (List.ofFn ps) (ps i) < n := by simpa using h1
  refine ⟨⟨_, h2⟩, rfl, ?_⟩
  have := List.findIdx_getElem (w := h1)
  have h3 : (List.ofFn ps)[pyIndex eq (List.ofFn ps) (ps i)]'h1 = ps ⟨pyIndex eq (List.ofFn ps) (ps i), h2⟩ := by simp
  rw [← h3]
  exact this

theorem pyIndex_congr (hs : ∀ x y, eq x y = true → eq y x = true) (ht : ∀ x y z, eq x y = true → eq y z = true → eq x z = true) {x y : α}
    (h : eq x y = true) (l : List α) : pyIndex eq l x = pyIndex eq l y := by
  unfold pyIndex
  congr 1
  funext z
  rw [Bool.eq_iff_iff]
  exact ⟨fun hz => ht _ _ _ hz h, fun hz => ht _ _ _ hz (hs _ _ h)⟩

/-- The key of a particle. -/
def keyOf (p : List Char) (l : List α) (x : α) : Char := (p[pyIndex eq l x]?).getD '0'

theorem imageKeys_some (p : List Char) (l : List α) : ∀ L : List α, (∀ x ∈ L, pyIndex eq l x < p.length) →
    imageKeys eq l p L = some (L.map fun x => (keyOf eq p l x, x))
  | [], _ => rfl
  | x :: L, h => by
    have hx := h x List.mem_cons_self
    have e : p[pyIndex eq l x]? = some (keyOf eq p l x) := by
      rw [keyOf, List.getElem?_eq_getElem hx]
      rfl
    simp only [imageKeys, e, imageKeys_some p l L fun y hy => h y (List.mem_cons_of_mem _ hy), List.map_cons]

/-- `image` sorts by the keys. -/
theorem imageStr_sorted (p : List Char) (l : List α) (hp : isDigits p = true) (h : ∀ x ∈ l, pyIndex eq l x < p.length) :
    ∃ r, imageStr eq l p = .ok r ∧ r.Perm l ∧ (r.map (keyOf eq p l)).Pairwise (· ≤ ·) := by
  let ks := l.map fun x => (keyOf eq p l x, x)
  refine ⟨(ks.mergeSort fun a b => decide (a.1 ≤ b.1)).map Prod.snd, ?_, ?_, ?_⟩
  · simp only [imageStr, if_pos hp, imageKeys_some eq p l l h, ks]
  · have := (List.mergeSort_perm ks fun a b => decide (a.1 ≤ b.1)).map Prod.snd
    refine this.trans ?_
    simp only [ks, List.map_map]
    have : (Prod.snd ∘ fun x : α => (keyOf eq p l x, x)) = id := rfl
    rw [this, List.map_id]
  · have h1 := List.pairwise_mergeSort (le := fun a b : Char × α => decide (a.1 ≤ b.1))
      (by intro a b c h1 h2; simp only [decide_eq_true_eq] at *; exact Char.le_trans h1 h2)
      (by intro a b; simpa using Char.le_total a.1 b.1) ks
    have h2 : (ks.mergeSort fun a b => decide (a.1 ≤ b.1)).map Prod.fst =
        ((ks.mergeSort fun a b => decide (a.1 ≤ b.1)).map Prod.snd).map (keyOf eq p l) := by
      rw [List.map_map]
      refine List.map_congr_left fun a ha => ?_
      rw [List.mem_mergeSort] at ha
      obtain ⟨x, -, rfl⟩ := List.mem_map.1 ha
      rfl
    rw [← h2, List.pairwise_map]
    exact h1.imp fun hab => by simpa using hab

/-- C33: `image` for points with coinciding momenta, exactly: the result has at every position the momentum asked for if and only if the permutation
sends coinciding particles to labels next to each other, with no other particle between them. -/
theorem C33_right_iff (hn : n ≤ 9) (h0 : 0 < n) (hr : ∀ x, eq x x = true) (hs : ∀ x y, eq x y = true → eq y x = true)
    (ht : ∀ x y z, eq x y = true → eq y z = true → eq x z = true) (σ : Equiv.Perm (Fin n)) :
    ∃ r, imageStr eq (List.ofFn ps) (permString σ) = .ok r ∧ r.Perm (List.ofFn ps) ∧
      (List.Forall₂ (fun x y => eq x y = true) r (List.ofFn (moved ps σ)) ↔
        ∀ i j k, eq (ps i) (ps j) = true → σ i < σ k → σ k < σ j → eq (ps i) (ps k) = true) := by
  choose f hf hfe using pyIndex_first eq ps hr
  have hfc : ∀ i j, eq (ps i) (ps j) = true ↔ f i = f j := by
    intro i j
    constructor
    · intro h
      have := pyIndex_congr eq hs ht h (List.ofFn ps)
      rw [hf, hf] at this
      exact Fin.ext this
    · intro h
      have h1 := hfe i
      rw [h] at h1
      exact ht _ _ _ (hs _ _ h1) (hfe j)
  have hlt : ∀ x ∈ List.ofFn ps, pyIndex eq (List.ofFn ps) x < (permString σ).length := by
    intro x hx
    obtain ⟨i, rfl⟩ := (List.mem_ofFn' _ _).1 hx
    rw [hf, length_permString]
    exact (f i).2
  obtain ⟨r, e, hp, hsort⟩ := imageStr_sorted eq (permString σ) (List.ofFn ps) (isDigits_permString hn h0 σ) hlt
  refine ⟨r, e, hp, ?_⟩
  have hkey : ∀ i, keyOf eq (permString σ) (List.ofFn ps) (ps i) = Nat.digitChar ((σ (f i) : ℕ) + 1) := by
    intro i
    rw [keyOf, hf, getElem?_permString]
    rfl
  have hmono : ∀ i j, keyOf eq (permString σ) (List.ofFn ps) (ps i) ≤ keyOf eq (permString σ) (List.ofFn ps) (ps j) ↔ σ (f i) ≤ σ (f j) := by
    intro i j
    rw [hkey, hkey, digitChar_le_iff _ (by have := (σ (f i)).2; omega) _ (by have := (σ (f j)).2; omega), Fin.le_def]
    omega
  have hinj : ∀ i j, keyOf eq (permString σ) (List.ofFn ps) (ps i) = keyOf eq (permString σ) (List.ofFn ps) (ps j) → eq (ps i) (ps j) = true := by
    intro i j h
    rw [hfc]
    have h1 := (hmono i j).1 (by rw [h]; exact Char.le_refl _)
    have h2 := (hmono j i).1 (by rw [h]; exact Char.le_refl _)
    exact σ.injective (le_antisymm h1 h2)
  have hM : (List.ofFn (moved ps σ)).Perm (List.ofFn ps) := by
    have : moved ps σ = ps ∘ σ.symm := rfl
    rw [this]
    exact Equiv.Perm.ofFn_comp_perm σ.symm ps
  have hcong : ∀ x y, eq x y = true → keyOf eq (permString σ) (List.ofFn ps) x = keyOf eq (permString σ) (List.ofFn ps) y := by
    intro x y h
    rw [keyOf, keyOf, pyIndex_congr eq hs ht h]
  have step : List.Forall₂ (fun x y => eq x y = true) r (List.ofFn (moved ps σ)) ↔
      ((List.ofFn (moved ps σ)).map (keyOf eq (permString σ) (List.ofFn ps))).Pairwise (· ≤ ·) := by
    constructor
    · intro h
      have : r.map (keyOf eq (permString σ) (List.ofFn ps)) = (List.ofFn (moved ps σ)).map (keyOf eq (permString σ) (List.ofFn ps)) := by
        clear hp e hsort hM
        generalize List.ofFn (moved ps σ) = M at h
        induction h with
        | nil => rfl
        | cons h1 _ ih => rw [List.map_cons, List.map_cons, hcong _ _ h1, ih]
      rw [← this]
      exact hsort
    · intro h
      have h1 : r.map (keyOf eq (permString σ) (List.ofFn ps)) = (List.ofFn (moved ps σ)).map (keyOf eq (permString σ) (List.ofFn ps)) :=
        List.Perm.eq_of_pairwise (le := (· ≤ ·)) (fun a b _ _ h1 h2 => Char.le_antisymm h1 h2) hsort h ((hp.trans hM.symm).map _)
      have mem1 : ∀ x ∈ r, ∃ i, x = ps i := by
        intro x hx
        obtain ⟨i, hi⟩ := (List.mem_ofFn' _ _).1 (hp.mem_iff.1 hx)
        exact ⟨i, hi.symm⟩
      have mem2 : ∀ x ∈ List.ofFn (moved ps σ), ∃ i, x = ps i := by
        intro x hx
        obtain ⟨i, hi⟩ := (List.mem_ofFn' _ _).1 (hM.mem_iff.1 hx)
        exact ⟨i, hi.symm⟩
      clear hp e hsort hM h
      generalize List.ofFn (moved ps σ) = M at h1 mem2
      induction r generalizing M with
      | nil =>
        rcases M with _ | ⟨y, M⟩
        · exact .nil
        · simp at h1
      | cons x r ih =>
        rcases M with _ | ⟨y, M⟩
        · simp at h1
        · rw [List.map_cons, List.map_cons, List.cons.injEq] at h1
          refine .cons ?_ (ih (fun z hz => mem1 z (List.mem_cons_of_mem _ hz)) M h1.2 fun z hz => mem2 z (List.mem_cons_of_mem _ hz))
          obtain ⟨i, rfl⟩ := mem1 x List.mem_cons_self
          obtain ⟨j, rfl⟩ := mem2 y List.mem_cons_self
          exact hinj i j h1.1
  rw [step, List.pairwise_map, List.pairwise_ofFn]
  constructor
  · intro h i j k hij h1 h2
    have a1 := h h1
    have a2 := h h2
    simp only [moved, Equiv.symm_apply_apply] at a1 a2
    rw [hmono] at a1 a2
    rw [hfc] at hij ⊢
    rw [← hij] at a2
    exact σ.injective (le_antisymm a1 a2)
  · intro h a b hab
    simp only [moved]
    rw [hmono]
    by_contra hc
    rw [not_le] at hc
    have hne : ¬ eq (ps (σ.symm a)) (ps (σ.symm b)) = true := by
      intro he
      rw [hfc] at he
      rw [he] at hc
      exact lt_irrefl _ hc
    rcases lt_trichotomy b (σ (f (σ.symm a))) with h1 | h1 | h1
    · exact hne (h (σ.symm a) (f (σ.symm a)) (σ.symm b) (hs _ _ (hfe _)) (by simpa using hab) (by simpa using h1))
    · apply hne
      have : σ.symm b = f (σ.symm a) := by rw [h1, Equiv.symm_apply_apply]
      rw [this]
      exact hs _ _ (hfe _)
    · have h2 := h (f (σ.symm b)) (σ.symm b) (f (σ.symm a)) (hfe _) hc (by simpa using h1)
      exact hne (hs _ _ (ht _ _ _ (hs _ _ (hfe (σ.symm b))) (ht _ _ _ h2 (hfe (σ.symm a)))))

/-- What is sorted already stays as it is. -/
theorem imageStr_stays (p : List Char) (l : List α) (hp : isDigits p = true) (h : ∀ x ∈ l, pyIndex eq l x < p.length)
    (hs : (l.map (keyOf eq p l)).Pairwise (· ≤ ·)) : imageStr eq l p = .ok l := by
  simp only [imageStr, if_pos hp, imageKeys_some eq p l l h]
  rw [List.mergeSort_of_pairwise]
  · rw [List.map_map]
    have : (Prod.snd ∘ fun x : α => (keyOf eq p l x, x)) = id := rfl
    rw [this, List.map_id]
  · rw [List.pairwise_map] at hs ⊢
    exact hs.imp fun hab => by simpa using hab

/-- C34: `copy` for one to nine particles, exactly: every position of the copy has its momentum if and only if coinciding particles have labels next to
each other; then the copy is the point. -/
theorem C34_copy_iff (swap : α → α) (hn : n ≤ 9) (h0 : 0 < n) (hr : ∀ x, eq x x = true) (hs : ∀ x y, eq x y = true → eq y x = true)
    (ht : ∀ x y z, eq x y = true → eq y z = true → eq x z = true) :
    ∃ r, copyPoint eq swap (List.ofFn ps) = .ok r ∧
      (List.Forall₂ (fun x y => eq x y = true) r (List.ofFn ps) ↔ ∀ i j k, eq (ps i) (ps j) = true → i < k → k < j → eq (ps i) (ps k) = true) ∧
      (r = List.ofFn ps ↔ ∀ i j k, eq (ps i) (ps j) = true → i < k → k < j → eq (ps i) (ps k) = true) := by
  obtain ⟨r, e, hp, h⟩ := C33_right_iff eq ps hn h0 hr hs ht 1
  have h1 : moved ps (1 : Equiv.Perm (Fin n)) = ps := rfl
  rw [h1] at h
  simp only [Equiv.Perm.coe_one, id_eq] at h
  have e1 : copyPoint eq swap (List.ofFn ps) = .ok r := by
    unfold copyPoint imageRule
    rw [List.length_ofFn, identity_string hn]
    change (match imageStr eq (List.ofFn ps) (permString (1 : Equiv.Perm (Fin n))) with | .ok m => _ | .error e => _) = _
    rw [e]
    rfl
  refine ⟨r, e1, h, fun hrp => h.1 ?_, fun hc => ?_⟩
  · rw [hrp]
    exact List.forall₂_same.2 fun x _ => hr x
  · have hf := h.2 hc
    have hlt : ∀ x ∈ List.ofFn ps, pyIndex eq (List.ofFn ps) x < (permString (1 : Equiv.Perm (Fin n))).length := by
      intro x hx
      obtain ⟨i, rfl⟩ := (List.mem_ofFn' _ _).1 hx
      obtain ⟨f, h2, -⟩ := pyIndex_first eq ps hr i
      rw [h2, length_permString]
      exact f.2
    obtain ⟨r', e', -, hsort⟩ := imageStr_sorted eq (permString 1) (List.ofFn ps) (isDigits_permString hn h0 1) hlt
    rw [e] at e'
    injection e' with e'
    subst e'
    have hm : r.map (keyOf eq (permString (1 : Equiv.Perm (Fin n))) (List.ofFn ps)) = (List.ofFn ps).map (keyOf eq (permString (1 : Equiv.Perm (Fin n))) (List.ofFn ps)) := by
      clear hp e hsort e1 hlt h
      generalize hL : keyOf eq (permString (1 : Equiv.Perm (Fin n))) (List.ofFn ps) = g
      have hg : ∀ x y, eq x y = true → g x = g y := by
        intro x y hxy
        rw [← hL, keyOf, keyOf, pyIndex_congr eq hs ht hxy]
      generalize List.ofFn ps = M at hf
      induction hf with
      | nil => rfl
      | cons h1 _ ih => rw [List.map_cons, List.map_cons, hg _ _ h1, ih]
    rw [hm] at hsort
    have := imageStr_stays eq (permString 1) (List.ofFn ps) (isDigits_permString hn h0 1) hlt hsort
    rw [e] at this
    injection this

end

end Lips

import Verif.Spec.Image
import Mathlib.Data.List.Sort
import Mathlib.Data.List.Nodup
import Mathlib.Data.List.Perm.Basic
import Mathlib.Tactic.IntervalCases
import Mathlib.Tactic.Ring

/-!
Properties C32, C33, C34, C36: images, copies and inverse permutations.
-/

namespace Lips

variable {α : Type*}

/-! ### Characters -/

theorem digitChar_le_iff : ∀ a < 10, ∀ b < 10, (Nat.digitChar a ≤ Nat.digitChar b ↔ a ≤ b) := by decide
theorem digitChar_isDigit : ∀ a < 10, (Nat.digitChar a).isDigit = true := by decide
theorem intChar_digitChar : ∀ a < 10, intChar (Nat.digitChar a) = some a := by decide

theorem pyStr_digit {a : ℕ} (h : a < 10) : pyStr a = [Nat.digitChar a] := Nat.toDigits_of_lt_base h

theorem length_permString {n : ℕ} (σ : Equiv.Perm (Fin n)) : (permString σ).length = n := by
  simp [permString]

theorem getElem?_permString {n : ℕ} (σ : Equiv.Perm (Fin n)) (i : Fin n) :
    (permString σ)[(i : ℕ)]? = some (Nat.digitChar ((σ i : ℕ) + 1)) := by
  simp [permString]

theorem isDigits_permString {n : ℕ} (hn : n ≤ 9) (h0 : 0 < n) (σ : Equiv.Perm (Fin n)) :
    isDigits (permString σ) = true := by
  have hl := length_permString σ
  simp only [isDigits, Bool.and_eq_true, Bool.not_eq_true', List.isEmpty_eq_false_iff,
    List.all_eq_true]
  refine ⟨fun h => by rw [h] at hl; simp at hl; omega, fun c hc => ?_⟩
  simp only [permString, List.mem_map, List.mem_finRange, true_and] at hc
  obtain ⟨i, rfl⟩ := hc
  exact digitChar_isDigit _ (by have := (σ i).2; omega)

/-! ### C32 -/

/-- Looking up particles of a point without equal ones. -/
theorem pyIndex_ofFn {n : ℕ} (eq : α → α → Bool) (ps : Fin n → α) (i : Fin n)
    (hr : ∀ x, eq x x = true) (hd : ∀ i j, i ≠ j → eq (ps i) (ps j) = false) :
    pyIndex eq (List.ofFn ps) (ps i) = i := by
  unfold pyIndex
  rw [List.findIdx_eq (by simp)]
  refine ⟨by simp [hr], fun j hj => ?_⟩
  simp only [List.getElem_ofFn]
  exact hd _ _ (by intro h; rw [← h] at hj; simp at hj)

theorem imageKeys_eq {n : ℕ} (eq : α → α → Bool) (ps : Fin n → α) (σ : Equiv.Perm (Fin n))
    (hr : ∀ x, eq x x = true) (hd : ∀ i j, i ≠ j → eq (ps i) (ps j) = false) (L : List (Fin n)) :
    imageKeys eq (List.ofFn ps) (permString σ) (L.map ps) =
      some (L.map fun i => (Nat.digitChar ((σ i : ℕ) + 1), ps i)) := by
  induction L with
  | nil => rfl
  | cons i L ih =>
    simp only [List.map_cons, imageKeys]
    rw [pyIndex_ofFn eq ps i hr hd, getElem?_permString, ih]

/-- C32: for at most nine particles with pairwise different momenta the image under a permutation
has particle `i` at position `σ i`. -/
theorem C32_image_moves {n : ℕ} (hn : n ≤ 9) (h0 : 0 < n) (eq : α → α → Bool)
    (hr : ∀ x, eq x x = true) (ps : Fin n → α) (hd : ∀ i j, i ≠ j → eq (ps i) (ps j) = false)
    (σ : Equiv.Perm (Fin n)) :
    imageStr eq (List.ofFn ps) (permString σ) = .ok (List.ofFn (moved ps σ)) := by
  unfold imageStr
  rw [if_pos (isDigits_permString hn h0 σ)]
  have hk := imageKeys_eq eq ps σ hr hd (List.finRange n)
  rw [← List.ofFn_eq_map] at hk
  rw [hk]
  simp only
  congr 1
  have key : ((List.finRange n).map fun i => (Nat.digitChar ((σ i : ℕ) + 1), ps i)).mergeSort
      (fun a b => decide (a.1 ≤ b.1)) =
      (List.finRange n).map fun k : Fin n => (Nat.digitChar ((k : ℕ) + 1), ps (σ.symm k)) := by
    apply List.Perm.eq_of_pairwise (le := fun a b => a.1 ≤ b.1)
    · intro a b ha hb h1 h2
      simp only [List.mem_mergeSort, List.mem_map, List.mem_finRange, true_and] at ha hb
      obtain ⟨i, rfl⟩ := ha
      obtain ⟨k, rfl⟩ := hb
      simp only at h1 h2
      rw [digitChar_le_iff _ (by have := (σ i).2; omega) _ (by have := k.2; omega)] at h1
      rw [digitChar_le_iff _ (by have := k.2; omega) _ (by have := (σ i).2; omega)] at h2
      have : σ i = k := by apply Fin.ext; omega
      subst this
      simp
    · have := List.pairwise_mergeSort (le := fun a b : Char × α => decide (a.1 ≤ b.1))
        (by intro a b c h1 h2; simp only [decide_eq_true_eq] at *; exact Char.le_trans h1 h2)
        (by intro a b; simpa using Char.le_total a.1 b.1)
        ((List.finRange n).map fun i => (Nat.digitChar ((σ i : ℕ) + 1), ps i))
      exact this.imp (by intro a b h; simpa using h)
    · rw [List.pairwise_map]
      refine (List.pairwise_le_finRange n).imp ?_
      intro a b h
      simp only
      rw [digitChar_le_iff _ (by have := a.2; omega) _ (by have := b.2; omega)]
      exact Nat.succ_le_succ h
    · refine (List.mergeSort_perm _ _).trans ?_
      have : ((List.finRange n).map (fun k : Fin n => (Nat.digitChar ((k : ℕ) + 1), ps (σ.symm k)))).Perm
          (((List.finRange n).map σ).map (fun k : Fin n => (Nat.digitChar ((k : ℕ) + 1), ps (σ.symm k)))) := by
        apply List.Perm.map
        refine (List.perm_of_nodup_nodup_toFinset_eq ?_ ?_ ?_)
        · exact List.nodup_finRange n
        · exact (List.nodup_map_iff σ.injective).2 (List.nodup_finRange n)
        · ext x; simp only [List.mem_toFinset, List.mem_finRange, List.mem_map, true_and, true_iff]; exact σ.surjective x
      refine List.Perm.symm (this.trans ?_)
      rw [List.map_map]
      simp [Function.comp_def]
  rw [key, List.map_map, List.ofFn_eq_map]
  rfl

theorem moved_distinct {n : ℕ} (eq : α → α → Bool) (ps : Fin n → α) (σ : Equiv.Perm (Fin n))
    (hd : ∀ i j, i ≠ j → eq (ps i) (ps j) = false) :
    ∀ i j, i ≠ j → eq (moved ps σ i) (moved ps σ j) = false :=
  fun _ _ h => hd _ _ fun e => h (σ.symm.injective e)

/-- C32: the image of an image is the image under the composition, whatever the two strings
spelled. -/
theorem C32_image_compose {n : ℕ} (hn : n ≤ 9) (h0 : 0 < n) (eq : α → α → Bool)
    (hr : ∀ x, eq x x = true) (ps : Fin n → α) (hd : ∀ i j, i ≠ j → eq (ps i) (ps j) = false)
    (σ τ : Equiv.Perm (Fin n)) :
    ∃ l, imageStr eq (List.ofFn ps) (permString σ) = .ok l ∧
      imageStr eq l (permString τ) = imageStr eq (List.ofFn ps) (permString (τ * σ)) := by
  refine ⟨_, C32_image_moves hn h0 eq hr ps hd σ, ?_⟩
  rw [C32_image_moves hn h0 eq hr _ (moved_distinct eq ps σ hd) τ, C32_image_moves hn h0 eq hr ps hd]
  rfl

/-! ### C36 -/

theorem inverseLoop_spec {n : ℕ} (hn : n ≤ 9) (σ : Equiv.Perm (Fin n)) :
    ∀ (k : ℕ) (acc : List ℕ), k ≤ n → acc.length = n →
      (∀ i : Fin n, (i : ℕ) < n - k → acc[(σ i : ℕ)]? = some ((i : ℕ) + 1)) →
      inverseLoop (n - k) ((permString σ).drop (n - k)) acc =
        .ok ((List.finRange n).map fun j => (σ.symm j : ℕ) + 1) := by
  intro k
  induction k with
  | zero =>
    intro acc _ hl h
    have : (permString σ).drop (n - 0) = [] := by
      rw [List.drop_eq_nil_iff, length_permString]; omega
    rw [this, inverseLoop]
    congr 1
    apply List.ext_getElem?
    intro j
    by_cases hj : j < n
    · have := h (σ.symm ⟨j, hj⟩) (by have := (σ.symm ⟨j, hj⟩).2; omega)
      rw [Equiv.apply_symm_apply] at this
      rw [this]
      simp [hj]
    · rw [List.getElem?_eq_none (by omega), List.getElem?_eq_none (by simp; omega)]
  | succ k ih =>
    intro acc hk hl h
    have hi : n - (k + 1) < n := by omega
    have hd : (permString σ).drop (n - (k + 1)) =
        Nat.digitChar ((σ ⟨n - (k + 1), hi⟩ : ℕ) + 1) :: (permString σ).drop (n - k) := by
      rw [List.drop_eq_getElem_cons (by rw [length_permString]; exact hi)]
      congr 1
      · have := getElem?_permString σ ⟨n - (k + 1), hi⟩
        rw [List.getElem?_eq_getElem (by rw [length_permString]; exact hi)] at this
        exact Option.some.inj this
      · congr 1; omega
    rw [hd, inverseLoop]
    have hlt := (σ ⟨n - (k + 1), hi⟩).2
    rw [intChar_digitChar _ (by omega)]
    simp only
    have hs : setMinusOne acc ((σ ⟨n - (k + 1), hi⟩ : ℕ) + 1) (n - (k + 1) + 1) =
        .ok (acc.set (σ ⟨n - (k + 1), hi⟩) (n - (k + 1) + 1)) := by
      unfold setMinusOne
      rw [if_neg (by omega), if_pos (by omega)]; rfl
    rw [hs]
    simp only
    have e : n - (k + 1) + 1 = n - k := by omega
    rw [e]
    refine ih _ (by omega) (by simp [hl]) fun i hi' => ?_
    rw [List.getElem?_set]
    by_cases he : i = ⟨n - (k + 1), hi⟩
    · subst he
      simp [hl]; omega
    · rw [if_neg (fun h' => he (σ.injective (Fin.ext h'.symm)))]
      refine h i ?_
      have : (i : ℕ) ≠ n - (k + 1) := fun h' => he (Fin.ext h')
      omega

/-- C36: `inverse` of the string of a permutation of at most nine labels is the string of the
inverse permutation. -/
theorem C36_inverse {n : ℕ} (hn : n ≤ 9) (σ : Equiv.Perm (Fin n)) :
    inverseStr (permString σ) = .ok (permString σ.symm) := by
  have h := inverseLoop_spec hn σ n (List.replicate n 0) le_rfl (by simp) (by intro i hi; omega)
  simp only [Nat.sub_self, List.drop_zero] at h
  unfold inverseStr
  rw [length_permString, h]
  simp only
  congr 1
  rw [List.flatMap_map, permString]
  rw [List.flatMap_congr (g := fun j => [Nat.digitChar ((σ.symm j : ℕ) + 1)])]
  · rw [← List.map_eq_flatMap]
  · intro j _
    exact pyStr_digit (by have := (σ.symm j).2; omega)

/-- C36: `inverse` is an involution and keeps the flag. -/
theorem C36_involution {n : ℕ} (hn : n ≤ 9) (σ : Equiv.Perm (Fin n)) (b : Bool) :
    ∃ r, inverseRule (permString σ, b) = .ok r ∧ r.2 = b ∧ inverseRule r = .ok (permString σ, b) := by
  refine ⟨(permString σ.symm, b), ?_, rfl, ?_⟩
  · unfold inverseRule; simp [C36_inverse hn]
  · unfold inverseRule; simp [C36_inverse hn]

/-- The identity string of at most nine labels. -/
theorem identity_string {n : ℕ} (hn : n ≤ 9) :
    identityRule n = (permString (Equiv.refl (Fin n)), false) := by
  unfold identityRule permString
  congr 1
  rw [List.flatMap_congr (g := fun j => [Nat.digitChar j])]
  · rw [← List.map_eq_flatMap]
    apply List.ext_getElem
    · simp
    · intro i h1 h2; simp [Nat.add_comm]
  · intro j hj
    rw [List.mem_range'_1] at hj
    exact pyStr_digit (by omega)

/-- C32, C36: the image under the inverse undoes the image, and the composition of a permutation
and its inverse is the identity string. -/
theorem C32_image_inverse {n : ℕ} (hn : n ≤ 9) (h0 : 0 < n) (eq : α → α → Bool)
    (hr : ∀ x, eq x x = true) (ps : Fin n → α) (hd : ∀ i j, i ≠ j → eq (ps i) (ps j) = false)
    (σ : Equiv.Perm (Fin n)) :
    ∃ l q, imageStr eq (List.ofFn ps) (permString σ) = .ok l ∧ inverseStr (permString σ) = .ok q ∧
      imageStr eq l q = .ok (List.ofFn ps) ∧
      permString (σ.symm * σ : Equiv.Perm (Fin n)) = (identityRule n).1 := by
  refine ⟨_, _, C32_image_moves hn h0 eq hr ps hd σ, C36_inverse hn σ, ?_, ?_⟩
  · rw [C32_image_moves hn h0 eq hr _ (moved_distinct eq ps σ hd) σ.symm]
    congr 2
    funext k
    simp [moved]
  · rw [identity_string hn]
    congr 1
    ext i; simp

/-- C32: an image under a rule with the flag set also swaps every particle's spinors, and images
under rules compose with the flags added, provided swapping twice does nothing and swapping does
not merge particles. -/
theorem C32_rules_compose {n : ℕ} (hn : n ≤ 9) (h0 : 0 < n) (eq : α → α → Bool)
    (hr : ∀ x, eq x x = true) (swap : α → α) (hs : ∀ x, swap (swap x) = x)
    (he : ∀ x y, eq (swap x) (swap y) = eq x y) (ps : Fin n → α)
    (hd : ∀ i j, i ≠ j → eq (ps i) (ps j) = false) (σ τ : Equiv.Perm (Fin n)) (b b' : Bool) :
    ∃ l, imageRule eq swap (List.ofFn ps) (permString σ, b) = .ok l ∧
      l = List.ofFn (fun k => if b then swap (moved ps σ k) else moved ps σ k) ∧
      imageRule eq swap l (permString τ, b') =
        imageRule eq swap (List.ofFn ps) (permString (τ * σ), b ^^ b') := by
  have h1 : ∀ (qs : Fin n → α), (∀ i j, i ≠ j → eq (qs i) (qs j) = false) → ∀ (ρ : Equiv.Perm (Fin n))
      (d : Bool), imageRule eq swap (List.ofFn qs) (permString ρ, d) =
        .ok (List.ofFn (fun k => if d then swap (moved qs ρ k) else moved qs ρ k)) := by
    intro qs hq ρ d
    unfold imageRule
    rw [C32_image_moves hn h0 eq hr qs hq]
    cases d <;> simp [List.map_ofFn, Function.comp_def]
  refine ⟨_, h1 ps hd σ b, rfl, ?_⟩
  rw [h1 _ ?_ τ b', h1 ps hd]
  · congr 2
    funext k
    cases b <;> cases b' <;> simp [moved, hs] <;> rfl
  · intro i j hij
    cases b <;> simp only [Bool.false_eq_true, if_true, if_false, he] <;>
      exact moved_distinct eq ps σ hd i j hij

/-! ### C33 -/

/-- C33 (finding): with coinciding momenta the image is wrong. For *every* point of three
particles whose first two have equal momenta and differ from the third, exchanging the last two
labels leaves the point as it was instead of exchanging particles two and three. -/
theorem C33_image_wrong (eq : α → α → Bool) (hr : ∀ x, eq x x = true) (a b d : α)
    (h12 : eq a b = true) (h13 : eq a d = false) (h23 : eq b d = false) :
    imageStr eq [a, b, d] ['1', '3', '2'] = .ok [a, b, d] := by
  have h0 : isDigits ['1', '3', '2'] = true := by decide
  have i1 : pyIndex eq [a, b, d] a = 0 := by simp [pyIndex, List.findIdx_cons, hr]
  have i2 : pyIndex eq [a, b, d] b = 0 := by simp [pyIndex, List.findIdx_cons, h12]
  have i3 : pyIndex eq [a, b, d] d = 2 := by simp [pyIndex, List.findIdx_cons, h13, h23, hr]
  unfold imageStr
  rw [if_pos h0]
  simp only [imageKeys, i1, i2, i3]
  simp only [List.getElem?_cons_zero, List.getElem?_cons_succ]
  rw [List.mergeSort_of_pairwise]
  · rfl
  · simp

/-- C33: what was asked for is a different point. -/
theorem C33_image_wrong_value : ∃ (ps : Fin 3 → ℕ) (σ : Equiv.Perm (Fin 3)),
    imageStr (fun x y => decide (x = y)) (List.ofFn ps) (permString σ) ≠ .ok (List.ofFn (moved ps σ)) := by
  refine ⟨![7, 7, 8], Equiv.swap 1 2, ?_⟩
  have h1 : permString (Equiv.swap (1 : Fin 3) 2) = ['1', '3', '2'] := by decide
  have h2 : List.ofFn (moved ![7, 7, 8] (Equiv.swap (1 : Fin 3) 2)) = [7, 8, 7] := by decide
  have h3 : List.ofFn (![7, 7, 8] : Fin 3 → ℕ) = [7, 7, 8] := by decide
  rw [h1, h2, h3, C33_image_wrong _ (by simp) 7 7 8 (by decide) (by decide) (by decide)]
  intro h; cases h

/-- C33, what does hold: when all momenta coincide the point is returned unchanged, which equals
every image of it. Missing for the full claim: all points with some but not all momenta equal, for
which the claim is false as above. -/
theorem C33_all_equal_partial {n : ℕ} (eq : α → α → Bool) (ps : Fin n → α)
    (hall : ∀ i j, eq (ps i) (ps j) = true) (p : List Char) (hp : isDigits p = true) :
    imageStr eq (List.ofFn ps) p = .ok (List.ofFn ps) := by
  obtain ⟨c, p', rfl⟩ : ∃ c p', p = c :: p' := by
    cases p with
    | nil => simp [isDigits] at hp
    | cons c p' => exact ⟨c, p', rfl⟩
  have hk : ∀ L : List (Fin n), imageKeys eq (List.ofFn ps) (c :: p') (L.map ps) =
      some (L.map fun i => (c, ps i)) := by
    intro L
    induction L with
    | nil => rfl
    | cons i L ih =>
      have : pyIndex eq (List.ofFn ps) (ps i) = 0 := by
        unfold pyIndex
        rw [List.findIdx_eq (by have := i.2; simp; omega)]
        exact ⟨by simp [hall], fun j hj => by omega⟩
      simp only [List.map_cons, imageKeys]
      rw [this, ih]; rfl
  unfold imageStr
  rw [if_pos hp]
  have := hk (List.finRange n)
  rw [← List.ofFn_eq_map] at this
  rw [this]
  simp only
  rw [List.mergeSort_of_pairwise]
  · rw [List.map_map, List.ofFn_eq_map]; rfl
  · rw [List.pairwise_map]; exact List.pairwise_of_forall (by simp)

/-! ### C34 -/

theorem imageKeys_mem (eq : α → α → Bool) (l : List α) (p : List Char) :
    ∀ (xs : List α) (ks : List (Char × α)), imageKeys eq l p xs = some ks →
      ks.map Prod.snd = xs ∧ ∀ k ∈ ks, p[pyIndex eq l k.2]? = some k.1 := by
  intro xs
  induction xs with
  | nil => intro ks h; simp only [imageKeys, Option.some.injEq] at h; subst h; simp
  | cons x xs ih =>
    intro ks h
    simp only [imageKeys] at h
    cases hp : p[pyIndex eq l x]? with
    | none => simp [hp] at h
    | some c =>
      cases hk : imageKeys eq l p xs with
      | none => simp [hp, hk] at h
      | some r =>
        simp only [hp, hk, Option.some.injEq] at h
        subst h
        obtain ⟨h1, h2⟩ := ih r hk
        simp [h1, hp]
        exact fun a b => h2 (a, b)

/-- Whatever the string, an image that is returned is a rearrangement of the point, sorted by the
character found at each particle's position. -/
theorem image_sorted (eq : α → α → Bool) (l : List α) (p : List Char) (m : List α)
    (h : imageStr eq l p = .ok m) : m.Perm l ∧
    m.Pairwise (fun x y => ∃ c d, p[pyIndex eq l x]? = some c ∧ p[pyIndex eq l y]? = some d ∧ c ≤ d) := by
  unfold imageStr at h
  split at h
  · cases hk : imageKeys eq l p l with
    | none => simp [hk] at h
    | some ks =>
      simp only [hk, Except.ok.injEq] at h
      obtain ⟨h1, h2⟩ := imageKeys_mem eq l p l ks hk
      have hp := List.mergeSort_perm ks (fun a b => decide (a.1 ≤ b.1))
      refine ⟨?_, ?_⟩
      · rw [← h]
        have := hp.map Prod.snd
        rwa [h1] at this
      · rw [← h, List.pairwise_map]
        have := List.pairwise_mergeSort (le := fun a b : Char × α => decide (a.1 ≤ b.1))
          (by intro a b c h1 h2; simp only [decide_eq_true_eq] at *; exact Char.le_trans h1 h2)
          (by intro a b; simpa using Char.le_total a.1 b.1) ks
        refine this.imp_of_mem ?_
        intro a b ha hb hab
        rw [List.mem_mergeSort] at ha hb
        exact ⟨a.1, b.1, h2 a ha, h2 b hb, by simpa using hab⟩
  · cases h

/-- C34 (finding): from ten particles on `copy` never returns the point it was given: for every
point of ten or more particles with pairwise different momenta the result is another list. -/
theorem C34_copy_wrong_from_ten {n : ℕ} (hn : 10 ≤ n) (eq : α → α → Bool) (swap : α → α)
    (hr : ∀ x, eq x x = true) (ps : Fin n → α) (hd : ∀ i j, i ≠ j → eq (ps i) (ps j) = false) :
    copyPoint eq swap (List.ofFn ps) ≠ .ok (List.ofFn ps) := by
  intro h
  unfold copyPoint imageRule at h
  rw [List.length_ofFn] at h
  have h' : imageStr eq (List.ofFn ps) (identityRule n).1 = .ok (List.ofFn ps) := by
    cases hi : imageStr eq (List.ofFn ps) (identityRule n).1 with
    | error e => simp [hi] at h
    | ok m =>
      rw [hi] at h
      simp only [identityRule, Bool.false_eq_true, if_false] at h
      exact h
  obtain ⟨_, hp⟩ := image_sorted eq _ _ _ h'
  rw [List.pairwise_iff_getElem] at hp
  obtain ⟨c, d, hc, hd', hcd⟩ := hp 1 9 (by simp; omega) (by simp; omega) (by omega)
  simp only [List.getElem_ofFn] at hc hd'
  rw [pyIndex_ofFn eq ps _ hr hd] at hc hd'
  obtain ⟨m, rfl⟩ : ∃ m, n = 10 + m := ⟨n - 10, by omega⟩
  have hs : (identityRule (10 + m)).1 =
      ['1', '2', '3', '4', '5', '6', '7', '8', '9', '1', '0'] ++
        (List.range' 11 m).flatMap pyStr := by
    unfold identityRule
    simp only
    rw [← List.range'_append_1, List.flatMap_append]
    congr 1
  rw [hs] at hc hd'
  simp only [List.cons_append, List.getElem?_cons_succ, List.getElem?_cons_zero] at hc hd'
  cases hc; cases hd'
  revert hcd; decide


/-- C34, the part that holds: with one to nine particles of pairwise different momenta `copy`
returns the same particles in the same order. Missing: zero particles (ValueError), ten or more
(wrong order) and coinciding momenta (wrong order); see below. -/
theorem C34_copy_partial {n : ℕ} (hn : n ≤ 9) (h0 : 0 < n) (eq : α → α → Bool) (swap : α → α)
    (hr : ∀ x, eq x x = true) (ps : Fin n → α) (hd : ∀ i j, i ≠ j → eq (ps i) (ps j) = false) :
    copyPoint eq swap (List.ofFn ps) = .ok (List.ofFn ps) := by
  unfold copyPoint imageRule
  rw [List.length_ofFn, identity_string hn]
  simp only
  rw [C32_image_moves hn h0 eq hr ps hd]
  simp; rfl

/-- C34 (finding): the empty point cannot be copied. -/
theorem C34_copy_empty (eq : α → α → Bool) (swap : α → α) :
    copyPoint eq swap ([] : List α) = .error .valueError := by
  unfold copyPoint imageRule identityRule imageStr isDigits; simp

/-- C34 (finding): copying a point in which the first and third particle coincide and the second
differs reorders it. -/
theorem C34_copy_coinciding (eq : α → α → Bool) (swap : α → α) (hr : ∀ x, eq x x = true)
    (a b a' : α) (h1 : eq a a' = true) (h2 : eq a b = false) :
    copyPoint eq swap [a, b, a'] = .ok [a, a', b] := by
  have hi : identityRule 3 = (['1', '2', '3'], false) := by decide
  have h0 : isDigits ['1', '2', '3'] = true := by decide
  have i1 : pyIndex eq [a, b, a'] a = 0 := by simp [pyIndex, List.findIdx_cons, hr]
  have i2 : pyIndex eq [a, b, a'] b = 1 := by simp [pyIndex, List.findIdx_cons, h2, hr]
  have i3 : pyIndex eq [a, b, a'] a' = 0 := by simp [pyIndex, List.findIdx_cons, h1]
  unfold copyPoint imageRule imageStr
  simp only [List.length_cons, List.length_nil, Nat.zero_add, Nat.reduceAdd]
  rw [hi]
  simp only
  rw [if_pos h0]
  simp only [imageKeys, i1, i2, i3]
  simp only [List.getElem?_cons_zero, List.getElem?_cons_succ, Bool.false_eq_true, if_false]
  simp [List.mergeSort, List.MergeSort.Internal.splitInTwo, List.splitAt, List.splitAt.go]

end Lips

import Verif.Props.ImageCoinciding

/-!
C34: for which points of any number of particles `copy` is right.
-/

namespace Lips

variable {α : Type*} {n : ℕ}

/-- The labels one to `n` written after each other. -/
def labelsText (n : ℕ) : List Char := ((List.range n).map fun i : ℕ => Nat.toDigits 10 (i + 1)).flatten

theorem labelsText_eq (n : ℕ) : (identityRule n).1 = labelsText n := by
  unfold identityRule labelsText pyStr
  rw [List.flatMap_def, List.range'_eq_map_range, List.map_map]
  refine congrArg List.flatten (List.map_congr_left fun i _ => ?_)
  simp [Nat.add_comm]

theorem le_labelsText (n : ℕ) : n ≤ (labelsText n).length := by
  induction n with
  | zero => simp
  | succ n ih =>
    have h : labelsText (n + 1) = labelsText n ++ Nat.toDigits 10 (n + 1) := by
      unfold labelsText
      rw [List.range_succ, List.map_append, List.flatten_append]
      simp
    have : 0 < (Nat.toDigits 10 (n + 1)).length := Nat.length_toDigits_pos
    rw [h, List.length_append]
    omega

theorem labelsText_digits {n : ℕ} (h : 0 < n) : isDigits (labelsText n) = true := by
  have h1 := le_labelsText n
  unfold isDigits
  rw [Bool.and_eq_true]
  constructor
  · rw [Bool.not_eq_true', List.isEmpty_eq_false_iff]
    intro e
    rw [e] at h1
    simp at h1
    omega
  · rw [List.all_eq_true]
    intro c hc
    unfold labelsText at hc
    obtain ⟨l, hl, hc⟩ := List.mem_flatten.1 hc
    obtain ⟨i, -, rfl⟩ := List.mem_map.1 hl
    exact Nat.isDigit_of_mem_toDigits (by norm_num) (by norm_num) hc

/-- `f i` is the first of the particles that coincide with particle `i`. -/
def FirstAmong (eq : α → α → Bool) (ps : Fin n → α) (f : Fin n → Fin n) : Prop :=
  ∀ i, eq (ps (f i)) (ps i) = true ∧ ∀ k < f i, eq (ps k) (ps i) = false

theorem pyIndex_firstAmong {eq : α → α → Bool} {ps : Fin n → α} {f : Fin n → Fin n} (hf : FirstAmong eq ps f) (i : Fin n) :
    pyIndex eq (List.ofFn ps) (ps i) = f i := by
  unfold pyIndex
  have hlt : (f i : ℕ) < (List.ofFn ps).length := by simp
  rw [List.findIdx_eq hlt]
  constructor
  · simpa using (hf i).1
  · intro j hj
    have := (hf i).2 ⟨j, by omega⟩ hj
    simpa using this

/-- C34: `copy` for any number of particles, exactly: it never raises, and every position of the copy has its momentum if and only if the digits of
123456789101112… at the positions of the first coinciding particles do not descend; then the copy is the point. -/
theorem C34_copy_any (eq : α → α → Bool) (ps : Fin n → α) (swap : α → α) (h0 : 0 < n) (hr : ∀ x, eq x x = true)
    (hs : ∀ x y, eq x y = true → eq y x = true) (ht : ∀ x y z, eq x y = true → eq y z = true → eq x z = true) (f : Fin n → Fin n)
    (hf : FirstAmong eq ps f) :
    ∃ r, copyPoint eq swap (List.ofFn ps) = .ok r ∧ r.Perm (List.ofFn ps) ∧
      (List.Forall₂ (fun x y => eq x y = true) r (List.ofFn ps) ↔ ∀ i j, i < j → (labelsText n).getD (f i) '0' ≤ (labelsText n).getD (f j) '0') ∧
      (r = List.ofFn ps ↔ ∀ i j, i < j → (labelsText n).getD (f i) '0' ≤ (labelsText n).getD (f j) '0') := by
  have hlt : ∀ x ∈ List.ofFn ps, pyIndex eq (List.ofFn ps) x < (labelsText n).length := by
    intro x hx
    obtain ⟨i, rfl⟩ := (List.mem_ofFn' _ _).1 hx
    rw [pyIndex_firstAmong hf]
    exact lt_of_lt_of_le (f i).2 (le_labelsText n)
  obtain ⟨r, e, hp, hsort⟩ := imageStr_sorted eq (labelsText n) (List.ofFn ps) (labelsText_digits h0) hlt
  have e1 : copyPoint eq swap (List.ofFn ps) = .ok r := by
    unfold copyPoint imageRule
    rw [List.length_ofFn, labelsText_eq, e]
    rfl
  have hkey : ((List.ofFn ps).map (keyOf eq (labelsText n) (List.ofFn ps))).Pairwise (· ≤ ·) ↔
      ∀ i j, i < j → (labelsText n).getD (f i) '0' ≤ (labelsText n).getD (f j) '0' := by
    rw [List.map_ofFn, List.pairwise_ofFn]
    simp only [Function.comp, keyOf, pyIndex_firstAmong hf, List.getD_eq_getElem?_getD]
  have stay : (∀ i j, i < j → (labelsText n).getD (f i) '0' ≤ (labelsText n).getD (f j) '0') → r = List.ofFn ps := by
    intro h
    have := imageStr_stays eq (labelsText n) (List.ofFn ps) (labelsText_digits h0) hlt (hkey.2 h)
    rw [e] at this
    injection this
  have back : List.Forall₂ (fun x y => eq x y = true) r (List.ofFn ps) →
      ∀ i j, i < j → (labelsText n).getD (f i) '0' ≤ (labelsText n).getD (f j) '0' := by
    intro hfo
    have hm : r.map (keyOf eq (labelsText n) (List.ofFn ps)) = (List.ofFn ps).map (keyOf eq (labelsText n) (List.ofFn ps)) := by
      clear hp e hsort e1 hlt hkey stay
      generalize hL : keyOf eq (labelsText n) (List.ofFn ps) = g
      have hg : ∀ x y, eq x y = true → g x = g y := by
        intro x y hxy
        rw [← hL, keyOf, keyOf, pyIndex_congr eq hs ht hxy]
      generalize List.ofFn ps = M at hfo
      induction hfo with
      | nil => rfl
      | cons h1 _ ih => rw [List.map_cons, List.map_cons, hg _ _ h1, ih]
    exact hkey.1 (hm ▸ hsort)
  have same : r = List.ofFn ps → List.Forall₂ (fun x y => eq x y = true) r (List.ofFn ps) := by
    intro h
    rw [h]
    exact List.forall₂_same.2 fun x _ => hr x
  exact ⟨r, e1, hp, ⟨back, fun h => same (stay h)⟩, ⟨fun h => back (same h), stay⟩⟩

/-- Eleven particles of which the first nine are different, the tenth is like the first and the eleventh like the ninth: not right. -/
example : let ps : Fin 11 → ℕ := ![1, 2, 3, 4, 5, 6, 7, 8, 9, 1, 9]
    ∃ r, copyPoint (fun a b => decide (a = b)) id (List.ofFn ps) = .ok r ∧ r ≠ List.ofFn ps := by
  intro ps
  have hf : FirstAmong (fun a b => decide (a = b)) ps ![0, 1, 2, 3, 4, 5, 6, 7, 8, 0, 8] := by unfold FirstAmong; decide
  obtain ⟨r, h1, -, -, h2⟩ := C34_copy_any (fun a b : ℕ => decide (a = b)) ps id (by decide) (by simp) (by simp +contextual) (by simp +contextual) _ hf
  exact ⟨r, h1, fun h => absurd (h2.1 h 8 9 (by decide)) (by decide)⟩

/-- Twelve particles of which the ninth to the last coincide: right. -/
example : let ps : Fin 12 → ℕ := ![1, 2, 3, 4, 5, 6, 7, 8, 9, 9, 9, 9]
    copyPoint (fun a b => decide (a = b)) id (List.ofFn ps) = .ok (List.ofFn ps) := by
  intro ps
  have hf : FirstAmong (fun a b => decide (a = b)) ps ![0, 1, 2, 3, 4, 5, 6, 7, 8, 8, 8, 8] := by unfold FirstAmong; decide
  obtain ⟨r, h1, -, -, h2⟩ := C34_copy_any (fun a b : ℕ => decide (a = b)) ps id (by decide) (by simp) (by simp +contextual) (by simp +contextual) _ hf
  rw [h1, h2.2 (by decide)]

end Lips

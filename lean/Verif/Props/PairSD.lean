import Verif.Lemmas.PairSD
import Verif.Props.PairDelta
import Verif.Props.PairMandel
import Mathlib.Data.Fintype.Pi

/-!
Property C99: setting a Mandelstam invariant of three labels and a three-mass Gram determinant as a pair gives both
values; at six points it is implemented unless the Mandelstam invariant has one label in each corner.
-/

namespace Lips

set_option linter.unusedSectionVars false

variable {K Γ : Type*} [Field K] [LinearOrder Γ] {n : ℕ}

/-- The factor of the upper component of `|A⟩` in `s_ABC`, up to sign. -/
def slopeA (r l : Fin n → V2 K) (A B C : Fin n) : K :=
  r B 1 * SpecSquare (l B) (l A) + r C 1 * SpecSquare (l C) (l A)

/-- The factor of the upper component of `|B⟩` in `s_ABC`. -/
def slopeB (r l : Fin n → V2 K) (A B C : Fin n) : K :=
  r A 1 * SpecSquare (l B) (l A) + r C 1 * SpecSquare (l B) (l C)

/-- The lower component of `(C + D)|X]`: the factor of the upper component of `|X⟩` in `2 P_X·(P_C + P_D)`. -/
def slopeX (r l : Fin n → V2 K) (X C D : Fin n) : K :=
  r C 1 * SpecSquare (l X) (l C) + r D 1 * SpecSquare (l X) (l D)

/-- What the method divides by: `s_ABC` depends on `|A⟩`, and with `s_ABC` fixed the product of the momenta of the
corners `AB`, `CD` still changes. -/
def SDGuard (r l : Fin n → V2 K) (A B C D : Fin n) : Prop :=
  slopeA r l A B C ≠ 0 ∧
    slopeB r l A B C * slopeX r l A C D + slopeA r l A B C * slopeX r l B C D ≠ 0

theorem SDGuard.den {r l : Fin n → V2 K} {A B C D : Fin n} (h : SDGuard r l A B C D) (v w : K) :
    (sdOf r l A B C D v w).den ≠ 0 ∧ (sdOf r l A B C D v w).x1 ≠ 0 := by
  constructor
  · have e : (sdOf r l A B C D v w).den = slopeA r l A B C := by
      simp only [SD.den, sdOf, slopeA, SpecSquare]; ring
    rw [e]; exact h.1
  · have e : (sdOf r l A B C D v w).x1 =
        slopeB r l A B C * slopeX r l A C D + slopeA r l A B C * slopeX r l B C D := by
      simp only [SD.x1, SD.num1, SD.pa, SD.pe, SD.k10, SD.k11, SD.den, sdOf, slopeA, slopeB, slopeX, SpecSquare]; ring
    rw [e]; exact h.2

/-- Two different corners can be named first and second. -/
theorem order_corners {i j : Fin 3} (h : i ≠ j) (L : Corners n) : ∃ σ : Equiv.Perm (Fin 3), L ∘ σ = ![L i, L j, L (-(i + j))] := by
  have : ∃ σ : Equiv.Perm (Fin 3), σ 0 = i ∧ σ 1 = j ∧ σ 2 = -(i + j) := by revert h; clear * -; revert i j; decide
  obtain ⟨σ, h0, h1, h2⟩ := this
  refine ⟨σ, ?_⟩
  funext x
  fin_cases x <;> simp [h0, h1, h2]

theorem computeDelta_order [NeZero (2 : K)] {c : Ctx K} {ps : Point K n} (hps : ∀ k, Consistent c (ps k)) (hc : Conserves ps)
    {L : Corners n} (h : Partition L) {i j : Fin 3} (hij : i ≠ j) :
    computeDelta ps 1 L = SpecDot (sumR2 ps (L i)) (sumR2 ps (L j)) ^ 2 - SpecSq (sumR2 ps (L i)) * SpecSq (sumR2 ps (L j)) := by
  obtain ⟨σ, e⟩ := order_corners hij L
  rw [← C25_permutation c ps hps 1 L (h.sum hc) σ]
  exact (congrArg _ e).trans (delta3_eq hps _ _ _).1

theorem Partition.order {L : Corners n} (h : Partition L) {i j : Fin 3} (hij : i ≠ j) :
    (L i ++ L j ++ L (-(i + j))).Nodup := by
  have e := h.nodup
  have p : (L i ++ L j ++ L (-(i + j))).Perm (L 0 ++ L 1 ++ L 2) := by
    have : (∀ a b c : List (Fin n), (a ++ c ++ b).Perm (a ++ b ++ c)) := fun a b c => by
      rw [List.append_assoc, List.append_assoc]; exact List.Perm.append_left a List.perm_append_comm
    have s : (∀ a b c : List (Fin n), (b ++ a ++ c).Perm (a ++ b ++ c)) := fun a b c =>
      List.Perm.append_right c List.perm_append_comm
    fin_cases i <;> fin_cases j <;> first | exact absurd rfl hij | skip
    · exact .refl _
    · exact this _ _ _
    · exact s _ _ _
    · exact (this (L 1) (L 0) (L 2)).trans (s (L 0) (L 1) (L 2))
    · exact (s (L 0) (L 2) (L 1)).trans (this _ _ _)
    · exact (s (L 1) (L 2) (L 0)).trans ((this (L 1) (L 0) (L 2)).trans (s (L 0) (L 1) (L 2)))
  exact p.nodup_iff.mpr e

/-- The first corner named is not the second one. -/
theorem pickCorners_ne {S : List (Fin n)} {L : Corners n} {i j : Fin 3} (h : pickCorners S L = some (i, j)) : i ≠ j := by
  unfold pickCorners at h
  split at h
  · simp at h
  · rename_i i' _
    rw [Option.map_eq_some_iff] at h
    obtain ⟨j', hj, e⟩ := h
    have := List.find?_some hj
    simp only [Bool.and_eq_true, decide_eq_true_eq] at this
    cases e
    exact fun e => this.1 e.symm

theorem chooseCorners_ne {S : List (Fin n)} {L : Corners n} {i j : Fin 3} (h : chooseCorners S L = some (i, j)) : i ≠ j := by
  unfold chooseCorners at h
  split at h
  · rename_i hz; cases h; exact pickCorners_ne hz
  · exact pickCorners_ne h

/-- Setting a Mandelstam invariant `s_S` and Δ with corners `L` as a pair, when the corners chosen are `AB` and `CD` and
`ABC` are the labels of `S` or the others, and the third corner begins with `E`, `F`: unless a square root is missing
the point reached is massless and conserves momentum, both invariants have the requested values, Δ in the order given,
and no particle moves but `A`, `B`, `E`, `F`. -/
theorem C99_mandel_gram [NeZero (2 : K)] (c : Ctx K) (root : K → Option K) (hroot : ∀ x y, root x = some y → y * y = x)
    (ps : Point K n) (r l : Fin n → V2 K) (h : Spin c ps r l) (S : List (Fin n)) (hS : S.Nodup) (L : Corners n)
    (hL : Partition L) (i j : Fin 3) (A B C D E F : Fin n) (rest : List (Fin n)) (hij : chooseCorners S L = some (i, j))
    (h1 : L i = [A, B]) (h2 : L j = [C, D]) (h3 : L (-(i + j)) = E :: F :: rest)
    (hABC : S.Perm [A, B, C] ∨ (freeLabels S).Perm [A, B, C]) (v w : K) (hg : SDGuard r l A B C D)
    (hd : SpecSquare (l E) (l F) ≠ 0) :
    (∃ X, root X = none ∧ pairSD c root ps S v L w = some (.error .typeError)) ∨
    ∃ ps', pairSD c root ps S v L w = some (.ok ps') ∧ GoodPoint c ps' ∧ computeS ps' S = v ∧ computeDelta ps' 1 L = w ∧
      ∀ k, k ≠ A → k ≠ B → k ≠ E → k ≠ F → ps' k = ps k := by
  have ne := chooseCorners_ne hij
  have nd := hL.order ne
  rw [h1, h2, h3] at nd
  have nd6 : [A, B, C, D, E, F].Nodup := List.Nodup.of_append_left (l₂ := rest) (by simpa using nd)
  have e : pairSD c root ps S v L w = some (runSD c root ps A B C D E F v w) := by
    simp only [pairSD, hij, h1, h2, h3]
  rw [e]
  rcases runSD_spec hroot h nd6 v w (hg.den v w).1 (hg.den v w).2 hd with ⟨X, x1, x2⟩ | ⟨ps', r', e1, s', cs, eS, eD, o⟩
  · exact .inl ⟨X, x1, by rw [x2]⟩
  · refine .inr ⟨ps', by rw [e1], ⟨cs, r', l, s'⟩, ?_, ?_, o⟩
    · rcases hABC with p | p
      · rw [computeS_perm _ p, eS]
      · rw [C16_complement ps' cs (perm_free hS), computeS_perm _ p, eS]
    · rw [computeDelta_order (fun k => (s' k).cons) cs hL ne, h1, h2, eD]

/-! ### Six points -/

/-- Which corners are chosen, from which labels are in the invariant. -/
def pickBool (x y : Fin 3 → Bool) : Option (Fin 3 × Fin 3) :=
  match [0, 1, 2].find? (fun i => x i && y i) with
  | none => none
  | some i => ([0, 1, 2].find? fun j => decide (j ≠ i) && x j).map fun j => (i, j)

/-- The same with the other labels if that fails. -/
def chooseBool (x y : Fin 3 → Bool) : Option (Fin 3 × Fin 3) :=
  match pickBool x y with
  | some z => some z
  | none => pickBool (fun i => !x i) (fun i => !y i)

theorem pickCorners_bool (S : List (Fin n)) {L : Corners n} {X Y : Fin 3 → Fin n} (hX : ∀ i, L i = [X i, Y i]) :
    pickCorners S L = pickBool (fun i => decide (X i ∈ S)) (fun i => decide (Y i ∈ S)) := by
  simp [pickCorners, pickBool, hX]
  rfl

theorem chooseCorners_bool (S : List (Fin n)) {L : Corners n} {X Y : Fin 3 → Fin n} (hX : ∀ i, L i = [X i, Y i]) :
    chooseCorners S L = chooseBool (fun i => decide (X i ∈ S)) (fun i => decide (Y i ∈ S)) := by
  have f : ∀ k : Fin n, decide (k ∈ freeLabels S) = !decide (k ∈ S) := fun k => by
    rw [← decide_not]; exact decide_eq_decide.mpr (mem_freeLabels S k)
  unfold chooseCorners chooseBool
  rw [pickCorners_bool S hX, pickCorners_bool (freeLabels S) hX]
  simp only [f]
  rfl

/-- How many of the six labels are in the invariant. -/
def count6 (x y : Fin 3 → Bool) : ℕ :=
  (x 0).toNat + (y 0).toNat + ((x 1).toNat + (y 1).toNat) + ((x 2).toNat + (y 2).toNat)

set_option synthInstance.maxHeartbeats 400000 in
set_option synthInstance.maxSize 1000 in
theorem chosen_bool : ∀ x y : Fin 3 → Bool, count6 x y = 3 →
    (chooseBool x y = none ∧ (∀ i, x i ≠ y i)) ∨
    (¬ ∀ i, x i ≠ y i) ∧ ∃ i j, i ≠ j ∧
      chooseBool x y = some (i, j) ∧
      ((x i = true ∧ y i = true ∧ x j = true ∧ y j = false ∧ x (-(i + j)) = false ∧ y (-(i + j)) = false) ∨
       (x i = false ∧ y i = false ∧ x j = false ∧ y j = true ∧ x (-(i + j)) = true ∧ y (-(i + j)) = true)) := by
  decide +kernel

theorem count_labels {S : List (Fin n)} (hS : S.Nodup) {L : Corners n} (hL : Partition L) {X Y : Fin 3 → Fin n}
    (hX : ∀ i, L i = [X i, Y i]) : count6 (fun i => decide (X i ∈ S)) (fun i => decide (Y i ∈ S)) = S.length := by
  have nd := hL.nodup
  have p : ((L 0 ++ L 1 ++ L 2).filter fun k => decide (k ∈ S)).Perm S := by
    refine (List.perm_ext_iff_of_nodup (nd.filter _) hS).mpr fun k => ?_
    simp only [List.mem_filter, decide_eq_true_eq]
    exact ⟨fun h => h.2, fun h => ⟨hL.mem_iff.mpr (List.mem_finRange k), h⟩⟩
  rw [← p.length_eq]
  simp only [hX, List.cons_append, List.nil_append, ← List.countP_eq_length_filter, List.countP_cons, List.countP_nil, count6]
  have b : ∀ q : Prop, [Decidable q] → (decide q).toNat = if decide q = true then 1 else 0 := by
    intro q _; by_cases h : q <;> simp [h]
  simp only [b]
  omega

theorem perm_three {S : List (Fin n)} (hS : S.Nodup) {L : Corners n} (hL : Partition L) {X Y : Fin 3 → Fin n}
    (hX : ∀ i, L i = [X i, Y i]) {i j : Fin 3} (hij : i ≠ j) (h1 : X i ∈ S) (h2 : Y i ∈ S) (h3 : X j ∈ S) (h4 : Y j ∉ S)
    (h5 : X (-(i + j)) ∉ S) (h6 : Y (-(i + j)) ∉ S) : S.Perm [X i, Y i, X j] := by
  have nd := hL.order hij
  rw [hX, hX, hX] at nd
  have nd3 : [X i, Y i, X j].Nodup := List.Nodup.of_append_left (l₂ := [Y j, X (-(i + j)), Y (-(i + j))]) nd
  refine (List.perm_ext_iff_of_nodup hS nd3).mpr fun k => ⟨fun hk => ?_, fun hk => ?_⟩
  · obtain ⟨m, hm⟩ := hL.mem k
    have third : m = i ∨ m = j ∨ m = -(i + j) := by revert hij; clear * -; revert i j m; decide
    rw [hX] at hm
    simp only [List.mem_cons, List.not_mem_nil, or_false] at hm ⊢
    rcases third with rfl | rfl | rfl
    · rcases hm with rfl | rfl
      · exact .inl rfl
      · exact .inr (.inl rfl)
    · rcases hm with rfl | rfl
      · exact .inr (.inr rfl)
      · exact absurd hk h4
    · rcases hm with rfl | rfl
      · exact absurd hk h5
      · exact absurd hk h6
  · simp only [List.mem_cons, List.not_mem_nil, or_false] at hk
    rcases hk with rfl | rfl | rfl
    · exact h1
    · exact h2
    · exact h3

/-- With corners of two labels and an invariant of three labels: not implemented exactly when the invariant has one
label in each corner. -/
theorem C99_not_implemented (c : Ctx K) (root : K → Option K) (ps : Point K n) (S : List (Fin n)) (hS : S.Nodup)
    (h3 : S.length = 3) (L : Corners n) (hL : Partition L) (X Y : Fin 3 → Fin n) (hX : ∀ i, L i = [X i, Y i]) (v w : K) :
    pairSD c root ps S v L w = none ↔ ∀ i, ¬ (X i ∈ S ↔ Y i ∈ S) := by
  have key := chosen_bool (fun i => decide (X i ∈ S)) (fun i => decide (Y i ∈ S)) ((count_labels hS hL hX).trans h3)
  rw [← chooseCorners_bool S hX] at key
  have hb : (∀ i, decide (X i ∈ S) ≠ decide (Y i ∈ S)) ↔ ∀ i, ¬ (X i ∈ S ↔ Y i ∈ S) := by
    refine forall_congr' fun i => ?_
    rw [Ne, decide_eq_decide]
  have hp : pairSD c root ps S v L w = none ↔ chooseCorners S L = none := by
    unfold pairSD
    rcases chooseCorners S L with _ | ⟨i, j⟩ <;> simp
  rw [hp]
  rcases key with ⟨e, hh⟩ | ⟨hh, i, j, -, e, -⟩
  · exact ⟨fun _ => hb.mp hh, fun _ => e⟩
  · exact ⟨fun e' => by rw [e] at e'; exact absurd e' (by simp), fun h' => absurd (hb.mpr h') hh⟩

/-- With corners of two labels and an invariant of three labels that has two labels in some corner: both invariants are
set, unless a square root is missing. `i` is the corner with two labels in the invariant, or with none. -/
theorem C99_six [NeZero (2 : K)] (c : Ctx K) (root : K → Option K) (hroot : ∀ x y, root x = some y → y * y = x)
    (ps : Point K n) (r l : Fin n → V2 K) (h : Spin c ps r l) (S : List (Fin n)) (hS : S.Nodup) (hS3 : S.length = 3)
    (L : Corners n) (hL : Partition L) (X Y : Fin 3 → Fin n) (hX : ∀ i, L i = [X i, Y i])
    (hone : ¬ ∀ i, ¬ (X i ∈ S ↔ Y i ∈ S)) (v w : K)
    (hg : ∀ i j, i ≠ j → SDGuard r l (X i) (Y i) (X j) (Y j)) (hd : ∀ i, SpecSquare (l (X i)) (l (Y i)) ≠ 0) :
    (∃ x, root x = none ∧ pairSD c root ps S v L w = some (.error .typeError)) ∨
    ∃ ps', pairSD c root ps S v L w = some (.ok ps') ∧ GoodPoint c ps' ∧ computeS ps' S = v ∧ computeDelta ps' 1 L = w ∧
      ∃ j, ps' (X j) = ps (X j) ∧ ps' (Y j) = ps (Y j) := by
  have key := chosen_bool (fun i => decide (X i ∈ S)) (fun i => decide (Y i ∈ S)) ((count_labels hS hL hX).trans hS3)
  rw [← chooseCorners_bool S hX] at key
  rcases key with ⟨-, hh⟩ | ⟨-, i, j, ne, e, hm⟩
  · exact absurd (fun i => by simpa [decide_eq_decide] using hh i) hone
  have hp : S.Perm [X i, Y i, X j] ∨ (freeLabels S).Perm [X i, Y i, X j] := by
    simp only [decide_eq_true_eq, decide_eq_false_iff_not] at hm
    rcases hm with ⟨a1, a2, a3, a4, a5, a6⟩ | ⟨a1, a2, a3, a4, a5, a6⟩
    · exact .inl (perm_three hS hL hX ne a1 a2 a3 a4 a5 a6)
    · exact .inr (perm_three ((List.nodup_finRange n).filter _) hL hX ne ((mem_freeLabels S _).mpr a1) ((mem_freeLabels S _).mpr a2)
        ((mem_freeLabels S _).mpr a3) (fun q => (mem_freeLabels S _).mp q a4) (fun q => (mem_freeLabels S _).mp q a5)
        (fun q => (mem_freeLabels S _).mp q a6))
  have nd := hL.order ne
  rw [hX, hX, hX] at nd
  simp only [List.cons_append, List.nil_append, List.nodup_cons, List.mem_cons, List.not_mem_nil, or_false, not_or] at nd
  obtain ⟨⟨-, a1, a2, -, -⟩, ⟨b1, b2, -, -⟩, ⟨-, c1, c2⟩, ⟨d1, d2⟩, -⟩ := nd
  rcases C99_mandel_gram c root hroot ps r l h S hS L hL i j _ _ _ _ _ _ [] e (hX i) (hX j) (hX _) hp v w (hg i j ne) (hd _)
    with g | ⟨ps', e1, e2, e3, e4, o⟩
  · exact .inl g
  · exact .inr ⟨ps', e1, e2, e3, e4, j, o _ (Ne.symm a1) (Ne.symm b1) c1 c2, o _ (Ne.symm a2) (Ne.symm b2) d1 d2⟩

/-- Over a field without square roots in the sense of `mpmath`, finite and p-adic fields among them, the method
raises a TypeError whenever it is implemented and its first division succeeds. -/
theorem C99_needs_mpmath (c : Ctx K) (root : K → Option K) (hroot : ∀ x, root x = none)
    (ps : Point K n) (r l : Fin n → V2 K) (h : Spin c ps r l) (S : List (Fin n)) (L : Corners n)
    (i j : Fin 3) (A B C D E F : Fin n) (ra rb rest : List (Fin n)) (hij : chooseCorners S L = some (i, j))
    (h1 : L i = A :: B :: ra) (h2 : L j = C :: D :: rb) (h3 : L (-(i + j)) = E :: F :: rest) (v w : K)
    (hg : slopeA r l A B C ≠ 0) : pairSD c root ps S v L w = some (.error .typeError) := by
  have sp : ∀ k, bothSpinors (ps k) = .ok (r k, l k) := fun k => by
    simp [bothSpinors, (h k).r_d, (h k).l_d, need_some]
  have e : l A 1 * r B 1 * l B 0 - l A 0 * r B 1 * l B 1 + l A 1 * r C 1 * l C 0 - l A 0 * r C 1 * l C 1 = slopeA r l A B C := by
    simp only [slopeA, SpecSquare]; ring
  simp only [pairSD, hij, h1, h2, h3, runSD, sp, SD.solve, e, pyDiv_ok hg, hroot]

end Lips

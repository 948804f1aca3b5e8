import Verif.Spec.Indices
import Verif.Lemmas.NodeSame
import Verif.Props.EvalArr
import Verif.Props.LorentzText

/-!
C125: expressions with open indices transform as their indices say.
-/

namespace Lips

open Matrix

variable {K : Type*} [Field K] {g h : M2 K}

/-! ### Matrices of indices -/

theorem dim_dual (I : Idx) : I.dual.dim = I.dim := by
  induction I with
  | one => rfl
  | lower => rfl
  | upper => rfl
  | sum I J h1 h2 => exact congrArg₂ (· + ·) h1 h2

theorem blocks_cast {a a' b b' : ℕ} (ha : a = a') (hb : b = b') (A : Matrix (Fin a') (Fin a') K) (B : Matrix (Fin b') (Fin b') K) (hab : a + b = a' + b') :
    (blockMat A B).submatrix (Fin.cast hab) (Fin.cast hab) =
      blockMat (A.submatrix (Fin.cast ha) (Fin.cast ha)) (B.submatrix (Fin.cast hb) (Fin.cast hb)) := by
  subst ha hb
  rfl

theorem blocks_mul {a b : ℕ} (A A' : Matrix (Fin a) (Fin a) K) (B B' : Matrix (Fin b) (Fin b) K) (hA : Aᵀ * A' = 1) (hB : Bᵀ * B' = 1) :
    (blockMat A B)ᵀ * blockMat A' B' = 1 := by
  unfold blockMat
  rw [transpose_submatrix, submatrix_mul_equiv, fromBlocks_transpose, fromBlocks_multiply]
  simp only [transpose_zero, Matrix.zero_mul, Matrix.mul_zero, add_zero, zero_add, hA, hB, fromBlocks_one]
  exact submatrix_one_equiv _

theorem mat_dual (hg : g.det = 1) (hh : h.det = 1) (I : Idx) :
    (I.mat g h)ᵀ * (I.dual.mat g h).submatrix (Fin.cast (dim_dual I).symm) (Fin.cast (dim_dual I).symm) = 1 := by
  induction I with
  | one => exact (show (1 : Matrix (Fin 1) (Fin 1) K)ᵀ * (1 : Matrix (Fin 1) (Fin 1) K) = 1 by simp)
  | lower b =>
    cases b
    · change (h.adjugate)ᵀ * hᵀ = 1
      rw [← transpose_mul, mul_adjugate, hh, one_smul, transpose_one]
    · change gᵀ * g.adjugateᵀ = 1
      rw [← transpose_mul, adjugate_mul, hg, one_smul, transpose_one]
  | upper b =>
    cases b
    · change hᵀᵀ * h.adjugate = 1
      rw [transpose_transpose, mul_adjugate, hh, one_smul]
    · change g.adjugateᵀᵀ * g = 1
      rw [transpose_transpose, adjugate_mul, hg, one_smul]
  | sum I J h1 h2 =>
    have e := blocks_cast (dim_dual I).symm (dim_dual J).symm (I.dual.mat g h) (J.dual.mat g h) (dim_dual (.sum I J)).symm
    exact (congrArg (fun X => (blockMat (I.mat g h) (J.mat g h))ᵀ * X) e).trans (blocks_mul _ _ _ _ h1 h2)

theorem blocks_left {a b : ℕ} (A : Matrix (Fin a) (Fin a) K) (B : Matrix (Fin b) (Fin b) K) (v : Fin (a + b) → K) (i : Fin a) :
    (blockMat A B *ᵥ v) (Fin.castAdd b i) = (A *ᵥ fun k => v (Fin.castAdd b k)) i := by
  simp only [blockMat, mulVec, dotProduct, submatrix_apply]
  rw [Fin.sum_univ_add]
  simp

theorem blocks_right {a b : ℕ} (A : Matrix (Fin a) (Fin a) K) (B : Matrix (Fin b) (Fin b) K) (v : Fin (a + b) → K) (j : Fin b) :
    (blockMat A B *ᵥ v) (Fin.natAdd a j) = (B *ᵥ fun k => v (Fin.natAdd a k)) j := by
  simp only [blockMat, mulVec, dotProduct, submatrix_apply]
  rw [Fin.sum_univ_add]
  simp

theorem part_le {I : Idx} {lo : ℕ} {I' : Idx} (p : Part I lo I') : lo + I'.dim ≤ I.dim := by
  induction p with
  | whole I => simp
  | left J _ ih => exact ih.trans (Nat.le_add_right _ _)
  | right I _ ih => simp only [Idx.dim]; omega
  | both _ h1 _ ih1 ih2 => simp only [Idx.dim]; omega

/-- A part of an index transforms by itself. -/
theorem part_mulVec {I : Idx} {lo : ℕ} {I' : Idx} (p : Part I lo I') (v : Fin I.dim → K) (f : Fin I'.dim → Fin I.dim) (hf : ∀ i, (f i : ℕ) = lo + i)
    (i : Fin I'.dim) : (I.mat g h *ᵥ v) (f i) = (I'.mat g h *ᵥ (v ∘ f)) i := by
  induction p with
  | whole I =>
    have : f = id := by funext i; ext; simp [hf]
    subst this
    rfl
  | @left I lo I' J p ih =>
    have hl := part_le p
    let f' : Fin I'.dim → Fin I.dim := fun i => ⟨lo + i, by omega⟩
    have hff : ∀ i, f i = Fin.castAdd J.dim (f' i) := fun i => Fin.ext (hf i)
    refine (congrArg (blockMat (I.mat g h) (J.mat g h) *ᵥ v) (hff i)).trans ((blocks_left _ _ v _).trans ?_)
    rw [ih _ f' (fun _ => rfl)]
    refine congrArg (fun w => (I'.mat g h *ᵥ w) i) (funext fun k => ?_)
    exact congrArg v (hff k).symm
  | @right J lo J' I p ih =>
    have hl := part_le p
    let f' : Fin J'.dim → Fin J.dim := fun i => ⟨lo + i, by omega⟩
    have hff : ∀ i, f i = Fin.natAdd I.dim (f' i) := fun i => Fin.ext ((hf i).trans (Nat.add_assoc _ _ _))
    refine (congrArg (blockMat (I.mat g h) (J.mat g h) *ᵥ v) (hff i)).trans ((blocks_right _ _ v _).trans ?_)
    rw [ih _ f' (fun _ => rfl)]
    refine congrArg (fun w => (J'.mat g h *ᵥ w) i) (funext fun k => ?_)
    exact congrArg v (hff k).symm
  | @both I lo I' J J' p h1 q ih1 ih2 =>
    have hl := part_le p
    have hl' := part_le q
    let f₁ : Fin I'.dim → Fin I.dim := fun i => ⟨lo + i, by omega⟩
    let f₂ : Fin J'.dim → Fin J.dim := fun i => ⟨0 + i, by omega⟩
    have e1 : ∀ k, f (Fin.castAdd J'.dim k) = Fin.castAdd J.dim (f₁ k) := fun k => Fin.ext (hf _)
    have e2 : ∀ k, f (Fin.natAdd I'.dim k) = Fin.natAdd I.dim (f₂ k) := fun k => Fin.ext ((hf _).trans (by simp [f₂]; omega))
    revert i
    refine fun i => Fin.addCases (m := I'.dim) (n := J'.dim) (motive := fun i => ((Idx.sum I J).mat g h *ᵥ v) (f i) =
      ((Idx.sum I' J').mat g h *ᵥ (v ∘ f)) i) (fun i => ?_) (fun i => ?_) i
    · refine (congrArg (blockMat (I.mat g h) (J.mat g h) *ᵥ v) (e1 i)).trans ((blocks_left _ _ v _).trans ?_)
      refine Eq.trans ?_ (blocks_left (I'.mat g h) (J'.mat g h) (v ∘ f) i).symm
      rw [ih1 _ f₁ (fun _ => rfl)]
      refine congrArg (fun w => (I'.mat g h *ᵥ w) i) (funext fun k => ?_)
      exact congrArg v (e1 k).symm
    · refine (congrArg (blockMat (I.mat g h) (J.mat g h) *ᵥ v) (e2 i)).trans ((blocks_right _ _ v _).trans ?_)
      refine Eq.trans ?_ (blocks_right (I'.mat g h) (J'.mat g h) (v ∘ f) i).symm
      rw [ih2 _ f₂ (fun _ => rfl)]
      refine congrArg (fun w => (J'.mat g h *ᵥ w) i) (funext fun k => ?_)
      exact congrArg v (e2 k).symm

/-- The matrix transformed in its two indices. -/
def moved2 (g h : M2 K) (I J : Idx) (M : Matrix (Fin I.dim) (Fin J.dim) K) : Matrix (Fin I.dim) (Fin J.dim) K := I.mat g h * M * (J.mat g h)ᵀ

theorem moved2_transpose (I J : Idx) (M : Matrix (Fin I.dim) (Fin J.dim) K) : (moved2 g h I J M)ᵀ = moved2 g h J I Mᵀ := by
  simp [moved2, transpose_mul, Matrix.mul_assoc]

theorem moved2_rows {I : Idx} {lo : ℕ} {I' : Idx} (p : Part I lo I') (J : Idx) (M : Matrix (Fin I.dim) (Fin J.dim) K) (f : Fin I'.dim → Fin I.dim)
    (hf : ∀ i, (f i : ℕ) = lo + i) : (moved2 g h I J M).submatrix f id = moved2 g h I' J (M.submatrix f id) := by
  have key : ∀ (c : ℕ) (N : Matrix (Fin I.dim) (Fin c) K), (I.mat g h * N).submatrix f id = I'.mat g h * N.submatrix f id := by
    intro c N
    ext i j
    exact part_mulVec p (fun k => N k j) f hf i
  unfold moved2
  rw [Matrix.mul_assoc, key, Matrix.mul_assoc]
  rfl

/-- A part of an array transforms by itself. -/
theorem moved2_part {I J : Idx} {lo lo' : ℕ} {I' J' : Idx} (p : Part I lo I') (q : Part J lo' J') (M : Matrix (Fin I.dim) (Fin J.dim) K)
    (f : Fin I'.dim → Fin I.dim) (hf : ∀ i, (f i : ℕ) = lo + i) (f' : Fin J'.dim → Fin J.dim) (hf' : ∀ i, (f' i : ℕ) = lo' + i) :
    (moved2 g h I J M).submatrix f f' = moved2 g h I' J' (M.submatrix f f') := by
  have h1 := moved2_rows (g := g) (h := h) p J M f hf
  have h2 := moved2_rows (g := g) (h := h) q I' (M.submatrix f id)ᵀ f' hf'
  rw [← moved2_transpose, ← h1] at h2
  have h3 := congrArg transpose h2
  rw [moved2_transpose] at h3
  exact h3

omit [Field K] in
theorem arr_cast {r r' c : ℕ} (e : r = r') (M : Matrix (Fin r) (Fin c) K) : (⟨r, c, M⟩ : Arr K) = ⟨r', c, M.submatrix (Fin.cast e.symm) id⟩ := by
  subst e
  rfl

theorem matmul_moved (hg : g.det = 1) (hh : h.det = 1) (I J L : Idx) (M : Matrix (Fin I.dim) (Fin J.dim) K)
    (N : Matrix (Fin J.dual.dim) (Fin L.dim) K) :
    ∃ P, binVal .matmul (.arr ⟨I.dim, J.dim, M⟩) (.arr ⟨J.dual.dim, L.dim, N⟩) = .ok (.arr ⟨I.dim, L.dim, P⟩) ∧
      binVal .matmul (.arr ⟨I.dim, J.dim, moved2 g h I J M⟩) (.arr ⟨J.dual.dim, L.dim, moved2 g h J.dual L N⟩) =
        .ok (.arr ⟨I.dim, L.dim, moved2 g h I L P⟩) := by
  refine ⟨M * N.submatrix (Fin.cast (dim_dual J).symm) id, ?_, ?_⟩
  · rw [arr_cast (dim_dual J) N, binVal_matmul]
  · rw [arr_cast (dim_dual J) (moved2 g h J.dual L N), binVal_matmul]
    congr 3
    have e : (moved2 g h J.dual L N).submatrix (Fin.cast (dim_dual J).symm) id =
        (J.dual.mat g h).submatrix (Fin.cast (dim_dual J).symm) (Fin.cast (dim_dual J).symm) * N.submatrix (Fin.cast (dim_dual J).symm) id *
          (L.mat g h)ᵀ := by
      unfold moved2
      generalize J.dual.mat g h = A
      revert A N
      generalize_proofs pf
      revert pf
      generalize J.dual.dim = d
      intro pf N A
      subst pf
      rfl
    rw [e]
    unfold moved2
    have := mat_dual hg hh J
    simp only [Matrix.mul_assoc]
    congr 2
    rw [← Matrix.mul_assoc, this, Matrix.one_mul]

/-! ### Operators -/

/-- The values of two expressions correspond. -/
abbrev MovedE (g h : M2 K) (τ : ATy) : Except Err (PVal K) → Except Err (PVal K) → Prop := ERel (Moved g h τ)

omit [Field K] in
theorem arr_one (M : Matrix (Fin 1) (Fin 1) K) : (⟨1, 1, M⟩ : Arr K) = .const (M 0 0) := by
  unfold Arr.const
  congr 1
  funext i j
  rw [Subsingleton.elim i 0, Subsingleton.elim j 0]

/-- A number, perhaps as an array with one entry. -/
def NumShape (v : PVal K) : Prop := (∃ w, v = .sc w) ∨ ∃ x, v = .arr (.const x)

theorem NumShape.moved {v : PVal K} (hv : NumShape v) : Moved g h .num v v := by
  rcases hv with ⟨w, rfl⟩ | ⟨x, rfl⟩
  · exact .sc w
  · exact .one x

theorem moved_num {v v' : PVal K} (hm : Moved g h .num v v') : v' = v ∧ NumShape v := by
  cases hm with
  | other => exact ⟨rfl, .inl ⟨_, rfl⟩⟩
  | sc w => exact ⟨rfl, .inl ⟨_, rfl⟩⟩
  | one x => exact ⟨rfl, .inr ⟨_, rfl⟩⟩

omit [Field K] in
theorem asArr_num {r : Except Err (Arr K)} (hr : ∀ A, r = .ok A → ∃ x, A = .const x) {v : PVal K} (e : asArr r = .ok v) : NumShape v := by
  rcases r with x | A
  · cases e
  · cases e
    obtain ⟨x, rfl⟩ := hr A rfl
    exact .inr ⟨x, rfl⟩

theorem arrayOp_num (o : Bin) (x y : K) {v : PVal K} (e : arrayOp o (.const x) (.const y) = .ok v) : NumShape v := by
  have hz : ∀ f : K → K → K, Arr.zip f (.const x) (.const y) = .ok ⟨1, 1, fun _ _ => f x y⟩ := fun f =>
    zip_const_left (r := 1) (c := 1) f x fun _ _ => y
  have one : ∀ M : Matrix (Fin 1) (Fin 1) K, ∃ z, (⟨1, 1, M⟩ : Arr K) = .const z := fun M => ⟨_, arr_one M⟩
  cases o with
  | add => exact asArr_num (r := Arr.zip (· + ·) (.const x) (.const y)) (fun A hA => by rw [hz] at hA; cases hA; exact one _) e
  | sub => exact asArr_num (r := Arr.zip (· - ·) (.const x) (.const y)) (fun A hA => by rw [hz] at hA; cases hA; exact one _) e
  | mul => exact asArr_num (r := Arr.zip (· * ·) (.const x) (.const y)) (fun A hA => by rw [hz] at hA; cases hA; exact one _) e
  | div =>
    refine asArr_num (r := Arr.div (.const x) (.const y)) (fun A hA => ?_) e
    simp only [Arr.div, hz] at hA
    split at hA
    · cases hA
    · cases hA; exact one _
  | pow => cases e; exact .inl ⟨_, rfl⟩
  | matmul =>
    refine asArr_num (r := Arr.matmul (.const x) (.const y)) (fun A hA => ?_) e
    unfold Arr.matmul at hA
    split at hA
    · cases hA; exact one _
    · cases hA

theorem mixedOp_num_shape {o : Bin} {f : Arr K → Except Err (PVal K)} (hf : ∀ x v, f (.const x) = .ok v → NumShape v) {w : EVal K} {v : PVal K}
    (e : mixedOp o f w = .ok v) : NumShape v := by
  unfold mixedOp at e
  split at e
  · cases e; exact .inl ⟨_, rfl⟩
  · split at e
    · cases e
    · split at e
      · exact hf _ _ e
      · cases e

theorem binVal_num_shape (o : Bin) {v w u : PVal K} (hv : NumShape v) (hw : NumShape w) (e : binVal o v w = .ok u) : NumShape u := by
  rcases hv with ⟨x, rfl⟩ | ⟨x, rfl⟩ <;> rcases hw with ⟨y, rfl⟩ | ⟨y, rfl⟩
  · simp only [binVal] at e
    rcases hs : scalarOp o x y with z | z <;> rw [hs] at e
    · cases e
    · cases e; exact .inl ⟨_, rfl⟩
  · exact mixedOp_num_shape (o := o) (f := fun A => arrayOp o A (.const y)) (fun x v hx => arrayOp_num o x y hx) e
  · have hp : ∀ k, ∀ A, Arr.pow (.const x) k = .ok A → ∃ z, A = .const z := by
      intro k A hA
      unfold Arr.pow at hA
      split at hA
      · cases hA
      · cases hA; exact ⟨_, arr_one _⟩
    simp only [binVal] at e
    split at e
    · exact asArr_num (hp _) e
    · cases e; exact .inl ⟨_, rfl⟩
    · exact mixedOp_num_shape (fun y v hy => arrayOp_num o x y hy) e
  · exact arrayOp_num o x y e

theorem opNum_moved (o : Bin) {v v' w w' : PVal K} (hv : Moved g h .num v v') (hw : Moved g h .num w w') :
    MovedE g h .num (binVal o v w) (binVal o v' w') := by
  obtain ⟨rfl, h1⟩ := moved_num hv
  obtain ⟨rfl, h2⟩ := moved_num hw
  rcases hr : binVal o v' w' with e | u
  · rfl
  · exact (binVal_num_shape o h1 h2 hr).moved

theorem moved2_add (I J : Idx) (M N : Matrix (Fin I.dim) (Fin J.dim) K) : moved2 g h I J M + moved2 g h I J N = moved2 g h I J (M + N) := by
  simp only [moved2, Matrix.mul_add, Matrix.add_mul]

theorem moved2_sub (I J : Idx) (M N : Matrix (Fin I.dim) (Fin J.dim) K) : moved2 g h I J M - moved2 g h I J N = moved2 g h I J (M - N) := by
  simp only [moved2, Matrix.mul_sub, Matrix.sub_mul]

theorem moved2_smul (I J : Idx) (x : K) (M : Matrix (Fin I.dim) (Fin J.dim) K) : x • moved2 g h I J M = moved2 g h I J (x • M) := by
  simp only [moved2, Matrix.mul_smul, Matrix.smul_mul]

theorem moved2_neg (I J : Idx) (M : Matrix (Fin I.dim) (Fin J.dim) K) : -moved2 g h I J M = moved2 g h I J (-M) := by
  simp only [moved2, Matrix.mul_neg, Matrix.neg_mul]

theorem arr_other (o : Bin) (A : Arr K) : binVal o (.arr A) (.sc .other) = .ok (.sc .other) := by cases o <;> rfl
theorem other_arr (o : Bin) (A : Arr K) : binVal o (.sc .other) (.arr A) = .ok (.sc .other) := rfl
theorem other_other (o : Bin) : binVal (K := K) o (.sc .other) (.sc .other) = .ok (.sc .other) := by cases o <;> rfl

theorem zipped (f : K → K → K) (o : Bin) (ho : ∀ A B : Arr K, arrayOp o A B = asArr (A.zip f B)) {r c : ℕ} (M N : Matrix (Fin r) (Fin c) K) :
    binVal o (.arr ⟨r, c, M⟩) (.arr ⟨r, c, N⟩) = .ok (.arr ⟨r, c, fun i j => f (M i j) (N i j)⟩) := by
  change arrayOp o _ _ = _
  rw [ho, zip_same]
  rfl

theorem sum_moved {v v' w w' : PVal K} {I J : Idx} (hv : Moved g h (.arr I J) v v') (hw : Moved g h (.arr I J) w w') :
    MovedE g h (.arr I J) (binVal .add v w) (binVal .add v' w') ∧ MovedE g h (.arr I J) (binVal .sub v w) (binVal .sub v' w') := by
  cases hv with
  | other => cases hw <;> exact ⟨.other _, .other _⟩
  | arr _ _ M =>
    cases hw with
    | other => exact ⟨.other _, .other _⟩
    | arr _ _ N =>
      constructor
      · rw [zipped (· + ·) .add (fun _ _ => rfl), zipped (· + ·) .add (fun _ _ => rfl)]
        have e := moved2_add (g := g) (h := h) I J M N
        exact (congrArg (fun X => Moved g h (.arr I J) (.arr ⟨I.dim, J.dim, M + N⟩) (.arr ⟨I.dim, J.dim, X⟩)) e).mpr (.arr I J (M + N))
      · rw [zipped (· - ·) .sub (fun _ _ => rfl), zipped (· - ·) .sub (fun _ _ => rfl)]
        have e := moved2_sub (g := g) (h := h) I J M N
        exact (congrArg (fun X => Moved g h (.arr I J) (.arr ⟨I.dim, J.dim, M - N⟩) (.arr ⟨I.dim, J.dim, X⟩)) e).mpr (.arr I J (M - N))

theorem matmul_val (hg : g.det = 1) (hh : h.det = 1) {v v' w w' : PVal K} {I J L : Idx} (hv : Moved g h (.arr I J) v v')
    (hw : Moved g h (.arr J.dual L) w w') : MovedE g h (.arr I L) (binVal .matmul v w) (binVal .matmul v' w') := by
  cases hv with
  | other => cases hw <;> exact .other _
  | arr _ _ M =>
    cases hw with
    | other => exact .other _
    | arr _ _ N =>
      obtain ⟨P, h1, h2⟩ := matmul_moved hg hh I J L M N
      rw [h1]
      exact (congrArg (MovedE g h (.arr I L) _) h2).mpr (.arr I L P)

/-- A number times an array, an array times a number, an array over a number. -/
theorem mul_const_left (x : K) {r c : ℕ} (M : Matrix (Fin r) (Fin c) K) : arrayOp .mul (.const x) ⟨r, c, M⟩ = .ok (.arr ⟨r, c, x • M⟩) :=
  congrArg asArr (zip_const_left _ x M)

theorem mul_const_right (x : K) {r c : ℕ} (M : Matrix (Fin r) (Fin c) K) : arrayOp .mul ⟨r, c, M⟩ (.const x) = .ok (.arr ⟨r, c, x • M⟩) := by
  refine (congrArg asArr (zip_const_right _ x M)).trans ?_
  simp only [asArr]
  congr 3
  funext i j
  exact mul_comm _ _

theorem dim_pos (I : Idx) : 0 < I.dim := by
  induction I with
  | one => exact Nat.one_pos
  | lower => exact Nat.two_pos
  | upper => exact Nat.two_pos
  | sum I J h1 h2 => exact Nat.add_pos_left h1 _

open Classical in
theorem div_const (x : K) (I J : Idx) (M : Matrix (Fin I.dim) (Fin J.dim) K) :
    arrayOp .div ⟨I.dim, J.dim, M⟩ (.const x) = if x = 0 then .error .zeroDivision else .ok (.arr ⟨I.dim, J.dim, x⁻¹ • M⟩) := by
  split
  next hx =>
    subst hx
    have hz := zip_const_right (· / ·) (0 : K) M
    simp only [arrayOp, Arr.div, hz, spread_const, and_true]
    rw [if_pos ⟨0, dim_pos I, 0, dim_pos J⟩]
    rfl
  next hx =>
    refine (congrArg asArr (div_const_right x hx M)).trans ?_
    simp only [asArr]
    congr 3
    funext i j
    simp [div_eq_mul_inv, mul_comm]

theorem smul_moved (x : K) (I J : Idx) (M : Matrix (Fin I.dim) (Fin J.dim) K) :
    Moved g h (.arr I J) (.arr ⟨I.dim, J.dim, x • M⟩) (.arr ⟨I.dim, J.dim, x • moved2 g h I J M⟩) := by
  rw [moved2_smul]
  exact .arr I J _

theorem mixed_moved {o : Bin} {τ : ATy} {f f' : Arr K → Except Err (PVal K)} (hf : ∀ x, MovedE g h τ (f (.const x)) (f' (.const x))) (w : EVal K) :
    MovedE g h τ (mixedOp o f w) (mixedOp o f' w) := by
  unfold mixedOp
  split
  · exact .other _
  · split
    · rfl
    · split
      · exact hf _
      · rfl

theorem num_arr_moved {v v' w w' : PVal K} {I J : Idx} (hv : Moved g h .num v v') (hw : Moved g h (.arr I J) w w') :
    MovedE g h (.arr I J) (binVal .mul v w) (binVal .mul v' w') := by
  have key : ∀ x (M : Matrix (Fin I.dim) (Fin J.dim) K), MovedE g h (.arr I J) (arrayOp .mul (.const x) ⟨_, _, M⟩)
      (arrayOp .mul (.const x) ⟨_, _, moved2 g h I J M⟩) := by
    intro x M
    rw [mul_const_left, mul_const_left]
    exact smul_moved x I J M
  obtain ⟨rfl, ⟨x, rfl⟩ | ⟨x, rfl⟩⟩ := moved_num hv
  · cases hw with
    | other => rcases x with _ | _ | _ | _ <;> exact .other _
    | arr _ _ M => exact mixed_moved (o := .mul) (f := fun A => arrayOp .mul A _) (f' := fun A => arrayOp .mul A _) (fun y => key y M) x
  · cases hw with
    | other => exact .other _
    | arr _ _ M => exact key x M

theorem arr_num_moved {v v' w w' : PVal K} {I J : Idx} (hv : Moved g h (.arr I J) v v') (hw : Moved g h .num w w') :
    MovedE g h (.arr I J) (binVal .mul v w) (binVal .mul v' w') ∧ MovedE g h (.arr I J) (binVal .div v w) (binVal .div v' w') := by
  have key : ∀ x (M : Matrix (Fin I.dim) (Fin J.dim) K), MovedE g h (.arr I J) (arrayOp .mul ⟨_, _, M⟩ (.const x))
      (arrayOp .mul ⟨_, _, moved2 g h I J M⟩ (.const x)) := by
    intro x M
    rw [mul_const_right, mul_const_right]
    exact smul_moved x I J M
  have key' : ∀ x (M : Matrix (Fin I.dim) (Fin J.dim) K), MovedE g h (.arr I J) (arrayOp .div ⟨_, _, M⟩ (.const x))
      (arrayOp .div ⟨_, _, moved2 g h I J M⟩ (.const x)) := by
    intro x M
    rw [div_const, div_const]
    split
    · rfl
    · exact smul_moved _ I J M
  obtain ⟨rfl, ⟨x, rfl⟩ | ⟨x, rfl⟩⟩ := moved_num hw
  · cases hv with
    | other => rcases x with _ | _ | _ | _ <;> exact ⟨.other _, .other _⟩
    | arr _ _ M => exact ⟨mixed_moved (o := .mul) (f := arrayOp .mul _) (f' := arrayOp .mul _) (fun y => key y M) x,
        mixed_moved (o := .div) (f := arrayOp .div _) (f' := arrayOp .div _) (fun y => key' y M) x⟩
  · cases hv with
    | other => exact ⟨.other _, .other _⟩
    | arr _ _ M => exact ⟨key x M, key' x M⟩

/-! ### Blocks -/

theorem moved2_beside (I J L : Idx) (M : Matrix (Fin I.dim) (Fin J.dim) K) (N : Matrix (Fin I.dim) (Fin L.dim) K) :
    (fun i => Fin.append (moved2 g h I J M i) (moved2 g h I L N i)) =
      moved2 g h I (.sum J L) (fun i => Fin.append (M i) (N i) : Matrix (Fin I.dim) (Fin (J.dim + L.dim)) K) := by
  funext i j
  have hl := moved2_part (g := g) (h := h) (.whole I) (.left L (.whole J)) (fun i => Fin.append (M i) (N i) : Matrix (Fin I.dim) (Fin (J.dim + L.dim)) K)
    id (fun i => by simp) (Fin.castAdd L.dim) (fun i => by simp)
  have hr := moved2_part (g := g) (h := h) (.whole I) (.right J (.whole L)) (fun i => Fin.append (M i) (N i) : Matrix (Fin I.dim) (Fin (J.dim + L.dim)) K)
    id (fun i => by simp) (Fin.natAdd J.dim) (fun i => by simp)
  refine Fin.addCases (m := J.dim) (n := L.dim) (motive := fun j => Fin.append (moved2 g h I J M i) (moved2 g h I L N i) j =
      moved2 g h I (.sum J L) (fun i => Fin.append (M i) (N i) : Matrix (Fin I.dim) (Fin (J.dim + L.dim)) K) i j) (fun j => ?_) (fun j => ?_) j
  · rw [Fin.append_left]
    refine Eq.trans ?_ (congrFun (congrFun hl i) j).symm
    congr 1
    funext i j
    exact (Fin.append_left _ _ _).symm
  · rw [Fin.append_right]
    refine Eq.trans ?_ (congrFun (congrFun hr i) j).symm
    congr 1
    funext i j
    exact (Fin.append_right _ _ _).symm

theorem moved2_above (I I' J : Idx) (M : Matrix (Fin I.dim) (Fin J.dim) K) (N : Matrix (Fin I'.dim) (Fin J.dim) K) :
    (fun i j => Fin.append (fun k => moved2 g h I J M k j) (fun k => moved2 g h I' J N k j) i) =
      moved2 g h (.sum I I') J (fun i j => Fin.append (fun k => M k j) (fun k => N k j) i : Matrix (Fin (I.dim + I'.dim)) (Fin J.dim) K) := by
  have e := congrArg transpose (moved2_beside (g := g) (h := h) J I I' Mᵀ Nᵀ)
  refine Eq.trans ?_ (e.trans (moved2_transpose _ _ _))
  rw [← moved2_transpose, ← moved2_transpose]
  rfl

/-- Arrays with the same rows. -/
inductive Cols (g h : M2 K) (I : Idx) : List Idx → List (Arr K) → List (Arr K) → Prop
  | nil : Cols g h I [] [] []
  | cons {J Js As As'} (M : Matrix (Fin I.dim) (Fin J.dim) K) : Cols g h I Js As As' →
      Cols g h I (J :: Js) (⟨I.dim, J.dim, M⟩ :: As) (⟨I.dim, J.dim, moved2 g h I J M⟩ :: As')

/-- Arrays with the same columns. -/
inductive Rows (g h : M2 K) (J : Idx) : List Idx → List (Arr K) → List (Arr K) → Prop
  | nil : Rows g h J [] [] []
  | cons {I Is As As'} (M : Matrix (Fin I.dim) (Fin J.dim) K) : Rows g h J Is As As' →
      Rows g h J (I :: Is) (⟨I.dim, J.dim, M⟩ :: As) (⟨I.dim, J.dim, moved2 g h I J M⟩ :: As')

theorem join_cols {I J : Idx} {Js : List Idx} {As As' : List (Arr K)} (hc : Cols g h I (J :: Js) As As') :
    ∃ M, joinArrs Arr.beside As = .ok ⟨I.dim, (sumIdx J Js).dim, M⟩ ∧
      joinArrs Arr.beside As' = .ok ⟨I.dim, (sumIdx J Js).dim, moved2 g h I (sumIdx J Js) M⟩ := by
  induction Js generalizing J As As' with
  | nil =>
    cases hc with
    | cons M hc => cases hc; exact ⟨M, rfl, rfl⟩
  | cons L Ls ih =>
    cases hc with
    | cons M hc =>
      obtain ⟨N, h1, h2⟩ := ih hc
      refine ⟨(fun i => Fin.append (M i) (N i) : Matrix (Fin I.dim) (Fin (J.dim + (sumIdx L Ls).dim)) K), ?_, ?_⟩
      · cases hc
        simp only [joinArrs] at h1 ⊢
        rw [h1]
        exact join_beside M N
      · have e := moved2_beside (g := g) (h := h) I J (sumIdx L Ls) M N
        cases hc
        simp only [joinArrs] at h2 ⊢
        rw [h2]
        refine (join_beside _ _).trans ?_
        rw [e]
        rfl

theorem join_rows {J I : Idx} {Is : List Idx} {As As' : List (Arr K)} (hc : Rows g h J (I :: Is) As As') :
    ∃ M, joinArrs Arr.above As = .ok ⟨(sumIdx I Is).dim, J.dim, M⟩ ∧
      joinArrs Arr.above As' = .ok ⟨(sumIdx I Is).dim, J.dim, moved2 g h (sumIdx I Is) J M⟩ := by
  induction Is generalizing I As As' with
  | nil =>
    cases hc with
    | cons M hc => cases hc; exact ⟨M, rfl, rfl⟩
  | cons L Ls ih =>
    cases hc with
    | cons M hc =>
      obtain ⟨N, h1, h2⟩ := ih hc
      refine ⟨(fun i j => Fin.append (fun k => M k j) (fun k => N k j) i : Matrix (Fin (I.dim + (sumIdx L Ls).dim)) (Fin J.dim) K), ?_, ?_⟩
      · cases hc
        simp only [joinArrs] at h1 ⊢
        rw [h1]
        exact join_above M N
      · have e := moved2_above (g := g) (h := h) I (sumIdx L Ls) J M N
        cases hc
        simp only [joinArrs] at h2 ⊢
        rw [h2]
        refine (join_above _ _).trans ?_
        rw [e]
        rfl

/-- The elements of a list. -/
inductive Elems (g h : M2 K) (I : Idx) : List Idx → List (PVal K) → List (PVal K) → Prop
  | nil : Elems g h I [] [] []
  | cons {J Js v v' vs vs'} : Moved g h (.arr I J) v v' → Elems g h I Js vs vs' → Elems g h I (J :: Js) (v :: vs) (v' :: vs')

/-- The rows of a list of lists. -/
inductive ElemRows (g h : M2 K) (Js : List Idx) : List Idx → List (PVal K) → List (PVal K) → Prop
  | nil : ElemRows g h Js [] [] []
  | cons {I Is us us' vs vs'} : Elems g h I Js us us' → ElemRows g h Js Is vs vs' → ElemRows g h Js (I :: Is) (.list us :: vs) (.list us' :: vs')

theorem elems_arrs {I : Idx} {Js : List Idx} {vs vs' : List (PVal K)} (he : Elems g h I Js vs vs') :
    (arrsIn vs = none ∧ arrsIn vs' = none) ∨ ∃ As As', arrsIn vs = some As ∧ arrsIn vs' = some As' ∧ Cols g h I Js As As' := by
  induction he with
  | nil => exact .inr ⟨[], [], rfl, rfl, .nil⟩
  | cons hm _ ih =>
    cases hm with
    | other => exact .inl ⟨rfl, rfl⟩
    | arr _ _ M =>
      rcases ih with ⟨h1, h2⟩ | ⟨As, As', h1, h2, h3⟩
      · exact .inl ⟨by simp only [arrsIn, h1, Option.map_none], by simp only [arrsIn, h2, Option.map_none]⟩
      · exact .inr ⟨_, _, by simp only [arrsIn, h1, Option.map_some], by simp only [arrsIn, h2, Option.map_some]; rfl, .cons M h3⟩

theorem rows_lists {J : Idx} {Js Is : List Idx} {vs vs' : List (PVal K)} (he : ElemRows g h (J :: Js) Is vs vs') :
    (listsIn vs = none ∧ listsIn vs' = none) ∨ ∃ Ass Ass' As As', listsIn vs = some Ass ∧ listsIn vs' = some Ass' ∧
      allOk (Ass.map (joinArrs Arr.beside)) = .ok As ∧ allOk (Ass'.map (joinArrs Arr.beside)) = .ok As' ∧ Rows g h (sumIdx J Js) Is As As' := by
  induction he with
  | nil => exact .inr ⟨[], [], [], [], rfl, rfl, rfl, rfl, .nil⟩
  | cons hm _ ih =>
    rcases elems_arrs hm with ⟨k1, k2⟩ | ⟨Bs, Bs', k1, k2, k3⟩
    · exact .inl ⟨by simp only [listsIn, k1, Option.bind_none], by simp only [listsIn, k2, Option.bind_none]⟩
    rcases ih with ⟨h1, h2⟩ | ⟨Ass, Ass', As, As', h1, h2, h3, h4, h5⟩
    · exact .inl ⟨by simp only [listsIn, h1, k1, Option.bind_some, Option.map_none], by simp only [listsIn, k2, h2, Option.bind_some, Option.map_none]⟩
    · obtain ⟨M, j1, j2⟩ := join_cols k3
      exact .inr ⟨Bs :: Ass, Bs' :: Ass', _ :: As, _ :: As', by simp only [listsIn, h1, k1, Option.bind_some, Option.map_some],
        by simp only [listsIn, h2, k2, Option.bind_some, Option.map_some], by simp only [List.map_cons, j1, allOk, h3],
        by simp only [List.map_cons, j2, allOk, h4], .cons M h5⟩

theorem arr_moved (I J : Idx) (M : Matrix (Fin I.dim) (Fin J.dim) K) :
    Moved g h (.arr I J) (.arr ⟨I.dim, J.dim, M⟩) (.arr ⟨I.dim, J.dim, moved2 g h I J M⟩) := .arr I J M

theorem block_elems {I J : Idx} {Js : List Idx} {vs vs' : List (PVal K)} (he : Elems g h I (J :: Js) vs vs') :
    MovedE g h (.arr I (sumIdx J Js)) (blockVal (.list vs)) (blockVal (.list vs')) := by
  have hl : listsIn vs = none ∧ listsIn vs' = none := by
    cases he with
    | cons hm _ => cases hm <;> exact ⟨rfl, rfl⟩
  rcases elems_arrs he with ⟨h1, h2⟩ | ⟨As, As', h1, h2, h3⟩
  · simp only [blockVal, h1, h2, hl.1, hl.2]
    exact .other _
  · obtain ⟨M, j1, j2⟩ := join_cols h3
    simp only [blockVal, h1, h2, j1, j2]
    exact arr_moved I _ M

theorem block_rows {I J : Idx} {Is Js : List Idx} {vs vs' : List (PVal K)} (he : ElemRows g h (J :: Js) (I :: Is) vs vs') :
    MovedE g h (.arr (sumIdx I Is) (sumIdx J Js)) (blockVal (.list vs)) (blockVal (.list vs')) := by
  have hl : arrsIn vs = none ∧ arrsIn vs' = none := by
    cases he
    exact ⟨rfl, rfl⟩
  rcases rows_lists he with ⟨h1, h2⟩ | ⟨Ass, Ass', As, As', h1, h2, h3, h4, h5⟩
  · simp only [blockVal, h1, h2, hl.1, hl.2]
    exact .other _
  · obtain ⟨M, j1, j2⟩ := join_rows h5
    simp only [blockVal, h1, h2, hl.1, hl.2, h3, h4, j1, j2]
    exact arr_moved _ _ M

variable {leaf leaf' : List Char → Except Err (PVal K)}

theorem evalArrs_elems {I : Idx} {Js : List Idx} {es : List Node} (hl : es.length = Js.length)
    (he : ∀ p ∈ es.zip Js, MovedE g h (.arr I p.2) (evalArr leaf p.1) (evalArr leaf' p.1)) :
    ERel (Elems g h I Js) (evalArrs leaf es) (evalArrs leaf' es) := by
  induction es generalizing Js with
  | nil =>
    cases Js with
    | nil => exact .nil
    | cons => cases hl
  | cons a es ih =>
    cases Js with
    | nil => cases hl
    | cons J Js =>
      have h1 := he (a, J) (by simp)
      have h2 := ih (Js := Js) (by simpa using hl) (fun p hp => he p (by simp [hp]))
      simp only [evalArrs]
      rcases e1 : evalArr leaf a with x | x <;> rcases e2 : evalArr leaf' a with y | y <;> simp only [e1, e2] at h1
      · exact h1
      · cases h1
      · cases h1
      rcases e3 : evalArrs leaf es with xs | xs <;> rcases e4 : evalArrs leaf' es with ys | ys <;> simp only [e3, e4] at h2
      · exact h2
      · cases h2
      · cases h2
      · exact .cons h1 h2

theorem evalArrs_rows {Is Js : List Idx} {ess : List (List Node)} (hl : ess.length = Is.length) (hr : ∀ es ∈ ess, es.length = Js.length)
    (he : ∀ q ∈ ess.zip Is, ∀ p ∈ q.1.zip Js, MovedE g h (.arr q.2 p.2) (evalArr leaf p.1) (evalArr leaf' p.1)) :
    ERel (ElemRows g h Js Is) (evalArrs leaf (ess.map .list)) (evalArrs leaf' (ess.map .list)) := by
  induction ess generalizing Is with
  | nil =>
    cases Is with
    | nil => exact .nil
    | cons => cases hl
  | cons a es ih =>
    cases Is with
    | nil => cases hl
    | cons I Is =>
      have h1 := evalArrs_elems (hr a (by simp)) (he (a, I) (by simp))
      have h2 := ih (Is := Is) (by simpa using hl) (fun es hes => hr es (by simp [hes])) (fun p hp => he p (by simp [hp]))
      simp only [List.map_cons, evalArrs, evalArr]
      rcases e1 : evalArrs leaf a with x | x <;> rcases e2 : evalArrs leaf' a with y | y <;> simp only [e1, e2] at h1
      · exact h1
      · cases h1
      · cases h1
      rcases e3 : evalArrs leaf (es.map .list) with xs | xs <;> rcases e4 : evalArrs leaf' (es.map .list) with ys | ys <;> simp only [e3, e4] at h2
      · exact h2
      · cases h2
      · cases h2
      · exact .cons h1 h2

/-! ### Expressions -/

theorem eps_moved (A : M2 K) (hA : A.det = 1) : A * !![0, 1; -1, 0] * Aᵀ = !![0, 1; -1, 0] := by
  rw [det_fin_two] at hA
  ext i j
  fin_cases i <;> fin_cases j <;> simp [mul_apply, Fin.sum_univ_two] <;>
    first | ring1 | linear_combination hA | linear_combination -hA

theorem part_one {I : Idx} {lo : ℕ} (p : Part I lo .one) (hlt : lo < I.dim) (v : Fin I.dim → K) : (I.mat g h *ᵥ v) ⟨lo, hlt⟩ = v ⟨lo, hlt⟩ := by
  have e := part_mulVec (g := g) (h := h) p v (fun _ => ⟨lo, hlt⟩) (fun i => by have := i.2; simp only [Idx.dim] at this; simp only; omega) (0 : Fin 1)
  exact e.trans (congrFun (one_mulVec (fun _ : Fin 1 => v ⟨lo, hlt⟩)) 0)

theorem part_entry {I J : Idx} {p q : ℕ} (hp : Part I p .one) (hq : Part J q .one) (M : Matrix (Fin I.dim) (Fin J.dim) K) (hi : p < I.dim) (hj : q < J.dim) :
    (I.mat g h * M * (J.mat g h)ᵀ) ⟨p, hi⟩ ⟨q, hj⟩ = M ⟨p, hi⟩ ⟨q, hj⟩ := by
  rw [Matrix.mul_assoc]
  refine (part_one hp hi fun k => (M * (J.mat g h)ᵀ) k ⟨q, hj⟩).trans ?_
  have e := part_one (g := g) (h := h) hq hj (M ⟨p, hi⟩)
  refine Eq.trans ?_ e
  simp only [mul_apply, mulVec, dotProduct, transpose_apply]
  exact Finset.sum_congr rfl fun k _ => mul_comm _ _

theorem moved2_one (N : Matrix (Fin 1) (Fin 1) K) : moved2 g h .one .one N = N := by
  refine (show (1 : Matrix (Fin 1) (Fin 1) K) * N * (1 : Matrix (Fin 1) (Fin 1) K)ᵀ = N from ?_)
  rw [Matrix.one_mul, transpose_one, Matrix.mul_one]

theorem moved_of_eq {I J : Idx} {M N : Matrix (Fin I.dim) (Fin J.dim) K} (e : I.mat g h * M * (J.mat g h)ᵀ = N) :
    Moved g h (.arr I J) (.arr ⟨I.dim, J.dim, M⟩) (.arr ⟨I.dim, J.dim, N⟩) := by
  subst e
  exact .arr I J M

theorem moved_step {τ τ' : ATy} {r r' : Except Err (PVal K)} {f f' : PVal K → Except Err (PVal K)} : MovedE g h τ r r' →
    (∀ v v', Moved g h τ v v' → MovedE g h τ' (f v) (f' v')) →
    MovedE g h τ' (match r with | .error e => .error e | .ok x => f x) (match r' with | .error e => .error e | .ok x => f' x) := by
  intro hr hf
  rcases r with e | x <;> rcases r' with e' | y
  · exact hr
  · cases hr
  · cases hr
  · exact hf x y hr

theorem cut_moved {I J : Idx} {lo lo' : ℕ} {I' J' : Idx} (p : Part I lo I') (q : Part J lo' J') (M : Matrix (Fin I.dim) (Fin J.dim) K) {b d : ℕ}
    (hb : b = lo + I'.dim) (hd : d = lo' + J'.dim) :
    Moved g h (.arr I' J') (.arr (Arr.cut ⟨I.dim, J.dim, M⟩ lo b lo' d)) (.arr (Arr.cut ⟨I.dim, J.dim, moved2 g h I J M⟩ lo b lo' d)) := by
  have hp := part_le p
  have hq := part_le q
  let f : Fin I'.dim → Fin I.dim := fun i => ⟨lo + i, by omega⟩
  let f' : Fin J'.dim → Fin J.dim := fun i => ⟨lo' + i, by omega⟩
  have key : ∀ N : Matrix (Fin I.dim) (Fin J.dim) K, Arr.cut ⟨I.dim, J.dim, N⟩ lo b lo' d = ⟨I'.dim, J'.dim, N.submatrix f f'⟩ := by
    intro N
    rw [cut_eq _ (k := I'.dim) (k' := J'.dim) (by omega) (by omega)]
    congr 1
    funext i j
    exact entry_get N (f i) (f' j)
  rw [key, key, moved2_part p q M f (fun _ => rfl) f' (fun _ => rfl)]
  exact arr_moved _ _ _

/-- C125: an expression in which only fitting indices are contracted and only equal ones added transforms as its indices say, if the
names do: it raises the same exceptions, its numbers stay, its arrays are multiplied by the matrices of their indices. -/
theorem C125_covariant (hg : g.det = 1) (hh : h.det = 1) (env : List Char → Option ATy) (leaf leaf' : List Char → Except Err (PVal K))
    (hl : ∀ t τ, env t = some τ → ERel (Moved g h τ) (leaf t) (leaf' t)) {a : Node} {τ : ATy} (ht : Typed env a τ) :
    ERel (Moved g h τ) (evalArr leaf a) (evalArr leaf' a) := by
  have adj : ∀ A : M2 K, A.det = 1 → A.adjugate.det = 1 := fun A hA => by rw [det_adjugate, hA, one_pow]
  induction ht with
  | num k => simp only [evalArr]; exact .sc _
  | fraction a b =>
    simp only [evalArr]
    split
    · rfl
    · exact .sc _
  | name t τ ht => simp only [evalArr]; exact hl t τ ht
  | epsLower b =>
    simp only [evalArr, or_true, if_true]
    have e : moved2 g h (.lower b) (.lower b) (!![0, 1; -1, 0] : M2 K) = (!![0, 1; -1, 0] : M2 K) := by
      cases b
      · exact eps_moved _ (adj h hh)
      · exact eps_moved _ hg
    exact (congrArg (fun X => Moved g h (.arr (.lower b) (.lower b)) (.arr epsArr) (.arr ⟨2, 2, X⟩)) e.symm).mpr (.arr (.lower b) (.lower b) _)
  | epsUpper b =>
    simp only [evalArr, or_true, if_true]
    have e : moved2 g h (.upper b) (.upper b) (!![0, 1; -1, 0] : M2 K) = (!![0, 1; -1, 0] : M2 K) := by
      cases b
      · exact eps_moved hᵀ (by rw [det_transpose, hh])
      · exact eps_moved g.adjugateᵀ (by rw [det_transpose, adj g hg])
    exact (congrArg (fun X => Moved g h (.arr (.upper b) (.upper b)) (.arr epsArr) (.arr ⟨2, 2, X⟩)) e.symm).mpr (.arr (.upper b) (.upper b) _)
  | epsSpin =>
    simp only [evalArr, or_true, if_true]
    have one : blockMat (1 : Matrix (Fin 1) (Fin 1) K) (1 : Matrix (Fin 1) (Fin 1) K) = 1 := by
      unfold blockMat
      rw [fromBlocks_one]
      exact submatrix_one_equiv _
    have e : blockMat (1 : Matrix (Fin 1) (Fin 1) K) (1 : Matrix (Fin 1) (Fin 1) K) * (!![0, 1; -1, 0] : M2 K) *
        (blockMat (1 : Matrix (Fin 1) (Fin 1) K) (1 : Matrix (Fin 1) (Fin 1) K))ᵀ = (!![0, 1; -1, 0] : M2 K) := by
      rw [one, Matrix.one_mul, transpose_one, Matrix.mul_one]
    exact moved_of_eq (I := .sum .one .one) (J := .sum .one .one) e
  | @ofOne a _ ih =>
    rcases e1 : evalArr leaf a with x | x <;> rcases e2 : evalArr leaf' a with y | y <;> rw [e1, e2] at ih
    · exact ih
    · cases ih
    · cases ih
    cases ih with
    | other => exact .other _
    | arr _ _ M =>
      have e' : (⟨1, 1, moved2 g h .one .one M⟩ : Arr K) = ⟨1, 1, M⟩ := congrArg (fun X => (⟨1, 1, X⟩ : Arr K)) (moved2_one M)
      exact (congrArg₂ (fun A B => Moved g h .num (.arr A) (.arr B)) (arr_one M) (e'.trans (arr_one M))).mpr (.one _)
  | neg _ ih =>
    simp only [evalArr]
    refine moved_step ih ?_
    intro v v' hm
    cases hm with
    | other => exact .other _
    | sc w => exact .sc _
    | one x =>
      have e : (Arr.const x).neg = .const (-x) := arr_one _
      change Moved g h .num (.arr (Arr.const x).neg) (.arr (Arr.const x).neg)
      rw [e]
      exact .one _
    | arr I J M =>
      change Moved g h (.arr I J) (.arr ⟨I.dim, J.dim, -M⟩) (.arr ⟨I.dim, J.dim, -moved2 g h I J M⟩)
      rw [moved2_neg]
      exact .arr I J _
  | pos _ ih =>
    simp only [evalArr]
    refine moved_step ih ?_
    intro v v' hm
    cases hm with
    | other => exact .other _
    | sc w => exact .sc _
    | one x => exact .one x
    | arr I J M => exact .arr I J M
  | opNum o _ _ iha ihb =>
    simp only [evalArr]
    exact moved_step iha fun v v' hv => moved_step ihb fun w w' hw => opNum_moved o hv hw
  | addArr _ _ iha ihb =>
    simp only [evalArr]
    exact moved_step iha fun v v' hv => moved_step ihb fun w w' hw => (sum_moved hv hw).1
  | subArr _ _ iha ihb =>
    simp only [evalArr]
    exact moved_step iha fun v v' hv => moved_step ihb fun w w' hw => (sum_moved hv hw).2
  | matmul _ _ iha ihb =>
    simp only [evalArr]
    exact moved_step iha fun v v' hv => moved_step ihb fun w w' hw => matmul_val hg hh hv hw
  | numArr _ _ iha ihb =>
    simp only [evalArr]
    exact moved_step iha fun v v' hv => moved_step ihb fun w w' hw => num_arr_moved hv hw
  | arrNum _ _ iha ihb =>
    simp only [evalArr]
    exact moved_step iha fun v v' hv => moved_step ihb fun w w' hw => (arr_num_moved hv hw).1
  | divNum _ _ iha ihb =>
    simp only [evalArr]
    exact moved_step iha fun v v' hv => moved_step ihb fun w w' hw => (arr_num_moved hv hw).2
  | @transpose a I J _ ih =>
    simp only [evalArr]
    refine moved_step ih ?_
    intro v v' hm
    cases hm with
    | other => exact .other _
    | arr _ _ M =>
      change Moved g h (.arr J I) (.arr ⟨J.dim, I.dim, Mᵀ⟩) (.arr ⟨J.dim, I.dim, (moved2 g h I J M)ᵀ⟩)
      rw [moved2_transpose]
      exact .arr J I _
  | @beside I J Js es hlen _ ih =>
    have hv := evalArrs_elems hlen ih
    simp only [evalArr]
    rcases e1 : evalArrs leaf es with x | x <;> rcases e2 : evalArrs leaf' es with y | y <;> rw [e1, e2] at hv
    · exact hv
    · cases hv
    · cases hv
    · exact block_elems hv
  | @blocks I Is J Js ess hlen hrow _ ih =>
    have hv := evalArrs_rows hlen hrow ih
    simp only [evalArr]
    rcases e1 : evalArrs leaf (ess.map .list) with x | x <;> rcases e2 : evalArrs leaf' (ess.map .list) with y | y <;> rw [e1, e2] at hv
    · exact hv
    · cases hv
    · cases hv
    · exact block_rows hv
  | @rows a I J I' ix lo _ p hx ih =>
    simp only [evalArr]
    refine moved_step ih ?_
    obtain ⟨l, u, rfl, e1, e2⟩ := covers_bounds hx
    intro v v' hm
    cases hm with
    | other => exact .other _
    | arr _ _ M =>
      simp only [subscriptVal, e1, e2]
      exact cut_moved p (.whole J) M rfl (by simp)
  | @cut a I J I' J' ix iy lo lo' _ p hx q hy ih =>
    simp only [evalArr]
    refine moved_step ih ?_
    obtain ⟨l, u, rfl, e1, e2⟩ := covers_bounds hx
    obtain ⟨l', u', rfl, e3, e4⟩ := covers_bounds hy
    intro v v' hm
    cases hm with
    | other => exact .other _
    | arr _ _ M =>
      simp only [subscriptVal, e1, e2, e3, e4]
      exact cut_moved p q M rfl rfl
  | @entry a I J i j p q _ hp hi hq hj ih =>
    have kp := part_le hp
    have kq := part_le hq
    simp only [Idx.dim] at kp kq
    rcases e1 : evalArr leaf a with x | x <;> rcases e2 : evalArr leaf' a with y | y <;> rw [e1, e2] at ih
    · simp only [evalArr, e1, e2]; exact ih
    · cases ih
    · cases ih
    cases ih with
    | other => simp only [evalArr, e1, e2]; exact .other _
    | arr _ _ M =>
      rw [(C106_entry leaf a M e1 i j).1 p q hi hj (by omega) (by omega), (C106_entry leaf' a _ e2 i j).1 p q hi hj (by omega) (by omega)]
      rw [part_entry hp hq]
      exact .sc _

/-! ### Names -/

theorem upper_mat (b : Bool) : ((Idx.upper b).mat g h)ᵀ = lorR g h b := by
  cases b
  · exact transpose_transpose h
  · exact (transpose_transpose g.adjugate).trans (flip2_eq_adjugate g).symm

theorem lower_mat (b : Bool) : (Idx.lower b).mat g h = lorL g h b := by
  cases b
  · exact (flip2_eq_adjugate h).symm
  · rfl

theorem row_moved (b : Bool) (u : V2 K) : Moved g h (.arr .one (.upper b)) (.arr (rowArr u)) (.arr (rowArr (vecMul u (lorR g h b)))) := by
  refine moved_of_eq (I := .one) (J := .upper b) (M := fun _ j => u j) (N := fun _ j => vecMul u (lorR g h b) j) ?_
  rw [upper_mat]
  have e : (1 : Matrix (Fin 1) (Fin 1) K) * (Matrix.of fun (_ : Fin 1) j => u j) * lorR g h b = Matrix.of fun _ j => vecMul u (lorR g h b) j := by
    rw [Matrix.one_mul]
    rfl
  exact e

theorem col_moved (b : Bool) (w : V2 K) : Moved g h (.arr (.lower b) .one) (.arr (colArr w)) (.arr (colArr ((lorL g h b).mulVec w))) := by
  refine moved_of_eq (I := .lower b) (J := .one) (M := fun i _ => w i) (N := fun i _ => (lorL g h b).mulVec w i) ?_
  rw [lower_mat]
  have e : lorL g h b * (Matrix.of fun i (_ : Fin 1) => w i) * (1 : Matrix (Fin 1) (Fin 1) K)ᵀ = Matrix.of fun i _ => (lorL g h b).mulVec w i := by
    rw [transpose_one, Matrix.mul_one]
    rfl
  exact e

theorem mat_moved (b b' : Bool) (M : M2 K) : Moved g h (.arr (.lower b) (.upper b')) (.arr ⟨2, 2, M⟩) (.arr ⟨2, 2, lorL g h b * M * lorR g h b'⟩) := by
  refine moved_of_eq (I := .lower b) (J := .upper b') (M := M) (N := lorL g h b * M * lorR g h b') ?_
  rw [upper_mat, lower_mat]
  rfl

variable {n : ℕ}

/-- What a form stands for, as in `leafArr`. -/
def formLeaf (ps : Point K n) (fuel : ℕ) (f : Form) : Except Err (PVal K) :=
  match evalForm ps fuel f with
  | some (.ok v) => .ok (shaped f v)
  | some (.error e) => .error e
  | none => .error .notImplemented

omit [Field K] in
theorem asNum_num {r : Except Err K} {v : Val K} (e : asNum r = .ok v) : ∃ x, v = .num x := by
  rcases r with x | x
  · cases e
  · cases e; exact ⟨x, rfl⟩

theorem evalForm_num (ps : Point K n) (fuel : ℕ) (f : Form) (hf : f.indices = some .num) (v : Val K) (e : evalForm ps fuel f = some (.ok v)) :
    ∃ x, v = .num x := by
  have short : ∀ {α : Type} {x : Option α} {G : α → Except Err (Val K)}, (∀ r w, G r = .ok w → ∃ x, w = .num x) → x.map G = some (.ok v) →
      ∃ x, v = .num x := by
    intro α x G hG he
    rcases x with _ | r
    · cases he
    · exact hG r v (Option.some.inj he)
  cases f with
  | tr5 m =>
    simp only [evalForm] at e
    rcases hr : evalTr5 ps m with _ | r <;> rw [hr] at e
    · cases e
    · exact asNum_num (Option.some.inj e)
  | tr es =>
    simp only [evalForm] at e
    rcases hr : readSlots n es with r | r <;> rw [hr] at e <;> cases e
    exact ⟨_, rfl⟩
  | omega ds =>
    rw [evalForm] at e
    refine short (fun r w hw => ?_) e
    split at hw
    · exact asNum_num hw
    · cases hw
  | pi ds =>
    rw [evalForm] at e
    refine short (fun r w hw => ?_) e
    split at hw
    · exact asNum_num hw
    · cases hw
  | delta cs =>
    rcases cs with _ | ⟨ds, _ | ⟨d, cs⟩⟩
    · exact asNum_num (Option.some.inj e)
    · rw [evalForm] at e
      refine short (fun r w hw => ?_) e
      split at hw <;> cases hw
      exact ⟨_, rfl⟩
    · exact asNum_num (Option.some.inj e)
  | d5 =>
    simp only [evalForm, Option.some.injEq] at e
    split at e <;> cases e
    exact ⟨_, rfl⟩
  | massOf t =>
    simp only [evalForm, Option.some.injEq] at e
    split at e <;> cases e
    exact ⟨_, rfl⟩
  | mandelstam t =>
    simp only [evalForm, Option.some.injEq] at e
    split at e <;> cases e
    exact ⟨_, rfl⟩
  | angle a b =>
    simp only [evalForm, Option.some.injEq] at e
    split at e
    · exact asNum_num e
    · cases e
    · cases e
  | square a b =>
    simp only [evalForm, Option.some.injEq] at e
    split at e
    · exact asNum_num e
    · cases e
    · cases e
  | string o a ms d c => exact asNum_num (Option.some.inj e)
  | Au a => cases hf
  | Ad a => cases hf
  | Su a => cases hf
  | Sd a => cases hf
  | openBegin ms d c => simp only [Form.indices] at hf; split at hf <;> cases hf
  | openEnd o a ms => cases hf
  | doubleOpen ms => cases hf
  | internalMass t => cases hf
  | expression => cases hf

theorem indices_closed {f : Form} {τ : ATy} (hf : f.indices = some τ) : f.Closed := by
  cases f with
  | tr es =>
    simp only [Form.indices] at hf
    split at hf
    · assumption
    · cases hf
  | string o a ms d c =>
    simp only [Form.indices] at hf
    split at hf
    next hc => exact fun ho => hc.resolve_left ho
    · cases hf
  | _ => exact trivial

namespace LorentzImage

variable {c : Ctx K} {ps ps' : Point K n}

theorem formLeaf_num (H : LorentzImage c g h ps ps') (hs : SpinorsOrNone ps ps') (fuel : ℕ) (f : Form) (hf : f.indices = some .num) :
    MovedE g h .num (formLeaf ps fuel f) (formLeaf ps' fuel f) := by
  have same := H.evalForm_same hs fuel f (indices_closed hf)
  have n1 := evalForm_num ps fuel f hf
  have n2 := evalForm_num ps' fuel f hf
  unfold formLeaf
  rcases e1 : evalForm ps fuel f with _ | x | x <;> rcases e2 : evalForm ps' fuel f with _ | y | y <;> rw [e1, e2] at same
  · rfl
  · cases same
  · cases same
  · cases same
  · exact same.symm
  · cases same
  · cases same
  · cases same
  · obtain ⟨a, rfl⟩ := n1 x e1
    obtain ⟨b, rfl⟩ := n2 y e2
    have : b = a := Option.some.inj same
    subst this
    have sh : shaped f (.num b : Val K) = .sc (.fld b) := by unfold shaped; cases f <;> rfl
    simp only [sh]
    exact .sc _

theorem inv (H : LorentzImage c g h ps ps') (b : Bool) : lorR g h b * lorL g h b = 1 := by
  cases b
  · exact (flip2_mul_self h H.det_h).2
  · exact (flip2_mul_self g H.det_g).1

theorem r_u (H : LorentzImage c g h ps ps') {a : Fin n} {r l : V2 K} (ha : HasSpinors c (ps a) r l) :
    (ps' a).r_u = some (vecMul ![r 1, -r 0] (lorR g h true)) := by
  rw [(H.hasSpinors ha).r_u, raise_mulVec g H.det_g]
  rfl

theorem l_u (H : LorentzImage c g h ps ps') {a : Fin n} {r l : V2 K} (ha : HasSpinors c (ps a) r l) :
    (ps' a).l_u = some ((lorL g h false).mulVec ![l 1, -l 0]) := by
  rw [(H.hasSpinors ha).l_u, raise_vecMul h H.det_h]
  rfl

/-- A spinor that is there is moved, one that is not stays away. -/
theorem spinor_leaf {τ : ATy} {f : Form} {o o' : Option (V2 K)} (hn : shaped f (.spinor none : Val K) = .sc .other)
    (hso : (o = none ∧ o' = none) ∨ ∃ v v', o = some v ∧ o' = some v' ∧ Moved g h τ (shaped f (.spinor (some v))) (shaped f (.spinor (some v')))) :
    Moved g h τ (shaped f (.spinor o)) (shaped f (.spinor o')) := by
  rcases hso with ⟨rfl, rfl⟩ | ⟨v, v', rfl, rfl, hm⟩
  · rw [hn]; exact .other _
  · exact hm

/-- What a name stands for transforms as its indices say. -/
theorem formLeaf_moved (H : LorentzImage c g h ps ps') (hs : SpinorsOrNone ps ps') (fuel : ℕ) (f : Form) (τ : ATy) (hf : f.indices = some τ) :
    MovedE g h τ (formLeaf ps fuel f) (formLeaf ps' fuel f) := by
  cases f with
  | Au a =>
    cases hf
    simp only [formLeaf, evalForm]
    rcases readLabel n a with e | a
    · rfl
    refine spinor_leaf rfl ?_
    rcases H.cases hs a with ⟨r, l, ha⟩ | ⟨ha, ha'⟩
    · exact .inr ⟨_, _, ha.r_u, H.r_u ha, row_moved true _⟩
    · exact .inl ⟨ha.2.1, ha'.2.1⟩
  | Ad a =>
    cases hf
    simp only [formLeaf, evalForm]
    rcases readLabel n a with e | a
    · rfl
    refine spinor_leaf rfl ?_
    rcases H.cases hs a with ⟨r, l, ha⟩ | ⟨ha, ha'⟩
    · exact .inr ⟨_, _, ha.r_d, (H.hasSpinors ha).r_d, col_moved true _⟩
    · exact .inl ⟨ha.1, ha'.1⟩
  | Su a =>
    cases hf
    simp only [formLeaf, evalForm]
    rcases readLabel n a with e | a
    · rfl
    refine spinor_leaf rfl ?_
    rcases H.cases hs a with ⟨r, l, ha⟩ | ⟨ha, ha'⟩
    · exact .inr ⟨_, _, ha.l_u, H.l_u ha, col_moved false _⟩
    · exact .inl ⟨ha.2.2.2, ha'.2.2.2⟩
  | Sd a =>
    cases hf
    simp only [formLeaf, evalForm]
    rcases readLabel n a with e | a
    · rfl
    refine spinor_leaf rfl ?_
    rcases H.cases hs a with ⟨r, l, ha⟩ | ⟨ha, ha'⟩
    · exact .inr ⟨_, _, ha.l_d, (H.hasSpinors ha).l_d, row_moved false _⟩
    · exact .inl ⟨ha.2.2.1, ha'.2.2.1⟩
  | openEnd o a ms =>
    cases hf
    simp only [formLeaf, evalForm]
    rcases readLabel n a with e | a
    · rfl
    rcases hr : readSlots n ms with e | ks
    · rfl
    simp only [computeOpenEnd]
    rw [← readSlots_length hr]
    have key : ∀ b u, Moved g h (.arr .one (.upper (afterSlots b ks.length))) (.arr (rowArr (vecMul u (Lips.chain ps b ks))))
        (.arr (rowArr (vecMul (vecMul u (lorR g h b)) (Lips.chain ps' b ks)))) := by
      intro b u
      have e : vecMul (vecMul u (lorR g h b)) (Lips.chain ps' b ks) = vecMul (vecMul u (Lips.chain ps b ks)) (lorR g h (afterSlots b ks.length)) := by
        rw [H.chain, vecMul_vecMul, vecMul_vecMul, ← Matrix.mul_assoc, ← Matrix.mul_assoc, H.inv, Matrix.one_mul]
        rfl
      rw [e]
      exact row_moved _ _
    rcases H.need_left hs a o with ⟨r, l, ha⟩ | ⟨ha, ha'⟩
    · by_cases ho : o = '⟨'
      · simp only [ho, if_true, ha.r_u, H.r_u ha, need_some, decide_true]
        exact key true _
      · simp only [ho, if_false, ha.l_d, (H.hasSpinors ha).l_d, need_some, decide_false]
        exact key false _
    · rw [ha, ha']
      rfl
  | openBegin ms d e =>
    simp only [Form.indices] at hf
    split at hf
    next he =>
      cases hf
      simp only [formLeaf, evalForm]
      rcases hr : readSlots n ms with x | ks
      · rfl
      rcases readLabel n d with x | d
      · rfl
      simp only [computeOpenBegin]
      rw [← readSlots_length hr]
      have key : ∀ b w, Moved g h (.arr (.lower (afterSlots b ks.length)) .one) (.arr (colArr ((Lips.chain ps (afterSlots b ks.length) ks).mulVec w)))
          (.arr (colArr ((Lips.chain ps' (afterSlots b ks.length) ks).mulVec ((lorL g h b).mulVec w)))) := by
        intro b w
        have hb : typeAfter (afterSlots b ks.length) ks.length = b := by
          unfold typeAfter afterSlots
          rcases Nat.mod_two_eq_zero_or_one ks.length with hm | hm <;> simp [hm]
        have e : (Lips.chain ps' (afterSlots b ks.length) ks).mulVec ((lorL g h b).mulVec w) =
            (lorL g h (afterSlots b ks.length)).mulVec ((Lips.chain ps (afterSlots b ks.length) ks).mulVec w) := by
          rw [H.chain, hb, mulVec_mulVec, mulVec_mulVec, Matrix.mul_assoc, H.inv, Matrix.mul_one]
        rw [e]
        exact col_moved _ _
      have hbar : decide ((e = '⟩' ∧ ks.length % 2 = 0) ∨ (e = ']' ∧ ks.length % 2 = 1)) = afterSlots (e = '⟩') ks.length := by
        unfold afterSlots
        rcases he with rfl | rfl <;> rcases Nat.mod_two_eq_zero_or_one ks.length with hm | hm <;> simp [hm]
      rw [hbar]
      rcases H.need_right hs d e with ⟨r, l, hd⟩ | ⟨hd, hd'⟩
      · by_cases ho : e = '⟩'
        · simp only [ho, if_true, hd.r_d, (H.hasSpinors hd).r_d, need_some, decide_true]
          exact key true _
        · simp only [ho, if_false, hd.l_u, H.l_u hd, need_some, decide_false]
          exact key false _
      · rw [hd, hd']
        rfl
    · cases hf
  | doubleOpen ms =>
    cases hf
    simp only [formLeaf, evalForm]
    rcases hr : readSlots n ms with e | ks
    · rfl
    rw [← readSlots_length hr]
    simp only [computeDoubleOpen]
    rw [H.chain]
    exact mat_moved true _ _
  | tr es =>
    have : τ = .num := by simp only [Form.indices] at hf; split at hf <;> cases hf; rfl
    subst this
    exact H.formLeaf_num hs fuel _ hf
  | string o a ms d c =>
    have : τ = .num := by simp only [Form.indices] at hf; split at hf <;> cases hf; rfl
    subst this
    exact H.formLeaf_num hs fuel _ hf
  | internalMass t => cases hf
  | expression => cases hf
  | tr5 | omega | pi | delta | d5 | massOf | mandelstam | angle | square =>
    cases hf
    exact H.formLeaf_num hs fuel _ rfl

end LorentzImage

/-- The kinds of the names are those of the forms of their texts. -/
theorem leafArr_moved {c : Ctx K} {ps ps' : Point K n} (H : LorentzImage c g h ps ps') (hs : SpinorsOrNone ps ps') (fuel : ℕ) (t : List Char)
    (τ : ATy) (ht : nameIndices t = some τ) : MovedE g h τ (leafArr ps fuel t) (leafArr ps' fuel t) := by
  unfold nameIndices at ht
  unfold leafArr
  rcases hr : rsubsDict t boldDigits with e | u <;> rw [hr] at ht
  · cases ht
  · exact H.formLeaf_moved hs fuel (classify u) τ ht

theorem dim_one {I : Idx} (e : I.dim = 1) : I = .one := by
  cases I with
  | one => rfl
  | lower b => simp [Idx.dim] at e
  | upper b => simp [Idx.dim] at e
  | sum I J =>
    have h1 := dim_pos I
    have h2 := dim_pos J
    simp only [Idx.dim] at e
    omega

/-- C125: what `compute` makes of an expression with open indices transforms as its indices say. -/
theorem C125_compute {c : Ctx K} {ps ps' : Point K n} (H : LorentzImage c g h ps ps') (hs : SpinorsOrNone ps ps') (fuel : ℕ) {a : Node} {I J : Idx}
    (ht : Typed nameIndices a (.arr I J)) (hIJ : ¬ (I = .one ∧ J = .one)) :
    ERel (Moved g h (.arr I J)) (computeNode ps fuel a) (computeNode ps' fuel a) := by
  have key := C125_covariant H.det_g H.det_h nameIndices _ _ (leafArr_moved H hs fuel) ht
  unfold computeNode
  rcases e1 : evalArr (leafArr ps fuel) a with x | x <;> rcases e2 : evalArr (leafArr ps' fuel) a with y | y <;> rw [e1, e2] at key
  · exact key
  · cases key
  · cases key
  · have hd : ¬ I.dim * J.dim = 1 := fun e => hIJ ⟨dim_one (Nat.eq_one_of_mul_eq_one_right e), dim_one (Nat.eq_one_of_mul_eq_one_left e)⟩
    cases key with
    | other => exact .other _
    | arr _ _ M =>
      simp only [asScalar, if_neg hd]
      exact .arr I J M

/-- C125: so when the value is an array, at the image it is the array with both indices transformed. -/
theorem C125_array {c : Ctx K} {ps ps' : Point K n} (H : LorentzImage c g h ps ps') (hs : SpinorsOrNone ps ps') (fuel : ℕ) {a : Node} {I J : Idx}
    (ht : Typed nameIndices a (.arr I J)) (hIJ : ¬ (I = .one ∧ J = .one)) {M : Matrix (Fin I.dim) (Fin J.dim) K}
    (hM : computeNode ps fuel a = .ok (.arr ⟨I.dim, J.dim, M⟩)) :
    computeNode ps' fuel a = .ok (.arr ⟨I.dim, J.dim, I.mat g h * M * (J.mat g h)ᵀ⟩) := by
  have key := C125_compute H hs fuel ht hIJ
  rw [hM] at key
  rcases e2 : computeNode ps' fuel a with y | y <;> rw [e2] at key
  · cases key
  · have key' : Moved g h (.arr I J) (.arr ⟨I.dim, J.dim, M⟩) y := key
    generalize hx : PVal.arr ⟨I.dim, J.dim, M⟩ = x at key'
    cases key' with
    | other => cases hx
    | arr _ _ M' =>
      injection hx with hx
      injection hx with _ _ hx
      rw [hx]

/-- C125: an expression whose indices are all contracted properly is Lorentz invariant. -/
theorem C125_invariant {c : Ctx K} {ps ps' : Point K n} (H : LorentzImage c g h ps ps') (hs : SpinorsOrNone ps ps') (fuel : ℕ) {a : Node}
    (ht : Typed nameIndices a .num) : computeNode ps' fuel a = computeNode ps fuel a := by
  have key := C125_covariant H.det_g H.det_h nameIndices _ _ (leafArr_moved H hs fuel) ht
  unfold computeNode
  rcases e1 : evalArr (leafArr ps fuel) a with x | x <;> rcases e2 : evalArr (leafArr ps' fuel) a with y | y <;> rw [e1, e2] at key
  · exact congrArg Except.error key.symm
  · cases key
  · cases key
  · rw [(moved_num key).1]

/-- C125: the same for texts. -/
theorem C125_text {c : Ctx K} {ps ps' : Point K n} (H : LorentzImage c g h ps ps') (hs : SpinorsOrNone ps ps') (fuel : ℕ) {t : List Char} {a : Node}
    (ha : nodeOf (parseText t) = some a) (ht : Typed nameIndices a .num) : computeArr ps' fuel t = computeArr ps fuel t := by
  unfold computeArr
  rw [ha, Option.map_some, Option.map_some, C125_invariant H hs fuel ht]

/-- C125: the spinors `⟨i_|`, `|i_⟩`, `[i^|`, `|i^]` of massive particles, written with two massless ones, transform as spinors, whatever their index
does; a slot written for the place after `[i^|` transforms as one there. -/
theorem C125_massive (env : List Char → Option ATy) {u v w : List Char} :
    (env u = some (.arr .one (.upper true)) → env v = some (.arr .one (.upper true)) → Typed env (lowAngleRow u v) (.arr .one (.upper true))) ∧
    (env u = some (.arr (.lower true) .one) → env v = some (.arr (.lower true) .one) → Typed env (lowAngleCol u v) (.arr (.lower true) .one)) ∧
    (env u = some (.arr .one (.upper false)) → env v = some (.arr .one (.upper false)) → Typed env (highSquareRow u v) (.arr .one (.upper false))) ∧
    (env u = some (.arr (.lower false) .one) → env v = some (.arr (.lower false) .one) → Typed env (highSquareCol u v) (.arr (.lower false) .one)) ∧
    (env w = some (.arr (.lower true) (.upper false)) → Typed env (flipNode w) (.arr (.lower false) (.upper true))) := by
  have rows : ∀ (E : Node) (b : Bool), Typed env E (.arr (.sum .one .one) (.sum .one .one)) → env u = some (.arr .one (.upper b)) →
      env v = some (.arr .one (.upper b)) → Typed env (.subscript (.bin .matmul E (.block (.list [.list [.oPs u], .list [.oPs v]])))
        [.slice (some 0) (some 1), .slice none none]) (.arr .one (.upper b)) := by
    intro E b hE hu hv
    have hb : Typed env (.block (.list ([[.oPs u], [.oPs v]].map .list))) (.arr (sumIdx .one [.one]) (sumIdx (.upper b) [])) := by
      refine .blocks rfl (by simp) ?_
      simp only [List.zip_cons_cons, List.zip_nil_left, List.mem_cons, List.not_mem_nil, or_false]
      rintro q (rfl | rfl) p hp
      · obtain rfl : p = (.oPs u, .upper b) := by simpa using hp
        exact .name _ _ hu
      · obtain rfl : p = (.oPs v, .upper b) := by simpa using hp
        exact .name _ _ hv
    exact .cut (.matmul (J := .sum .one .one) hE hb) (.left .one (.whole .one)) (.part 0 1 (by decide)) (.whole _) .all
  have cols : ∀ (E : Node) (b : Bool), Typed env E (.arr (.sum .one .one) (.sum .one .one)) → env u = some (.arr (.lower b) .one) →
      env v = some (.arr (.lower b) .one) → Typed env (.subscript (.bin .matmul (.block (.list [.oPs u, .oPs v])) E)
        [.slice none none, .slice (some 0) (some 1)]) (.arr (.lower b) .one) := by
    intro E b hE hu hv
    have hb : Typed env (.block (.list [.oPs u, .oPs v])) (.arr (.lower b) (sumIdx .one [.one])) := by
      refine .beside rfl ?_
      simp only [List.zip_cons_cons, List.zip_nil_left, List.mem_cons, List.not_mem_nil, or_false]
      rintro q (rfl | rfl)
      · exact .name _ _ hu
      · exact .name _ _ hv
    exact .cut (.matmul (J := .sum .one .one) hb hE) (.whole _) .all (.left .one (.whole .one)) (.part 0 1 (by decide))
  refine ⟨rows _ true .epsSpin, cols _ true (.neg .epsSpin), rows _ false (.neg .epsSpin), cols _ false .epsSpin, fun hw => ?_⟩
  exact .transpose (.matmul (J := .upper false) (.matmul (J := .upper true) (.neg (.epsUpper true)) (.name _ _ hw)) (.epsLower false))

/-- The value of `[1|@|2⟩`. -/
theorem call_square_angle {c : Ctx K} {ps : Point K 3} {r l : Fin 3 → V2 K} (h : ∀ k, IsMassless c (ps k) (r k) (l k)) (fuel : ℕ) :
    computeArr ps fuel "[1|@|2⟩".toList = some (.ok (.sc (.fld (dot2 (l 0) (r 1))))) := by
  have hu : OpenEndText 3 "[1|".toList '[' 0 [] := ⟨by decide +kernel, "1".toList, by decide +kernel, .inr ⟨rfl, .inr ⟨rfl, by decide +kernel⟩⟩⟩
  have hw : OpenBeginText 3 "|2⟩".toList [] 1 '⟩' := ⟨by decide +kernel, "2".toList, by decide +kernel, .inr ⟨rfl, .inl ⟨rfl, by decide +kernel⟩⟩⟩
  rw [computeArr, show nodeOf (parseText "[1|@|2⟩".toList) = some (.bin .matmul (.oPs "[1|".toList) (.oPs "|2⟩".toList)) from
    isNode_eq (by decide +kernel), Option.map_some, computeNode]
  simp only [evalArr, leaf_openEnd c ps fuel (h 0).toHasSpinors hu, leaf_openBegin c ps fuel (h 1).toHasSpinors hw (.inl rfl), row_col, asScalar]
  rw [if_pos (by rfl)]
  simp [chain, frontOf, backOf, Arr.entry, Arr.const]

/-- The value of `[1|@|2|@|3⟩`. -/
theorem call_square_slot {c : Ctx K} {ps : Point K 3} {r l : Fin 3 → V2 K} (h : ∀ k, IsMassless c (ps k) (r k) (l k)) (fuel : ℕ) :
    computeArr ps fuel "[1|@|2|@|3⟩".toList = some (.ok (.sc (.fld (bil (l 0) (outer (r 1) (l 1)) (r 2))))) := by
  have hu : OpenEndText 3 "[1|".toList '[' 0 [] := ⟨by decide +kernel, "1".toList, by decide +kernel, .inr ⟨rfl, .inr ⟨rfl, by decide +kernel⟩⟩⟩
  have hv : DoubleOpenText 3 "|2|".toList [[(true, 1)]] := ⟨by decide +kernel, _, rfl, by decide +kernel⟩
  have hw : OpenBeginText 3 "|3⟩".toList [] 2 '⟩' := ⟨by decide +kernel, "3".toList, by decide +kernel, .inr ⟨rfl, .inl ⟨rfl, by decide +kernel⟩⟩⟩
  obtain ⟨-, h2⟩ := C106_glue_middle_partial c ps fuel (h 0).toHasSpinors (h 2).toHasSpinors hu hv hw (by unfold Fits; decide) (by decide)
  rw [computeArr, show nodeOf (parseText "[1|@|2|@|3⟩".toList) = some (.bin .matmul (.bin .matmul (.oPs "[1|".toList) (.oPs "|2|".toList))
    (.oPs "|3⟩".toList)) from isNode_eq (by decide +kernel), Option.map_some, h2]
  simp [chain, slotMat, frontOf, backOf, (h 1).r2b]

/-- C125 (finding): indices that do not fit are contracted without complaint, and the value is then not Lorentz invariant: so for `[1|@|2⟩`, and for
`[1|@|2|@|3⟩` although the string `[1|2|3⟩` is a proper one. -/
theorem C125_not_invariant [NeZero (2 : K)] (c : Ctx K) (fuel : ℕ) : ∃ (g : M2 K) (ps ps' : Point K 3), LorentzImage c g 1 ps ps' ∧ SpinorsOrNone ps ps' ∧
    (computeArr ps fuel "[1|@|2⟩".toList = some (.ok (.sc (.fld 1))) ∧ computeArr ps' fuel "[1|@|2⟩".toList = some (.ok (.sc (.fld 0)))) ∧
    (computeArr ps fuel "[1|@|2|@|3⟩".toList = some (.ok (.sc (.fld 1))) ∧ computeArr ps' fuel "[1|@|2|@|3⟩".toList = some (.ok (.sc (.fld 0)))) := by
  let r : Fin 3 → V2 K := ![![1, 0], ![1, 0], ![1, 0]]
  let l : Fin 3 → V2 K := ![![1, 0], ![1, 0], ![1, 0]]
  let g : M2 K := !![0, 1; -1, 0]
  have hps : ∀ k, IsMassless c ((ofSpinors c (r k) (l k)).st) (r k) (l k) := fun k => ofSpinors_isMassless c _ _
  have H := C20_images_exist c g 1 (by simp [g, det_fin_two]) (by simp) _ r l hps
  have hps' : ∀ k, IsMassless c ((ofSpinors c (g.mulVec (r k)) (vecMul (l k) 1)).st) (g.mulVec (r k)) (vecMul (l k) 1) := fun k =>
    ofSpinors_isMassless c _ _
  refine ⟨_, _, _, H, fun k => .inl ⟨r k, l k, (hps k).r_d, (hps k).l_d⟩, ⟨?_, ?_⟩, ?_, ?_⟩
  · rw [call_square_angle hps]; simp [r, l, dot2]
  · rw [call_square_angle hps']; simp [r, l, g, dot2, mulVec, dotProduct]
  · rw [call_square_slot hps]; simp [r, l, bil_eq, outer_apply]
  · rw [call_square_slot hps']; simp [r, l, g, bil_eq, outer_apply]

end Lips

import Verif.Spec.NodeWeight
import Verif.Props.Weights
import Verif.Props.Covariance

/-!
C128: expressions with open indices scale under little-group transformations and under rescaling with the weights that counting gives.
-/

namespace Lips

open Matrix

variable {K : Type*} [Field K] {n : ℕ}

/-! ### Arrays -/

theorem numScaled_iff {t : K} {w : ℤ} {x y : EVal K} : NumScaled t w x y ↔ WRel t w x y := by
  cases x <;> cases y <;> exact Iff.rfl

omit [Field K] in
theorem arr_congr {r c : ℕ} {M N : Matrix (Fin r) (Fin c) K} (h : ∀ i j, M i j = N i j) : (⟨r, c, M⟩ : Arr K) = ⟨r, c, N⟩ := by
  rw [show M = N from funext fun i => funext fun j => h i j]

theorem entry_scale (k : K) (A : Arr K) (i j : ℕ) : (A.scale k).entry i j = k * A.entry i j := by
  unfold Arr.entry
  by_cases h : i < A.rows ∧ j < A.cols
  · rw [dif_pos h, dif_pos (show i < (A.scale k).rows ∧ j < (A.scale k).cols from h)]; rfl
  · rw [dif_neg h, dif_neg (show ¬ (i < (A.scale k).rows ∧ j < (A.scale k).cols) from h), mul_zero]

theorem spread_scale (k : K) (A : Arr K) (i j : ℕ) : (A.scale k).spread i j = k * A.spread i j := entry_scale k A _ _

theorem const_scale (k x : K) : (Arr.const x).scale k = .const (k * x) := rfl

theorem zip_scale {f : K → K → K} {a b k : K} (hf : ∀ x y, f (a * x) (b * y) = k * f x y) (A B : Arr K) :
    (A.scale a).zip f (B.scale b) = (A.zip f B).map (Arr.scale k) := by
  unfold Arr.zip
  simp only [spread_scale, hf]
  show (match broadcast A.rows B.rows, broadcast A.cols B.cols with | some r, some c => _ | _, _ => _) = _
  rcases broadcast A.rows B.rows with _ | r
  · rfl
  rcases broadcast A.cols B.cols with _ | c
  · rfl
  rfl

theorem div_scale {a b : K} (hb : b ≠ 0) (A B : Arr K) : (A.scale a).div (B.scale b) = (A.div B).map (Arr.scale (a / b)) := by
  unfold Arr.div
  rw [zip_scale (f := (· / ·)) (k := a / b) (fun x y => by rw [mul_div_mul_comm])]
  rcases A.zip (· / ·) B with e | C
  · rfl
  have : (∃ i < (C.scale (a / b)).rows, ∃ j < (C.scale (a / b)).cols, (B.scale b).spread i j = 0) ↔ ∃ i < C.rows, ∃ j < C.cols, B.spread i j = 0 := by
    simp only [spread_scale, mul_eq_zero, hb, false_or]
    rfl
  simp only [Except.map]
  by_cases h : ∃ i < C.rows, ∃ j < C.cols, B.spread i j = 0
  · rw [if_pos (this.2 h), if_pos h]
  · rw [if_neg (fun h' => h (this.1 h')), if_neg h]

theorem pow_scale {a : K} (ha : a ≠ 0) (A : Arr K) (k : ℤ) : (A.scale a).pow k = (A.pow k).map (Arr.scale (a ^ k)) := by
  unfold Arr.pow
  have : (k < 0 ∧ ∃ i j, (A.scale a).get i j = 0) ↔ k < 0 ∧ ∃ i j, A.get i j = 0 := by
    unfold Arr.scale
    simp only [mul_eq_zero, ha, false_or]
  by_cases h : k < 0 ∧ ∃ i j, A.get i j = 0
  · rw [if_pos (this.2 h), if_pos h]; rfl
  · rw [if_neg (fun h' => h (this.1 h')), if_neg h]
    exact congrArg Except.ok (arr_congr fun i j => mul_zpow _ _ _)

theorem matmul_scale (a b : K) (A B : Arr K) : (A.scale a).matmul (B.scale b) = (A.matmul B).map (Arr.scale (a * b)) := by
  unfold Arr.matmul
  by_cases h : A.cols = B.rows
  · rw [if_pos h, if_pos (show (A.scale a).cols = (B.scale b).rows from h)]
    refine congrArg Except.ok (arr_congr fun i j => ?_)
    show (∑ k : Fin A.cols, a * A.get i k * (B.scale b).entry k j) = a * b * ∑ k : Fin A.cols, A.get i k * B.entry k j
    rw [Finset.mul_sum]
    refine Finset.sum_congr rfl fun k _ => ?_
    rw [entry_scale]
    ring
  · rw [if_neg h, if_neg (show ¬ (A.scale a).cols = (B.scale b).rows from h)]; rfl

theorem neg_scale (k : K) (A : Arr K) : (A.scale k).neg = A.neg.scale k := arr_congr fun _ _ => (mul_neg _ _).symm

theorem transpose_scale (k : K) (A : Arr K) : (A.scale k).transpose = A.transpose.scale k := rfl

theorem cut_scale (k : K) (A : Arr K) (a b c d : ℕ) : (A.scale k).cut a b c d = (A.cut a b c d).scale k := by
  unfold Arr.cut
  simp only [entry_scale]
  rfl

theorem beside_scale (k : K) (A B : Arr K) : (A.scale k).beside (B.scale k) = (A.beside B).map (Arr.scale k) := by
  unfold Arr.beside
  by_cases h : A.rows = B.rows
  · rw [if_pos h, if_pos (show (A.scale k).rows = (B.scale k).rows from h)]
    refine congrArg Except.ok (arr_congr fun i j => ?_)
    rw [entry_scale, entry_scale]
    exact (mul_ite _ _ _ _).symm
  · rw [if_neg h, if_neg (show ¬ (A.scale k).rows = (B.scale k).rows from h)]; rfl

theorem above_scale (k : K) (A B : Arr K) : (A.scale k).above (B.scale k) = (A.above B).map (Arr.scale k) := by
  unfold Arr.above
  by_cases h : A.cols = B.cols
  · rw [if_pos h, if_pos (show (A.scale k).cols = (B.scale k).cols from h)]
    refine congrArg Except.ok (arr_congr fun i j => ?_)
    rw [entry_scale, entry_scale]
    exact (mul_ite _ _ _ _).symm
  · rw [if_neg h, if_neg (show ¬ (A.scale k).cols = (B.scale k).cols from h)]; rfl

theorem join_scale (k : K) {f : Arr K → Arr K → Except Err (Arr K)} (hf : ∀ A B, f (A.scale k) (B.scale k) = (f A B).map (Arr.scale k))
    (As : List (Arr K)) : joinArrs f (As.map (Arr.scale k)) = (joinArrs f As).map (Arr.scale k) := by
  induction As with
  | nil => rfl
  | cons A As ih =>
    cases As with
    | nil => rfl
    | cons B As =>
      rw [List.map_cons, List.map_cons] at *
      rw [joinArrs, joinArrs, ih]
      rcases joinArrs f (B :: As) with e | C
      · rfl
      · exact hf A C

/-! ### Values -/

variable {t : K}

omit [Field K] in
theorem erel_cases {α β : Type*} {T : α → β → Prop} {r : Except Err α} {r' : Except Err β} (h : ERel T r r') :
    (∃ e, r = .error e ∧ r' = .error e) ∨ ∃ x x', r = .ok x ∧ r' = .ok x' ∧ T x x' := by
  rcases r with e | x <;> rcases r' with e' | x'
  · exact .inl ⟨e, rfl, by rw [show e = e' from h]⟩
  · exact h.elim
  · exact h.elim
  · exact .inr ⟨x, x', rfl, rfl, h⟩

/-- Scaled values or the same exception. -/
abbrev ScaledE (t : K) (w : ℤ) : Except Err (PVal K) → Except Err (PVal K) → Prop := ERel (ValScaled t w)

theorem ScaledE.asArr {w : ℤ} {r r' : Except Err (Arr K)} (h : r' = r.map (Arr.scale (t ^ w))) : ScaledE t w (asArr r) (asArr r') := by
  subst h
  rcases r with e | A
  · rfl
  · exact .arr A

theorem ScaledE.asSc {w : ℤ} {r r' : Except Err (EVal K)} (h : WRes (WRel t w) r r') : ScaledE t w (asSc r) (asSc r') := by
  rcases h.cases with ⟨e, rfl, rfl⟩ | ⟨a, b, rfl, rfl, h⟩
  · rfl
  · exact .sc (numScaled_iff.2 h)

theorem ScaledE.other {w : ℤ} : ScaledE t w (.ok (.sc .other)) (.ok (.sc .other)) := .sc trivial

/-- The operators: what they do with weights, and on numbers and arrays. -/
structure OpScales (t : K) (o : Bin) (v w u : ℤ) : Prop where
  nums : ∀ x x' y y', WRel t v x x' → WRel t w y y' → WRes (WRel t u) (scalarOp o x y) (scalarOp o x' y')
  arrs : ∀ A B, ScaledE t u (arrayOp o A B) (arrayOp o (A.scale (t ^ v)) (B.scale (t ^ w)))

theorem numMatmul_scale {v w u : ℤ} {x x' y y' : EVal K} (hx : WRel t v x x') (hy : WRel t w y y') :
    WRes (WRel t u) (numMatmul x y) (numMatmul x' y') := by
  cases x <;> cases x' <;> first | exact hx.elim | skip
  all_goals cases y <;> cases y' <;> first | exact hy.elim | skip
  all_goals first | exact trivial | rfl

theorem mixed_scale {o : Bin} {v u : ℤ} {f f' : Arr K → Except Err (PVal K)} (hf : ∀ x, ScaledE t u (f (.const x)) (f' (.const (t ^ v * x))))
    {x x' : EVal K} (hx : WRel t v x x') : ScaledE t u (mixedOp o f x) (mixedOp o f' x') := by
  have hc := hx.toField
  have go : ∀ {r r' : Except Err K}, WRes (fun a b => b = t ^ v * a) r r' →
      ScaledE t u (if o = .matmul then .error .valueError else match r with | .ok a => f (.const a) | .error e => .error e)
        (if o = .matmul then .error .valueError else match r' with | .ok a => f' (.const a) | .error e => .error e) := by
    intro r r' h
    split
    · rfl
    rcases h.cases with ⟨e, rfl, rfl⟩ | ⟨a, b, rfl, rfl, rfl⟩
    · rfl
    · exact hf a
  cases x <;> cases x' <;> first | exact hx.elim | exact ScaledE.other | exact go hc

theorem bin_scale {o : Bin} (ho : o ≠ .pow) {v w u : ℤ} (H : OpScales t o v w u) {a a' b b' : PVal K} (ha : ValScaled t v a a')
    (hb : ValScaled t w b b') : ScaledE t u (binVal o a b) (binVal o a' b') := by
  have mixed : ∀ (A : Arr K) (y : EVal K), binVal o (.arr A) (.sc y) = mixedOp o (arrayOp o A) y := by
    intro A y
    cases o <;> first | exact absurd rfl ho | rfl
  cases ha with
  | sc hx =>
    cases hb with
    | sc hy => exact ScaledE.asSc (H.nums _ _ _ _ (numScaled_iff.1 hx) (numScaled_iff.1 hy))
    | arr B => exact mixed_scale (f := fun A => arrayOp o A B) (f' := fun A => arrayOp o A (B.scale (t ^ w))) (fun x => H.arrs (.const x) B) (numScaled_iff.1 hx)
    | nil => exact ScaledE.other
    | cons => exact ScaledE.other
  | arr A =>
    cases hb with
    | sc hy => rw [mixed, mixed]; exact mixed_scale (fun x => H.arrs A (.const x)) (numScaled_iff.1 hy)
    | arr B => exact H.arrs A B
    | nil => exact ScaledE.other
    | cons => exact ScaledE.other
  | nil => cases hb <;> exact ScaledE.other
  | cons => cases hb <;> exact ScaledE.other

theorem add_scales (w : ℤ) : OpScales t .add w w w :=
  ⟨fun _ _ _ _ => vAdd_scale, fun A B => ScaledE.asArr (zip_scale (fun _ _ => (mul_add _ _ _).symm) A B)⟩

theorem sub_scales (w : ℤ) : OpScales t .sub w w w :=
  ⟨fun _ _ _ _ => vSub_scale, fun A B => ScaledE.asArr (zip_scale (fun _ _ => (mul_sub _ _ _).symm) A B)⟩

theorem mul_scales (ht : t ≠ 0) (v w : ℤ) : OpScales t .mul v w (v + w) :=
  ⟨fun _ _ _ _ => vMul_scale ht, fun A B => ScaledE.asArr (zip_scale (fun _ _ => by rw [zpow_add₀ ht]; ring) A B)⟩

theorem div_scales (ht : t ≠ 0) (v w : ℤ) : OpScales t .div v w (v - w) :=
  ⟨fun _ _ _ _ => vDiv_scale ht, fun A B => ScaledE.asArr (by rw [div_scale (zpow_ne_zero w ht), zpow_sub₀ ht])⟩

theorem matmul_scales (ht : t ≠ 0) (v w : ℤ) : OpScales t .matmul v w (v + w) :=
  ⟨fun _ _ _ _ => numMatmul_scale, fun A B => ScaledE.asArr (by rw [matmul_scale, zpow_add₀ ht])⟩

theorem arrsIn_scale {w : ℤ} {x x' : PVal K} (h : ValScaled t w x x') : ∀ {vs vs' : List (PVal K)}, x = .list vs → x' = .list vs' →
    arrsIn vs' = (arrsIn vs).map (List.map (Arr.scale (t ^ w))) := by
  induction h with
  | sc => intro _ _ e; cases e
  | arr => intro _ _ e; cases e
  | nil => intro _ _ e e'; cases e; cases e'; rfl
  | cons hv hvs _ ih =>
    intro _ _ e e'
    cases e; cases e'
    cases hv with
    | arr A =>
      simp only [arrsIn, ih rfl rfl]
      rcases arrsIn _ with _ | As <;> rfl
    | sc => rfl
    | nil => rfl
    | cons => rfl

theorem listsIn_scale {w : ℤ} {x x' : PVal K} (h : ValScaled t w x x') : ∀ {vs vs' : List (PVal K)}, x = .list vs → x' = .list vs' →
    listsIn vs' = (listsIn vs).map (List.map (List.map (Arr.scale (t ^ w)))) := by
  induction h with
  | sc => intro _ _ e; cases e
  | arr => intro _ _ e; cases e
  | nil => intro _ _ e e'; cases e; cases e'; rfl
  | cons hv hvs _ ih =>
    intro _ _ e e'
    cases e; cases e'
    have lists : ∀ {us us' : List (PVal K)} {vs vs' : List (PVal K)}, arrsIn us' = (arrsIn us).map (List.map (Arr.scale (t ^ w))) →
        listsIn vs' = (listsIn vs).map (List.map (List.map (Arr.scale (t ^ w)))) →
        listsIn (.list us' :: vs') = (listsIn (.list us :: vs)).map (List.map (List.map (Arr.scale (t ^ w)))) := by
      intro us us' vs vs' h1 h2
      simp only [listsIn, h1, h2]
      rcases arrsIn us with _ | As
      · rfl
      rcases listsIn vs with _ | Ass <;> rfl
    cases hv with
    | arr A => rfl
    | sc => rfl
    | nil => exact lists rfl (ih rfl rfl)
    | cons h1 h2 => exact lists (arrsIn_scale (.cons h1 h2) rfl rfl) (ih rfl rfl)

theorem allOk_scale (k : K) (f : List (Arr K) → Except Err (Arr K)) (hf : ∀ As, f (As.map (Arr.scale k)) = (f As).map (Arr.scale k))
    (Ass : List (List (Arr K))) :
    allOk ((Ass.map (List.map (Arr.scale k))).map f) = (allOk (Ass.map f)).map (List.map (Arr.scale k)) := by
  induction Ass with
  | nil => rfl
  | cons As Ass ih =>
    simp only [List.map_cons, hf]
    rcases f As with e | A
    · rfl
    · simp only [Except.map, allOk, ih]
      rcases allOk (Ass.map f) with e | Bs <;> rfl

theorem block_scale {w : ℤ} {x x' : PVal K} (h : ValScaled t w x x') : ScaledE t w (blockVal x) (blockVal x') := by
  have lists : ∀ {vs vs' : List (PVal K)}, ValScaled t w (.list vs) (.list vs') → ScaledE t w (blockVal (.list vs)) (blockVal (.list vs')) := by
    intro vs vs' h
    simp only [blockVal, arrsIn_scale h rfl rfl, listsIn_scale h rfl rfl]
    rcases arrsIn vs with _ | As
    · rcases listsIn vs with _ | Ass
      · exact ScaledE.other
      · simp only [Option.map]
        rw [allOk_scale _ _ (join_scale _ (beside_scale _))]
        rcases allOk (Ass.map (joinArrs Arr.beside)) with e | As
        · rfl
        · exact ScaledE.asArr (join_scale _ (above_scale _) As)
    · exact ScaledE.asArr (join_scale _ (beside_scale _) As)
  cases h with
  | sc => exact ScaledE.other
  | arr A => exact ValScaled.arr A
  | nil => exact lists .nil
  | cons h1 h2 => exact lists (.cons h1 h2)

theorem subscript_scale {w : ℤ} {x x' : PVal K} (h : ValScaled t w x x') (ix : List Ix) : ScaledE t w (subscriptVal x ix) (subscriptVal x' ix) := by
  cases h with
  | sc h =>
    rename_i x y
    cases x <;> cases y <;> first | exact h.elim | exact ScaledE.other | rfl
  | nil => exact ScaledE.other
  | cons => exact ScaledE.other
  | arr A =>
    have cut : ∀ a b c d, ScaledE t w (.ok (.arr (A.cut a b c d))) (.ok (.arr ((A.scale (t ^ w)).cut a b c d))) := by
      intro a b c d
      rw [cut_scale]
      exact ValScaled.arr _
    rcases ix with _ | ⟨i, _ | ⟨j, _ | ⟨k, ix⟩⟩⟩
    · exact ScaledE.other
    · cases i
      · exact cut _ _ _ _
      · exact ScaledE.other
    · cases i <;> cases j
      · exact cut _ _ _ _
      · exact ScaledE.other
      · exact ScaledE.other
      · simp only [subscriptVal]
        show ScaledE t w _ (match indexOf A.rows _, indexOf A.cols _ with | .ok i, .ok j => _ | .error e, _ => _ | _, .error e => _)
        rcases indexOf A.rows _ with e | i
        · rfl
        rcases indexOf A.cols _ with e | j
        · rfl
        refine ValScaled.sc ?_
        exact entry_scale _ A i j
    · cases i <;> cases j <;> rfl

theorem node_int (leaf : List Char → Except Err (PVal K)) : ∀ (b : Node) (m : ℤ), b.int = some m → evalArr leaf b = .ok (.sc (.int m)) := by
  intro b
  induction b using Node.int.induct with
  | case1 k => intro m h; cases h; rfl
  | case2 a ih => intro m h; simp only [evalArr, ih m h]; rfl
  | case3 a ih =>
    intro m h
    simp only [Node.int, Option.map_eq_some_iff] at h
    obtain ⟨k, hk, rfl⟩ := h
    simp only [evalArr, ih k hk]; rfl
  | case4 a b ih1 ih2 =>
    intro m h
    simp only [Node.int, Option.bind_eq_some_iff, Option.map_eq_some_iff] at h
    obtain ⟨k, hk, l, hl, rfl⟩ := h
    simp only [evalArr, ih1 k hk, ih2 l hl]; rfl
  | case5 a b ih1 ih2 =>
    intro m h
    simp only [Node.int, Option.bind_eq_some_iff, Option.map_eq_some_iff] at h
    obtain ⟨k, hk, l, hl, rfl⟩ := h
    simp only [evalArr, ih1 k hk, ih2 l hl]; rfl
  | case6 a b ih1 ih2 =>
    intro m h
    simp only [Node.int, Option.bind_eq_some_iff, Option.map_eq_some_iff] at h
    obtain ⟨k, hk, l, hl, rfl⟩ := h
    simp only [evalArr, ih1 k hk, ih2 l hl]; rfl
  | case7 => intro m h; simp_all [Node.int]

theorem pow_val_scale (ht : t ≠ 0) {w : ℤ} (m : ℤ) {x x' : PVal K} (h : ValScaled t w x x') :
    ScaledE t (m * w) (binVal .pow x (.sc (.int m))) (binVal .pow x' (.sc (.int m))) := by
  cases h with
  | sc h => exact ScaledE.asSc (vPow_scale ht (numScaled_iff.1 h))
  | arr A => exact ScaledE.asArr (by rw [pow_scale (zpow_ne_zero w ht), ← zpow_mul, mul_comm])
  | nil => exact ScaledE.other
  | cons => exact ScaledE.other

theorem scale_step {w w' : ℤ} {r r' : Except Err (PVal K)} {f f' : PVal K → Except Err (PVal K)} : ScaledE t w r r' →
    (∀ x x', ValScaled t w x x' → ScaledE t w' (f x) (f' x')) → ScaledE t w' (match r with | .error e => .error e | .ok x => f x) (match r' with | .error e => .error e | .ok x => f' x) := by
  intro hr hf
  rcases r with e | x <;> rcases r' with e' | x'
  · exact hr
  · exact hr.elim
  · exact hr.elim
  · exact hf x x' hr

/-- C128: if the names scale with their weights, so do expressions with open indices that have a weight. -/
theorem C128_scaled (ht : t ≠ 0) (w : List Char → Option ℤ) (leaf leaf' : List Char → Except Err (PVal K))
    (hl : ∀ s W, w s = some W → ERel (ValScaled t W) (leaf s) (leaf' s)) {a : Node} {W : ℤ} (ha : Weighs w a W) :
    ERel (ValScaled t W) (evalArr leaf a) (evalArr leaf' a) := by
  induction ha with
  | num k => exact ValScaled.sc ⟨rfl, rfl⟩
  | fraction a b =>
    simp only [evalArr]
    split
    · rfl
    · exact ValScaled.sc ⟨rfl, rfl⟩
  | name s W h => exact hl s W h
  | eps =>
    simp only [evalArr]
    have : (epsArr : Arr K) = epsArr.scale (t ^ (0 : ℤ)) := arr_congr fun i j => by rw [zpow_zero, one_mul]; rfl
    show ValScaled t 0 (.arr epsArr) (.arr epsArr)
    conv => arg 4; rw [this]
    exact .arr _
  | neg _ ih =>
    simp only [evalArr]
    refine scale_step ih fun x x' h => ?_
    cases h with
    | sc h =>
      rename_i x y
      refine ValScaled.sc ?_
      cases x <;> cases y <;> first | exact h.elim | trivial | exact ⟨congrArg _ h.1, h.2⟩ | skip
      show _ = _
      rw [show _ = _ from h]; ring
    | arr A =>
      simp only [negVal, neg_scale]
      exact ValScaled.arr _
    | nil => rfl
    | cons => rfl
  | pos _ ih =>
    simp only [evalArr]
    refine scale_step ih fun x x' h => ?_
    cases h with
    | sc h => exact ValScaled.sc h
    | arr A => exact ValScaled.arr A
    | nil => rfl
    | cons => rfl
  | add _ _ ih1 ih2 =>
    simp only [evalArr]
    exact scale_step ih1 fun x x' h => scale_step ih2 fun y y' h' => bin_scale (by decide) (add_scales _) h h'
  | sub _ _ ih1 ih2 =>
    simp only [evalArr]
    exact scale_step ih1 fun x x' h => scale_step ih2 fun y y' h' => bin_scale (by decide) (sub_scales _) h h'
  | mul _ _ ih1 ih2 =>
    simp only [evalArr]
    exact scale_step ih1 fun x x' h => scale_step ih2 fun y y' h' => bin_scale (by decide) (mul_scales ht _ _) h h'
  | matmul _ _ ih1 ih2 =>
    simp only [evalArr]
    exact scale_step ih1 fun x x' h => scale_step ih2 fun y y' h' => bin_scale (by decide) (matmul_scales ht _ _) h h'
  | div _ _ ih1 ih2 =>
    simp only [evalArr]
    exact scale_step ih1 fun x x' h => scale_step ih2 fun y y' h' => bin_scale (by decide) (div_scales ht _ _) h h'
  | pow _ hb ih =>
    simp only [evalArr, node_int _ _ _ hb]
    exact scale_step ih fun x x' h => pow_val_scale ht _ h
  | @list es W _ ih =>
    simp only [evalArr]
    have key : ERel (fun vs vs' => ValScaled t W (.list vs) (.list vs')) (evalArrs leaf es) (evalArrs leaf' es) := by
      clear * - ih
      induction es with
      | nil => exact ValScaled.nil
      | cons a es ihs =>
        have h1 := ih a (by simp)
        have h2 := ihs fun e he => ih e (by simp [he])
        simp only [evalArrs]
        rcases erel_cases h1 with ⟨e, g1, g2⟩ | ⟨x, x', g1, g2, h1⟩
        · rw [g1, g2]; rfl
        rw [g1, g2]
        rcases erel_cases h2 with ⟨e, g1, g2⟩ | ⟨xs, xs', g1, g2, h2⟩
        · rw [g1, g2]; rfl
        rw [g1, g2]
        exact ValScaled.cons h1 h2
    rcases erel_cases key with ⟨e, g1, g2⟩ | ⟨xs, xs', g1, g2, h⟩
    · rw [g1, g2]; rfl
    · rw [g1, g2]; exact h
  | block _ ih =>
    simp only [evalArr]
    exact scale_step ih fun x x' h => block_scale h
  | transpose _ ih =>
    simp only [evalArr]
    refine scale_step ih fun x x' h => ?_
    cases h with
    | arr A => exact ValScaled.arr A.transpose
    | sc => exact ScaledE.other
    | nil => exact ScaledE.other
    | cons => exact ScaledE.other
  | subscript ix _ ih =>
    simp only [evalArr]
    exact scale_step ih fun x x' h => subscript_scale h ix

/-- What `compute` returns scales as well. -/
theorem compute_scaled (ht : t ≠ 0) {ps ps' : Point K n} {fuel : ℕ} (w : List Char → Option ℤ)
    (hl : ∀ s W, w s = some W → ERel (ValScaled t W) (leafArr ps fuel s) (leafArr ps' fuel s)) {a : Node} {W : ℤ} (ha : Weighs w a W) :
    ERel (ValScaled t W) (computeNode ps fuel a) (computeNode ps' fuel a) := by
  have key := C128_scaled ht w _ _ hl ha
  unfold computeNode
  rcases erel_cases key with ⟨e, g1, g2⟩ | ⟨x, x', g1, g2, key⟩
  · rw [g1, g2]; rfl
  · rw [g1, g2]
    show ValScaled t W (asScalar x) (asScalar x')
    cases key with
    | sc h => exact .sc h
    | nil => exact .nil
    | cons h1 h2 => exact .cons h1 h2
    | arr A =>
      show ValScaled t W (if A.rows * A.cols = 1 then _ else _) (if A.rows * A.cols = 1 then _ else _)
      by_cases h : A.rows * A.cols = 1
      · rw [if_pos h, if_pos h]
        refine .sc ?_
        exact entry_scale _ A 0 0
      · rw [if_neg h, if_neg h]
        exact .arr A

/-! ### Names -/

/-- What a name is multiplied by. -/
def Form.openFactor (α β : Fin n → K) (α₀ β₀ μ : K) : Form → Option K
  | .Au a | .Ad a => some (labelled α α₀ a)
  | .Su a | .Sd a => some (labelled β β₀ a)
  | .openEnd o a ms => some ((if o = '⟨' then labelled α α₀ a else labelled β β₀ a) * μ ^ ms.length)
  | .openBegin ms d c => some ((if c = '⟩' then labelled α α₀ d else labelled β β₀ d) * μ ^ ms.length)
  | .doubleOpen ms => some (μ ^ ms.length)
  | f => f.factor α β α₀ β₀ μ

namespace Scaled

variable {α β : Fin n → K} {α₀ β₀ μ : K} {ps ps' : Point K n}

theorem row_scaled {w : ℤ} (v : V2 K) : ValScaled t w (.arr (rowArr v)) (.arr (rowArr (t ^ w • v))) := .arr (rowArr v)
theorem col_scaled {w : ℤ} (v : V2 K) : ValScaled t w (.arr (colArr v)) (.arr (colArr (t ^ w • v))) := .arr (colArr v)

theorem formLeaf_scaled (H : Scaled α β μ ps ps') (fuel : ℕ) (f : Form) {w : ℤ} (hk : f.openFactor α β α₀ β₀ μ = some (t ^ w)) :
    ERel (ValScaled t w) (formLeaf ps fuel f) (formLeaf ps' fuel f) := by
  have closed : ∀ f : Form, f.factor α β α₀ β₀ μ = some (t ^ w) → ERel (ValScaled t w) (formLeaf ps fuel f) (formLeaf ps' fuel f) := by
    intro f hk
    have key := H.form_scale fuel f _ hk
    unfold formLeaf
    revert key
    generalize evalForm ps fuel f = r
    generalize evalForm ps' fuel f = r'
    intro key
    rcases r with _ | e | x <;> rcases r' with _ | e' | y
    · rfl
    · exact key.elim
    · exact key.elim
    · exact key.elim
    · exact key
    · exact key.elim
    · cases x <;> exact key.elim
    · cases x <;> exact key.elim
    · cases x <;> cases y <;> first | exact key.elim | skip
      have sh : ∀ x : K, shaped f (.num x : Val K) = .sc (.fld x) := fun x => by unfold shaped; cases f <;> rfl
      simp only [sh]
      exact ValScaled.sc key
  have spinor : ∀ {f : Form} {o : Option (V2 K)}, shaped f (.spinor none : Val K) = .sc .other →
      (∀ v, ValScaled t w (shaped f (.spinor (some v))) (shaped f (.spinor (some (t ^ w • v))))) →
      ValScaled t w (shaped f (.spinor o)) (shaped f (.spinor (o.map (t ^ w • ·)))) := by
    intro f o h1 h2
    rcases o with _ | v
    · simp only [Option.map_none, h1]; exact .sc trivial
    · exact h2 v
  cases f with
  | Au a =>
    simp only [Form.openFactor, labelled, Option.some.injEq] at hk
    simp only [formLeaf, evalForm]
    revert hk
    rcases readLabel n a with e | a
    · intro _; rfl
    intro hk
    have hk : α a = t ^ w := hk
    show ValScaled t w (shaped _ (.spinor (ps a).r_u)) (shaped _ (.spinor (ps' a).r_u))
    rw [H.r_u, hk]
    exact spinor rfl fun v => row_scaled v
  | Ad a =>
    simp only [Form.openFactor, labelled, Option.some.injEq] at hk
    simp only [formLeaf, evalForm]
    revert hk
    rcases readLabel n a with e | a
    · intro _; rfl
    intro hk
    have hk : α a = t ^ w := hk
    show ValScaled t w (shaped _ (.spinor (ps a).r_d)) (shaped _ (.spinor (ps' a).r_d))
    rw [H.r_d, hk]
    exact spinor rfl fun v => col_scaled v
  | Su a =>
    simp only [Form.openFactor, labelled, Option.some.injEq] at hk
    simp only [formLeaf, evalForm]
    revert hk
    rcases readLabel n a with e | a
    · intro _; rfl
    intro hk
    have hk : β a = t ^ w := hk
    show ValScaled t w (shaped _ (.spinor (ps a).l_u)) (shaped _ (.spinor (ps' a).l_u))
    rw [H.l_u, hk]
    exact spinor rfl fun v => col_scaled v
  | Sd a =>
    simp only [Form.openFactor, labelled, Option.some.injEq] at hk
    simp only [formLeaf, evalForm]
    revert hk
    rcases readLabel n a with e | a
    · intro _; rfl
    intro hk
    have hk : β a = t ^ w := hk
    show ValScaled t w (shaped _ (.spinor (ps a).l_d)) (shaped _ (.spinor (ps' a).l_d))
    rw [H.l_d, hk]
    exact spinor rfl fun v => row_scaled v
  | openEnd o a ms =>
    simp only [Form.openFactor, labelled, Option.some.injEq] at hk
    simp only [formLeaf, evalForm]
    revert hk
    rcases readLabel n a with e | a
    · intro _; rfl
    intro hk
    rcases hm : readSlots n ms with e | ks
    · rfl
    have left : (if o = '⟨' then need (ps' a).r_u else need (ps' a).l_d) =
        ((if o = '⟨' then need (ps a).r_u else need (ps a).l_d).map ((if o = '⟨' then α a else β a) • ·)) := by
      rw [H.r_u, H.l_d]
      split
      · rcases (ps a).r_u with _ | u <;> rfl
      · rcases (ps a).l_d with _ | u <;> rfl
    simp only [computeOpenEnd, left]
    rcases (if o = '⟨' then need (ps a).r_u else need (ps a).l_d) with e | u
    · rfl
    simp only [Except.map, H.chain_eq, readSlots_length hm]
    have hk : (if o = '⟨' then α a else β a) * μ ^ ms.length = t ^ w := hk
    rw [smul_vecMul, vecMul_smul, smul_smul, hk]
    exact row_scaled _
  | openBegin ms d c =>
    simp only [Form.openFactor, labelled, Option.some.injEq] at hk
    simp only [formLeaf, evalForm]
    rcases hm : readSlots n ms with e | ks
    · rfl
    revert hk
    rcases readLabel n d with e | d
    · intro _; rfl
    intro hk
    have right : (if c = '⟩' then need (ps' d).r_d else need (ps' d).l_u) =
        ((if c = '⟩' then need (ps d).r_d else need (ps d).l_u).map ((if c = '⟩' then α d else β d) • ·)) := by
      rw [H.r_d, H.l_u]
      split
      · rcases (ps d).r_d with _ | u <;> rfl
      · rcases (ps d).l_u with _ | u <;> rfl
    simp only [computeOpenBegin, right]
    rcases (if c = '⟩' then need (ps d).r_d else need (ps d).l_u) with e | u
    · rfl
    simp only [Except.map, H.chain_eq, readSlots_length hm]
    have hk : (if c = '⟩' then α d else β d) * μ ^ ms.length = t ^ w := hk
    rw [mulVec_smul, smul_mulVec, smul_smul, hk]
    exact col_scaled _
  | doubleOpen ms =>
    simp only [Form.openFactor, Option.some.injEq] at hk
    simp only [formLeaf, evalForm]
    rcases hm : readSlots n ms with e | ks
    · rfl
    simp only [computeDoubleOpen, H.chain_eq, readSlots_length hm, hk]
    exact ValScaled.arr ⟨2, 2, _⟩
  | tr5 | tr | omega | pi | delta | d5 | massOf | mandelstam | angle | square | string | internalMass | expression => exact closed _ hk

theorem leafArr_scaled (H : Scaled α β μ ps ps') (fuel : ℕ) (s : List Char) {w : Form → Option ℤ} {W : ℤ}
    (hw : ∀ f W, w f = some W → f.openFactor α β α₀ β₀ μ = some (t ^ W)) (hs : nameWeight w s = some W) :
    ERel (ValScaled t W) (leafArr ps fuel s) (leafArr ps' fuel s) := by
  unfold nameWeight at hs
  unfold leafArr
  rcases hr : rsubsDict s boldDigits with e | u <;> rw [hr] at hs
  · cases hs
  · exact H.formLeaf_scaled fuel (classify u) (hw _ _ hs)

end Scaled

theorem factor_openPhase (A : Fin n) (ht : t ≠ 0) (f : Form) {w : ℤ} (hw : f.openPhase A = some w) :
    f.openFactor (fun k => if k = A then t else 1) (fun k => if k = A then t⁻¹ else 1) 1 1 1 = some (t ^ w) := by
  have inv : ∀ u : List Char, (t⁻¹) ^ isLabel A u = t ^ (-isLabel A u) := fun u => by rw [inv_zpow, zpow_neg]
  have closed := factor_phase A ht f (w := w)
  cases f with
  | Au a => cases hw; rw [Form.openFactor, labelled_phase]
  | Ad a => cases hw; rw [Form.openFactor, labelled_phase]
  | Su a => cases hw; rw [Form.openFactor, labelled_phase, inv]
  | Sd a => cases hw; rw [Form.openFactor, labelled_phase, inv]
  | openEnd o a ms =>
    cases hw
    rw [Form.openFactor, labelled_phase, labelled_phase, inv, one_pow, mul_one]
    split_ifs <;> simp
  | openBegin ms d c =>
    cases hw
    rw [Form.openFactor, labelled_phase, labelled_phase, inv, one_pow, mul_one]
    split_ifs <;> simp
  | doubleOpen ms => cases hw; rw [Form.openFactor, one_pow, zpow_zero]
  | tr5 | tr | omega | pi | delta | d5 | massOf | mandelstam | angle | square | string | internalMass | expression =>
    exact closed hw

theorem factor_spinors (t : K) (f : Form) {w : ℤ} (hw : f.spinors = some w) :
    f.openFactor (fun _ : Fin n => t) (fun _ : Fin n => t) t t (t ^ 2) = some (t ^ w) := by
  have odd : ∀ k : ℕ, t * (t ^ 2) ^ k = t ^ (2 * (k : ℤ) + 1) := by
    intro k
    rw [← pow_mul, ← pow_succ', ← zpow_natCast]; push_cast; rfl
  have closed : f.dimension.map (2 * ·) = some w → f.factor (fun _ : Fin n => t) (fun _ : Fin n => t) t t (t ^ 2) = some (t ^ w) := by
    intro hf
    obtain ⟨d, hd, rfl⟩ := Option.map_eq_some_iff.1 hf
    clear hw
    rw [factor_dimension t f hd, zpow_mul, show t ^ (2 : ℤ) = t ^ 2 from zpow_natCast t 2]
  cases f with
  | Au a => cases hw; rw [Form.openFactor, labelled_const, zpow_one]
  | Ad a => cases hw; rw [Form.openFactor, labelled_const, zpow_one]
  | Su a => cases hw; rw [Form.openFactor, labelled_const, zpow_one]
  | Sd a => cases hw; rw [Form.openFactor, labelled_const, zpow_one]
  | openEnd o a ms => cases hw; rw [Form.openFactor, labelled_const, ite_self, odd]
  | openBegin ms d c => cases hw; rw [Form.openFactor, labelled_const, ite_self, odd]
  | doubleOpen ms => cases hw; rw [Form.openFactor, zpow_mul, show t ^ (2 : ℤ) = t ^ 2 from zpow_natCast t 2, zpow_natCast]
  | tr5 | tr | omega | pi | delta | d5 | massOf | mandelstam | angle | square | string | internalMass | expression => exact closed hw

/-- C128: under `|A⟩ → t|A⟩`, `[A| → [A|/t` what `compute` makes of an expression, with open indices or not, is multiplied by `t` to the weight
that counting gives, entry by entry; what raises an exception raises the same one. -/
theorem C128_little_group (c : Ctx K) (A : Fin n) (t : K) (ps ps' : Point K n) (H : LittleGroup c A t ps ps') (fuel : ℕ) {a : Node} {W : ℤ}
    (ha : Weighs (nameWeight (Form.openPhase A)) a W) : ERel (ValScaled t W) (computeNode ps fuel a) (computeNode ps' fuel a) :=
  compute_scaled H.t0 _ (fun s _ hs => H.scaled.leafArr_scaled fuel s (fun f _ => factor_openPhase A H.t0 f) hs) ha

/-- C128: when all spinors are multiplied by `t`, it is multiplied by `t` to the number of spinors. -/
theorem C128_dimension (c : Ctx K) (t : K) (ps ps' : Point K n) (H : Rescaled c t ps ps') (fuel : ℕ) {a : Node} {W : ℤ}
    (ha : Weighs (nameWeight Form.spinors) a W) : ERel (ValScaled t W) (computeNode ps fuel a) (computeNode ps' fuel a) :=
  compute_scaled H.t0 _ (fun s _ hs => H.scaled.leafArr_scaled fuel s (fun f _ => factor_spinors t f) hs) ha

/-- C128: for texts. -/
theorem C128_text (c : Ctx K) (A : Fin n) (t : K) (ps ps' : Point K n) (fuel : ℕ) {s : List Char} {a : Node} (hs : nodeOf (parseText s) = some a) (W : ℤ) :
    (LittleGroup c A t ps ps' → Weighs (nameWeight (Form.openPhase A)) a W →
      ∃ r r', computeArr ps fuel s = some r ∧ computeArr ps' fuel s = some r' ∧ ERel (ValScaled t W) r r') ∧
    (Rescaled c t ps ps' → Weighs (nameWeight Form.spinors) a W →
      ∃ r r', computeArr ps fuel s = some r ∧ computeArr ps' fuel s = some r' ∧ ERel (ValScaled t W) r r') := by
  unfold computeArr
  rw [hs]
  exact ⟨fun H h => ⟨_, _, rfl, rfl, C128_little_group c A t ps ps' H fuel h⟩, fun H h => ⟨_, _, rfl, rfl, C128_dimension c t ps ps' H fuel h⟩⟩

/-- C128: in particular an array is multiplied as a whole, and so is a number. -/
theorem C128_values (c : Ctx K) (A : Fin n) (t : K) (ps ps' : Point K n) (H : LittleGroup c A t ps ps') (fuel : ℕ) {a : Node} {W : ℤ}
    (ha : Weighs (nameWeight (Form.openPhase A)) a W) :
    (∀ r k (M : Matrix (Fin r) (Fin k) K), computeNode ps fuel a = .ok (.arr ⟨r, k, M⟩) → computeNode ps' fuel a = .ok (.arr ⟨r, k, t ^ W • M⟩)) ∧
    (∀ x, computeNode ps fuel a = .ok (.sc (.fld x)) → computeNode ps' fuel a = .ok (.sc (.fld (t ^ W * x)))) ∧
    ∀ e, computeNode ps fuel a = .error e → computeNode ps' fuel a = .error e := by
  have key := C128_little_group c A t ps ps' H fuel ha
  revert key
  generalize computeNode ps' fuel a = r'
  intro key
  refine ⟨fun r k M h => ?_, fun x h => ?_, fun e h => ?_⟩ <;> rw [h] at key <;> rcases r' with e' | y
  · exact key.elim
  · have key : ValScaled t W (.arr ⟨r, k, M⟩) y := key
    cases key
    rfl
  · exact key.elim
  · have key : ValScaled t W (.sc (.fld x)) y := key
    cases key with
    | sc h =>
      rename_i y
      cases y <;> first | exact h.elim | skip
      rw [show _ = _ from h]
  · exact congrArg _ (show e = e' from key).symm
  · exact key.elim

end Lips

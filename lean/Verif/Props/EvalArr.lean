import Verif.Spec.MatExpr
import Verif.Props.Parse

/-!
C106: expressions with open indices.
-/

namespace Lips

variable {K : Type*} [Field K]

/-- What a value stands for: a number may come as an array with one entry. -/
inductive Rep : PVal K → Quant K → Prop
  | int (m : ℤ) : Rep (.sc (.int m)) (.int m)
  | scal (w : EVal K) (x : K) (h : w.toField = .ok x) (hi : w.tag ≠ some .int) : Rep (.sc w) (.scal x)
  | one (x : K) : Rep (.arr (.const x)) (.scal x)
  | mat (r c : ℕ) (M : Matrix (Fin r) (Fin c) K) : Rep (.arr ⟨r, c, M⟩) (.mat r c M)

/-! ### Arrays -/

theorem entry_get {r c : ℕ} (M : Matrix (Fin r) (Fin c) K) (i : Fin r) (j : Fin c) : Arr.entry ⟨r, c, M⟩ i j = M i j := by
  simp [Arr.entry, i.2, j.2]

theorem broadcast_self (m : ℕ) : broadcast m m = some m := by simp [broadcast]
theorem broadcast_one (m : ℕ) : broadcast 1 m = some m := by unfold broadcast; split_ifs <;> simp_all
theorem broadcast_to_one (m : ℕ) : broadcast m 1 = some m := by unfold broadcast; split_ifs <;> simp_all

theorem spread_get {r c : ℕ} (M : Matrix (Fin r) (Fin c) K) (i : Fin r) (j : Fin c) : Arr.spread ⟨r, c, M⟩ i j = M i j := by
  have h1 : (if r = 1 then 0 else (i : ℕ)) = i := by split_ifs with h <;> [(subst h; simp); rfl]
  have h2 : (if c = 1 then 0 else (j : ℕ)) = j := by split_ifs with h <;> [(subst h; simp); rfl]
  rw [Arr.spread, h1, h2, entry_get]

theorem spread_const (x : K) (i j : ℕ) : (Arr.const x).spread i j = x := by simp [Arr.spread, Arr.const, Arr.entry]

theorem zip_same (f : K → K → K) {r c : ℕ} (M N : Matrix (Fin r) (Fin c) K) :
    Arr.zip f ⟨r, c, M⟩ ⟨r, c, N⟩ = .ok ⟨r, c, fun i j => f (M i j) (N i j)⟩ := by
  simp only [Arr.zip, broadcast_self, spread_get]

theorem zip_const_left (f : K → K → K) (x : K) {r c : ℕ} (M : Matrix (Fin r) (Fin c) K) :
    Arr.zip f (.const x) ⟨r, c, M⟩ = .ok ⟨r, c, fun i j => f x (M i j)⟩ := by
  have h1 : broadcast (Arr.const x).rows r = some r := broadcast_one r
  have h2 : broadcast (Arr.const x).cols c = some c := broadcast_one c
  simp only [Arr.zip, h1, h2, spread_get, spread_const]

theorem zip_const_right (f : K → K → K) (x : K) {r c : ℕ} (M : Matrix (Fin r) (Fin c) K) :
    Arr.zip f ⟨r, c, M⟩ (.const x) = .ok ⟨r, c, fun i j => f (M i j) x⟩ := by
  have h1 : broadcast r (Arr.const x).rows = some r := broadcast_to_one r
  have h2 : broadcast c (Arr.const x).cols = some c := broadcast_to_one c
  simp only [Arr.zip, h1, h2, spread_get, spread_const]

theorem div_const_right (x : K) (hx : x ≠ 0) {r c : ℕ} (M : Matrix (Fin r) (Fin c) K) :
    Arr.div ⟨r, c, M⟩ (.const x) = .ok ⟨r, c, fun i j => M i j / x⟩ := by
  have h := zip_const_right (· / ·) x M
  simp only [Arr.div, h, spread_const, hx, and_false, exists_false, if_false]

/-! ### Numbers -/

theorem scalar_gives {fi : ℤ → ℤ → Except Err (EVal K)} {fq : ℚ → ℚ → Except Err (EVal K)} {fk : K → K → Except Err (EVal K)}
    {w w' : EVal K} {x y z : K} (h : w.toField = .ok x) (h' : w'.toField = .ok y) (hi : ¬ (w.tag = some .int ∧ w'.tag = some .int))
    (hq : ∀ a b : ℚ, ratField a = .ok x → ratField b = .ok y → Gives (fq a b) (some .rat) z) (hk : Gives (fk x y) (some .fld) z) :
    ∃ v, binop fi fq fk w w' = .ok v ∧ v.toField = .ok z ∧ v.tag ≠ some .int := by
  have hint : ∀ (m : ℤ) (u : K), (EVal.int m : EVal K).toField = .ok u → ratField (m : ℚ) = .ok u := by
    intro m u hu
    simp only [EVal.toField, Except.ok.injEq] at hu
    subst hu
    exact ratField_int m
  have fin : ∀ {r : Except Err (EVal K)} {t : Ty}, t ≠ .int → Gives r (some t) z → ∃ v, r = .ok v ∧ v.toField = .ok z ∧ v.tag ≠ some .int := by
    rintro r t ht ⟨v, h1, h2, h3⟩
    exact ⟨v, h1, h3 (by simp), by rw [h2]; simpa using ht⟩
  rcases w with a | a | a | _ <;> rcases w' with b | b | b | _
  all_goals first
    | exact absurd ⟨rfl, rfl⟩ hi
    | exact fin (by simp) (hq a b h h')
    | exact fin (by simp) (hq a b (hint _ _ h) h')
    | exact fin (by simp) (hq a b h (hint _ _ h'))
    | (simp [EVal.toField] at h; done)
    | (simp [EVal.toField] at h'; done)
    | (simp only [binop, h, h']; exact fin (by simp) hk)

theorem scalarOp_num {o : Bin} {w w' : EVal K} {x y z : K} (h : w.toField = .ok x) (h' : w'.toField = .ok y)
    (hi : ¬ (w.tag = some .int ∧ w'.tag = some .int)) (ho : NumOp K o x y z) :
    ∃ v, scalarOp o w w' = .ok v ∧ v.toField = .ok z ∧ v.tag ≠ some .int := by
  cases ho with
  | add =>
    exact scalar_gives h h' hi (fun a b ha hb => ⟨.frac (a + b), rfl, rfl, fun _ => ratField_add ha hb⟩) ⟨.fld (x + y), rfl, rfl, fun _ => rfl⟩
  | sub =>
    exact scalar_gives h h' hi (fun a b ha hb => ⟨.frac (a - b), rfl, rfl, fun _ => ratField_sub ha hb⟩) ⟨.fld (x - y), rfl, rfl, fun _ => rfl⟩
  | mul =>
    exact scalar_gives h h' hi (fun a b ha hb => ⟨.frac (a * b), rfl, rfl, fun _ => ratField_mul ha hb⟩) ⟨.fld (x * y), rfl, rfl, fun _ => rfl⟩
  | div _ _ hy =>
    rw [show scalarOp (K := K) .div = vDiv from rfl, vDiv]
    refine scalar_gives h h' hi (fun a b ha hb => ?_) ?_
    · obtain ⟨h1, h2⟩ := ratField_div ha hb hy
      exact ⟨.frac (a / b), by simp [h2], rfl, fun _ => h1⟩
    · exact ⟨.fld (x / y), by simp [hy], rfl, fun _ => rfl⟩

theorem arrayOp_const {o : Bin} {x y z : K} (ho : NumOp K o x y z) : arrayOp o (.const x) (.const y) = .ok (.arr (.const z)) := by
  cases ho with
  | add => exact congrArg asArr (zip_const_left (r := 1) (c := 1) (· + ·) x fun _ _ => y)
  | sub => exact congrArg asArr (zip_const_left (r := 1) (c := 1) (· - ·) x fun _ _ => y)
  | mul => exact congrArg asArr (zip_const_left (r := 1) (c := 1) (· * ·) x fun _ _ => y)
  | div _ _ hy => exact congrArg asArr (div_const_right (r := 1) (c := 1) y hy fun _ _ => x)

theorem mixedOp_num {o : Bin} (ho : o ≠ .matmul) (f : Arr K → Except Err (PVal K)) {w : EVal K} {x : K} (h : w.toField = .ok x) :
    mixedOp o f w = f (.const x) := by
  unfold mixedOp
  simp only [if_neg ho]
  rcases w with _ | _ | _ | _ <;> first | (simp [EVal.toField] at h; done) | simp only [h]

theorem numOp_ne {o : Bin} {x y z : K} (ho : NumOp K o x y z) : o ≠ .matmul ∧ o ≠ .pow := by cases ho <;> simp

/-- How a number comes. -/
theorem rep_num {v : PVal K} {q : Quant K} {x : K} (h : Rep v q) (hx : q.IsNum x) :
    (∃ w, v = .sc w ∧ w.toField = .ok x ∧ (w.tag = some .int → q.isInt)) ∨ (v = .arr (.const x) ∧ ¬ q.isInt) := by
  cases hx with
  | int m =>
    cases h
    exact .inl ⟨_, rfl, rfl, fun _ => trivial⟩
  | scal x =>
    cases h with
    | scal w _ h hi => exact .inl ⟨w, rfl, h, fun h => absurd h hi⟩
    | one => exact .inr ⟨rfl, id⟩
  | one M =>
    cases h
    refine .inr ⟨?_, id⟩
    congr 2
    funext i j
    rw [Subsingleton.elim i 0, Subsingleton.elim j 0]

theorem binVal_num {o : Bin} {v v' : PVal K} {q q' : Quant K} {x y z : K} (h : Rep v q) (h' : Rep v' q') (hx : q.IsNum x) (hy : q'.IsNum y)
    (hi : ¬ (q.isInt ∧ q'.isInt)) (ho : NumOp K o x y z) : ∃ u, binVal o v v' = .ok u ∧ Rep u (.scal z) := by
  obtain ⟨hm, hp⟩ := numOp_ne ho
  rcases rep_num h hx with ⟨w, rfl, h1, h2⟩ | ⟨rfl, -⟩ <;> rcases rep_num h' hy with ⟨w', rfl, k1, k2⟩ | ⟨rfl, -⟩
  · obtain ⟨u, e1, e2, e3⟩ := scalarOp_num h1 k1 (fun hh => hi ⟨h2 hh.1, k2 hh.2⟩) ho
    exact ⟨.sc u, by simp [binVal, e1, asSc], .scal _ _ e2 e3⟩
  · refine ⟨.arr (.const z), ?_, .one z⟩
    simp only [binVal]
    rw [mixedOp_num hm _ h1]
    exact arrayOp_const ho
  · refine ⟨.arr (.const z), ?_, .one z⟩
    have : binVal o (.arr (.const x)) (.sc w') = mixedOp o (arrayOp o (.const x)) w' := by
      cases o <;> first | rfl | exact absurd rfl hp
    rw [this, mixedOp_num hm _ k1]
    exact arrayOp_const ho
  · exact ⟨.arr (.const z), arrayOp_const ho, .one z⟩

theorem binVal_numMat {v : PVal K} {q : Quant K} {x : K} (h : Rep v q) (hx : q.IsNum x) {r c : ℕ} (M : Matrix (Fin r) (Fin c) K) :
    binVal .mul v (.arr ⟨r, c, M⟩) = .ok (.arr ⟨r, c, x • M⟩) := by
  have key : arrayOp .mul (.const x) ⟨r, c, M⟩ = .ok (.arr ⟨r, c, x • M⟩) := congrArg asArr (zip_const_left _ x M)
  rcases rep_num h hx with ⟨w, rfl, h1, h2⟩ | ⟨rfl, -⟩
  · simp only [binVal]
    rw [mixedOp_num (by simp) _ h1]
    exact key
  · exact key

theorem binVal_matNum {v : PVal K} {q : Quant K} {x : K} (h : Rep v q) (hx : q.IsNum x) {r c : ℕ} (M : Matrix (Fin r) (Fin c) K) :
    binVal .mul (.arr ⟨r, c, M⟩) v = .ok (.arr ⟨r, c, x • M⟩) := by
  have key : arrayOp .mul ⟨r, c, M⟩ (.const x) = .ok (.arr ⟨r, c, x • M⟩) := by
    refine (congrArg asArr (zip_const_right _ x M)).trans ?_
    simp only [asArr]
    congr 3
    funext i j
    exact mul_comm _ _
  rcases rep_num h hx with ⟨w, rfl, h1, h2⟩ | ⟨rfl, -⟩
  · simp only [binVal]
    rw [mixedOp_num (by simp) _ h1]
    exact key
  · exact key

theorem binVal_matDiv {v : PVal K} {q : Quant K} {x : K} (h : Rep v q) (hx : q.IsNum x) (h0 : x ≠ 0) {r c : ℕ} (M : Matrix (Fin r) (Fin c) K) :
    binVal .div (.arr ⟨r, c, M⟩) v = .ok (.arr ⟨r, c, x⁻¹ • M⟩) := by
  have key : arrayOp .div ⟨r, c, M⟩ (.const x) = .ok (.arr ⟨r, c, x⁻¹ • M⟩) := by
    refine (congrArg asArr (div_const_right x h0 M)).trans ?_
    simp only [asArr]
    congr 3
    funext i j
    simp [div_eq_mul_inv, mul_comm]
  rcases rep_num h hx with ⟨w, rfl, h1, h2⟩ | ⟨rfl, -⟩
  · simp only [binVal]
    rw [mixedOp_num (by simp) _ h1]
    exact key
  · exact key

theorem binVal_matmul {r k c : ℕ} (M : Matrix (Fin r) (Fin k) K) (N : Matrix (Fin k) (Fin c) K) :
    binVal .matmul (.arr ⟨r, k, M⟩) (.arr ⟨k, c, N⟩) = .ok (.arr ⟨r, c, M * N⟩) := by
  simp only [binVal, arrayOp, Arr.matmul, if_true, asArr, entry_get]
  congr 1

theorem join_beside {r c d : ℕ} (M : Matrix (Fin r) (Fin c) K) (N : Matrix (Fin r) (Fin d) K) :
    Arr.beside ⟨r, c, M⟩ ⟨r, d, N⟩ = .ok ⟨r, c + d, fun i => Fin.append (M i) (N i)⟩ := by
  simp only [Arr.beside, if_true]
  congr 3
  funext i j
  refine Fin.addCases (fun j => ?_) (fun j => ?_) j
  · rw [Fin.append_left, if_pos (by simp)]
    exact entry_get M i j
  · rw [Fin.append_right, if_neg (by simp)]
    simpa using entry_get N i j

theorem join_above {r s c : ℕ} (M : Matrix (Fin r) (Fin c) K) (N : Matrix (Fin s) (Fin c) K) :
    Arr.above ⟨r, c, M⟩ ⟨s, c, N⟩ = .ok ⟨r + s, c, fun i j => Fin.append (fun k => M k j) (fun k => N k j) i⟩ := by
  simp only [Arr.above, if_true]
  congr 3
  funext i j
  refine Fin.addCases (fun i => ?_) (fun i => ?_) i
  · rw [Fin.append_left, if_pos (by simp)]
    exact entry_get M i j
  · rw [Fin.append_right, if_neg (by simp)]
    simpa using entry_get N i j

theorem covers_bounds {len lo k : ℕ} {ix : Ix} (h : Covers len ix lo k) : ∃ l u, ix = .slice l u ∧ lowOf len l = lo ∧ highOf len u = lo + k := by
  cases h with
  | all => exact ⟨none, none, rfl, rfl, by simp [highOf]⟩
  | part lo k h =>
    refine ⟨_, _, rfl, ?_, ?_⟩
    · simp only [lowOf, bound]
      rw [if_neg (by omega)]
      simp only [Int.toNat_natCast]
      omega
    · simp only [highOf, bound]
      rw [if_neg (by omega)]
      simp only [Int.toNat_natCast]
      omega

theorem cut_eq (A : Arr K) {a b c d k k' : ℕ} (hb : b - a = k) (hd : d - c = k') :
    A.cut a b c d = ⟨k, k', fun i j => A.entry (a + i) (c + j)⟩ := by
  subst hb hd
  rfl

/-! ### The value of an expression -/

/-- C106: an expression of numbers and matrices with open indices that means something in matrix algebra evaluates to what it means. -/
theorem C106_value (leaf : List Char → Except Err (PVal K)) (env : List Char → Option (Quant K))
    (hl : ∀ t q, env t = some q → ∃ v, leaf t = .ok v ∧ Rep v q) {a : Node} {q : Quant K} (h : Means env a q) :
    ∃ v, evalArr leaf a = .ok v ∧ Rep v q := by
  induction h with
  | num k => exact ⟨_, by simp only [evalArr], .int k⟩
  | fraction a b hb =>
    have hb' : b ≠ 0 := by rintro rfl; simp at hb
    refine ⟨.sc (.frac (a / b)), by simp [evalArr, hb'], .scal _ _ ?_ (by simp [EVal.tag])⟩
    have h1 := ratField_int (K := K) (a : ℤ)
    have h2 := ratField_int (K := K) (b : ℤ)
    push_cast at h1 h2
    exact (ratField_div h1 h2 hb).1
  | name t q ht => simpa only [evalArr] using hl t q ht
  | eps => exact ⟨.arr epsArr, by simp [evalArr], .mat 2 2 _⟩
  | pos _ ih =>
    obtain ⟨v, h1, h2⟩ := ih
    refine ⟨v, ?_, h2⟩
    simp only [evalArr, h1]
    cases h2 <;> rfl
  | negInt _ ih =>
    obtain ⟨v, h1, h2⟩ := ih
    cases h2
    exact ⟨_, by simp only [evalArr, h1, negVal, vNeg], .int _⟩
  | @negScal a x _ ih =>
    obtain ⟨v, h1, h2⟩ := ih
    cases h2 with
    | scal w x hw hi =>
      refine ⟨.sc (vNeg w), by simp only [evalArr, h1, negVal], .scal _ _ ?_ ?_⟩
      · rcases w with m | a | a | _
        · simp only [EVal.toField, Except.ok.injEq] at hw; simp [vNeg, EVal.toField, hw]
        · exact ratField_neg hw
        · simp only [EVal.toField, Except.ok.injEq] at hw; simp [vNeg, EVal.toField, hw]
        · simp [EVal.toField] at hw
      · rcases w with m | a | a | _ <;> first | exact absurd rfl hi | simp [vNeg, EVal.tag]
    | one => exact ⟨.arr (.const (-x)), by simp only [evalArr, h1, negVal]; rfl, .one _⟩
  | negMat _ ih =>
    obtain ⟨v, h1, h2⟩ := ih
    cases h2
    exact ⟨_, by simp only [evalArr, h1, negVal, Arr.neg], .mat _ _ _⟩
  | opInt _ _ ho iha ihb =>
    obtain ⟨v, h1, h2⟩ := iha
    obtain ⟨v', k1, k2⟩ := ihb
    cases h2
    cases k2
    cases ho with
    | add => exact ⟨_, by simp only [evalArr, h1, k1, binVal, scalarOp, vAdd, binop, asSc], .int _⟩
    | sub => exact ⟨_, by simp only [evalArr, h1, k1, binVal, scalarOp, vSub, binop, asSc], .int _⟩
    | mul => exact ⟨_, by simp only [evalArr, h1, k1, binVal, scalarOp, vMul, binop, asSc], .int _⟩
    | pow _ k => exact ⟨.sc (.int (_ ^ k)), by simp [evalArr, h1, k1, binVal, scalarOp, vPow, asSc], .int _⟩
  | opNum _ _ hx hy hi ho iha ihb =>
    obtain ⟨v, h1, h2⟩ := iha
    obtain ⟨v', k1, k2⟩ := ihb
    obtain ⟨u, e1, e2⟩ := binVal_num h2 k2 hx hy hi ho
    exact ⟨u, by simp only [evalArr, h1, k1, e1], e2⟩
  | @powNum a b x k _ _ hk iha ihb =>
    obtain ⟨v, h1, h2⟩ := iha
    obtain ⟨v', k1, k2⟩ := ihb
    cases k2
    cases h2 with
    | scal w x hw hi =>
      rcases w with m | z | z | _
      · exact absurd rfl hi
      · obtain ⟨h4, h5⟩ := ratField_zpow hw k hk
        exact ⟨.sc (.frac (z ^ k)), by simp only [evalArr, h1, k1, binVal, scalarOp, vPow, if_neg h5, asSc], .scal _ _ h4 (by simp [EVal.tag])⟩
      · simp only [EVal.toField, Except.ok.injEq] at hw
        subst hw
        exact ⟨.sc (.fld (z ^ k)), by simp only [evalArr, h1, k1, binVal, scalarOp, vPow, if_neg hk, asSc], .scal _ _ rfl (by simp [EVal.tag])⟩
      · simp [EVal.toField] at hw
    | one =>
      have h5 : ¬ (k < 0 ∧ ∃ i j, (Arr.const x).get i j = 0) := fun hh => hk ⟨hh.1, hh.2.choose_spec.choose_spec⟩
      exact ⟨.arr (.const (x ^ k)), by simp only [evalArr, h1, k1, binVal, Arr.pow, if_neg h5, asArr]; rfl, .one _⟩
  | @addMat a b r c M N _ _ iha ihb =>
    obtain ⟨v, h1, h2⟩ := iha
    obtain ⟨v', k1, k2⟩ := ihb
    cases h2
    cases k2
    exact ⟨.arr ⟨r, c, M + N⟩, by simp only [evalArr, h1, k1, binVal, arrayOp, zip_same, asArr]; rfl, .mat _ _ _⟩
  | @subMat a b r c M N _ _ iha ihb =>
    obtain ⟨v, h1, h2⟩ := iha
    obtain ⟨v', k1, k2⟩ := ihb
    cases h2
    cases k2
    exact ⟨.arr ⟨r, c, M - N⟩, by simp only [evalArr, h1, k1, binVal, arrayOp, zip_same, asArr]; rfl, .mat _ _ _⟩
  | matmul _ _ iha ihb =>
    obtain ⟨v, h1, h2⟩ := iha
    obtain ⟨v', k1, k2⟩ := ihb
    cases h2
    cases k2
    exact ⟨_, by simp only [evalArr, h1, k1, binVal_matmul], .mat _ _ _⟩
  | numMat _ hx _ iha ihb =>
    obtain ⟨v, h1, h2⟩ := iha
    obtain ⟨v', k1, k2⟩ := ihb
    cases k2
    exact ⟨_, by simp only [evalArr, h1, k1, binVal_numMat h2 hx], .mat _ _ _⟩
  | matNum _ _ hx iha ihb =>
    obtain ⟨v, h1, h2⟩ := iha
    obtain ⟨v', k1, k2⟩ := ihb
    cases h2
    exact ⟨_, by simp only [evalArr, h1, k1, binVal_matNum k2 hx], .mat _ _ _⟩
  | matDiv _ _ hx h0 iha ihb =>
    obtain ⟨v, h1, h2⟩ := iha
    obtain ⟨v', k1, k2⟩ := ihb
    cases h2
    exact ⟨_, by simp only [evalArr, h1, k1, binVal_matDiv k2 hx h0], .mat _ _ _⟩
  | transpose _ ih =>
    obtain ⟨v, h1, h2⟩ := ih
    cases h2
    exact ⟨_, by simp only [evalArr, h1, transposeVal, Arr.transpose], .mat _ _ _⟩
  | beside _ _ iha ihb =>
    obtain ⟨v, h1, h2⟩ := iha
    obtain ⟨v', k1, k2⟩ := ihb
    cases h2
    cases k2
    exact ⟨_, by simp only [evalArr, evalArrs, h1, k1, blockVal, arrsIn, Option.map_some, joinArrs, join_beside, asArr], .mat _ _ _⟩
  | above _ _ iha ihb =>
    obtain ⟨v, h1, h2⟩ := iha
    obtain ⟨v', k1, k2⟩ := ihb
    cases h2
    cases k2
    exact ⟨_, by simp only [evalArr, evalArrs, h1, k1, blockVal, arrsIn, listsIn, Option.map_some, Option.bind_some, allOk, List.map_cons,
      List.map_nil, joinArrs, join_above, asArr], .mat _ _ _⟩
  | @cut a r c M ix iy lo k lo' k' _ hx hy hr hc ih =>
    obtain ⟨v, h1, h2⟩ := ih
    cases h2
    obtain ⟨l, u, rfl, e1, e2⟩ := covers_bounds hx
    obtain ⟨l', u', rfl, e3, e4⟩ := covers_bounds hy
    refine ⟨.arr ⟨k, k', fun i j => M ⟨lo + i, by omega⟩ ⟨lo' + j, by omega⟩⟩, ?_, .mat _ _ _⟩
    simp only [evalArr, h1, subscriptVal]
    rw [cut_eq _ (k := k) (k' := k') (by simp only [e1, e2]; omega) (by simp only [e3, e4]; omega)]
    simp only [e1, e3]
    congr 3
    funext i j
    exact entry_get M ⟨lo + i, by omega⟩ ⟨lo' + j, by omega⟩

/-- C106: a number comes back from `compute` as a number, whatever intermediate arrays have one entry; a matrix with more entries
comes back as it is. -/
theorem C106_scalar (v : PVal K) (q : Quant K) (h : Rep v q) :
    (∀ x, q.IsNum x → ∃ w, asScalar v = .sc w ∧ w.toField = .ok x) ∧
    (∀ r c M, q = .mat r c M → r * c ≠ 1 → asScalar v = .arr ⟨r, c, M⟩) := by
  refine ⟨fun x hx => ?_, ?_⟩
  · rcases rep_num h hx with ⟨w, rfl, h1, -⟩ | ⟨rfl, -⟩
    · exact ⟨w, rfl, h1⟩
    · exact ⟨.fld x, by simp [asScalar, Arr.const, Arr.entry], rfl⟩
  · rintro r c M rfl hrc
    cases h
    simp [asScalar, hrc]

/-- An expression without arrays as a syntax tree. -/
def Ast.node : Ast EAtom → Node
  | .atom (.num k) => .num k
  | .atom (.rat a b) => .fraction a b
  | .atom (.leaf t) => .oPs t
  | .pos a => .pos a.node
  | .neg a => .neg a.node
  | .add a b => .bin .add a.node b.node
  | .sub a b => .bin .sub a.node b.node
  | .mul a b => .bin .mul a.node b.node
  | .div a b => .bin .div a.node b.node
  | .pow a b => .bin .pow a.node b.node

/-- A number as a value. -/
def numberVal (r : Except Err K) : Except Err (PVal K) := asSc (r.map .fld)

/-- C106: without arrays the evaluation is the one of C81. -/
theorem C106_numbers (leaf : List Char → Except Err K) (e : Ast EAtom) :
    evalArr (fun t => numberVal (leaf t)) e.node = asSc (evalNode leaf e) := by
  have two : ∀ (o : Bin) (f : EVal K → EVal K → Except Err (EVal K)) (a b : Node) (x y : Except Err (EVal K)), scalarOp o = f →
      evalArr (fun t => numberVal (leaf t)) a = asSc x → evalArr (fun t => numberVal (leaf t)) b = asSc y →
      evalArr (fun t => numberVal (leaf t)) (.bin o a b) = asSc (lift₂ f x y) := by
    rintro o f a b x y rfl h1 h2
    rcases x with x | x <;> rcases y with y | y <;> simp [evalArr, h1, h2, asSc, lift₂, binVal]
  induction e with
  | atom x =>
    rcases x with k | ⟨a, b⟩ | t
    · simp [Ast.node, evalArr, evalNode, asSc]
    · by_cases hb : b = 0 <;> simp [Ast.node, evalArr, evalNode, asSc, hb]
    · rcases h : leaf t with e | x <;> simp [Ast.node, evalArr, evalNode, asSc, h, numberVal, Except.map]
  | pos a ih =>
    rw [Ast.node, evalArr, ih, evalNode]
    rcases evalNode leaf a with e | x <;> rfl
  | neg a ih =>
    rw [Ast.node, evalArr, ih, evalNode]
    rcases evalNode leaf a with e | x <;> simp [asSc, negVal]
  | add a b iha ihb => exact two .add _ _ _ _ _ rfl iha ihb
  | sub a b iha ihb => exact two .sub _ _ _ _ _ rfl iha ihb
  | mul a b iha ihb => exact two .mul _ _ _ _ _ rfl iha ihb
  | div a b iha ihb => exact two .div _ _ _ _ _ rfl iha ihb
  | pow a b iha ihb => exact two .pow _ _ _ _ _ rfl iha ihb

/-! ### Slices and indices -/

theorem range_filter (a b : ℕ) : ∀ r, b ≤ r → (List.range r).filter (fun p => decide (a ≤ p ∧ p < b)) = List.range' a (b - a)
  | 0, h => by obtain rfl : b = 0 := by omega
               simp
  | r + 1, h => by
    rw [List.range_succ, List.filter_append]
    rcases Nat.lt_or_ge r b with hb | hb
    · obtain rfl : b = r + 1 := by omega
      have e : (List.range r).filter (fun p => decide (a ≤ p ∧ p < r + 1)) = (List.range r).filter (fun p => decide (a ≤ p ∧ p < r)) := by
        refine List.filter_congr fun p hp => ?_
        rw [List.mem_range] at hp
        exact decide_eq_decide.mpr (by omega)
      rw [e, range_filter a r r le_rfl]
      rcases Nat.lt_or_ge r a with ha | ha
      · rw [show r - a = 0 by omega, show r + 1 - a = 0 by omega]; simp; omega
      · rw [show r + 1 - a = (r - a) + 1 by omega, List.range'_concat]
        simp [ha]
    · rw [range_filter a b r hb]; simp; omega

theorem inSlice_iff (len : ℕ) (lo hi : Option ℤ) (p : ℕ) (hp : p < len) : InSlice len lo hi p ↔ lowOf len lo ≤ p ∧ p < highOf len hi := by
  unfold InSlice
  refine and_congr ?_ ?_
  · rcases lo with _ | k
    · simp [lowOf]
    · simp only [Option.mem_def, Option.some.injEq, forall_eq', lowOf, bound]
      split_ifs <;> omega
  · rcases hi with _ | k
    · simpa [highOf] using hp
    · simp only [Option.mem_def, Option.some.injEq, forall_eq', highOf, bound]
      split_ifs <;> omega

open Classical in
/-- The positions of a slice, in order. -/
noncomputable def slicePositions (len : ℕ) (lo hi : Option ℤ) : List (Fin len) := (List.finRange len).filter fun p => InSlice len lo hi p

theorem slicePositions_val (len : ℕ) (lo hi : Option ℤ) :
    (slicePositions len lo hi).map Fin.val = List.range' (lowOf len lo) (highOf len hi - lowOf len lo) := by
  classical
  have hh : highOf len hi ≤ len := by rcases hi with _ | k <;> simp only [highOf, bound] <;> [exact le_rfl; (split_ifs <;> omega)]
  rw [← range_filter (lowOf len lo) (highOf len hi) len hh, ← List.map_coe_finRange_eq_range, List.filter_map]
  unfold slicePositions
  congr 1
  refine List.filter_congr fun p _ => ?_
  exact decide_eq_decide.mpr (inSlice_iff len lo hi p p.isLt)

theorem slicePositions_length (len : ℕ) (lo hi : Option ℤ) : (slicePositions len lo hi).length = highOf len hi - lowOf len lo := by
  rw [← List.length_map (f := Fin.val), slicePositions_val, List.length_range']

theorem slicePositions_get (len : ℕ) (lo hi : Option ℤ) (i : ℕ) (h : i < (slicePositions len lo hi).length) :
    ((slicePositions len lo hi)[i] : ℕ) = lowOf len lo + i := by
  have e : ((slicePositions len lo hi).map Fin.val)[i]'(by simpa using h) = ((slicePositions len lo hi)[i] : ℕ) := List.getElem_map ..
  rw [← e]
  simp only [slicePositions_val, List.getElem_range', one_mul]

theorem arr_eq {A : Arr K} {r c : ℕ} {M : Matrix (Fin r) (Fin c) K} (hr : A.rows = r) (hc : A.cols = c)
    (h : ∀ (i : Fin r) (j : Fin c), A.entry i j = M i j) : A = ⟨r, c, M⟩ := by
  obtain ⟨r', c', M'⟩ := A
  subst hr hc
  congr 1
  funext i j
  rw [← h i j, Arr.entry, dif_pos ⟨i.isLt, j.isLt⟩]

/-- C106: a slice has the rows and the columns between its bounds. -/
theorem C106_slice (leaf : List Char → Except Err (PVal K)) (a : Node) {r c : ℕ} (M : Matrix (Fin r) (Fin c) K)
    (ha : evalArr leaf a = .ok (.arr ⟨r, c, M⟩)) (l h l' h' : Option ℤ) :
    evalArr leaf (.subscript a [.slice l h, .slice l' h']) =
      .ok (.arr ⟨(slicePositions r l h).length, (slicePositions c l' h').length,
        fun i j => M ((slicePositions r l h)[i]) ((slicePositions c l' h')[j])⟩) ∧
    evalArr leaf (.subscript a [.slice l h]) =
      .ok (.arr ⟨(slicePositions r l h).length, c, fun i j => M ((slicePositions r l h)[i]) j⟩) := by
  constructor
  · simp only [evalArr, ha, subscriptVal]
    congr 2
    refine arr_eq (slicePositions_length r l h).symm (slicePositions_length c l' h').symm fun i j => ?_
    have hi := slicePositions_get r l h i i.isLt
    have hj := slicePositions_get c l' h' j j.isLt
    rw [Arr.entry, dif_pos ⟨by simpa only [Arr.cut, ← slicePositions_length] using i.isLt,
      by simpa only [Arr.cut, ← slicePositions_length] using j.isLt⟩]
    simp only [Arr.cut]
    rw [← hi, ← hj]
    exact entry_get M _ _
  · simp only [evalArr, ha, subscriptVal]
    congr 2
    refine arr_eq (slicePositions_length r l h).symm (Nat.sub_zero c) fun i j => ?_
    have hi := slicePositions_get r l h i i.isLt
    rw [Arr.entry, dif_pos ⟨by simpa only [Arr.cut, ← slicePositions_length] using i.isLt, by simp only [Arr.cut]; omega⟩]
    simp only [Arr.cut, zero_add]
    rw [← hi]
    exact entry_get M _ _

/-- C106: two integers pick the entry, counted from the end if they are negative; beyond the ends they raise. -/
theorem C106_entry (leaf : List Char → Except Err (PVal K)) (a : Node) {r c : ℕ} (M : Matrix (Fin r) (Fin c) K)
    (ha : evalArr leaf a = .ok (.arr ⟨r, c, M⟩)) (i j : ℤ) :
    (∀ p q : ℕ, (i = p ∨ i = (p : ℤ) - r) → (j = q ∨ j = (q : ℤ) - c) → ∀ (hp : p < r) (hq : q < c),
      evalArr leaf (.subscript a [.pos i, .pos j]) = .ok (.sc (.fld (M ⟨p, hp⟩ ⟨q, hq⟩)))) ∧
    (i < -r ∨ r ≤ i ∨ j < -c ∨ c ≤ j → evalArr leaf (.subscript a [.pos i, .pos j]) = .error .indexError) := by
  have ok : ∀ (len : ℕ) (k : ℤ) (p : ℕ), (k = p ∨ k = (p : ℤ) - len) → p < len → indexOf len k = .ok p := by
    intro len k p hk hp
    have e : (if k < 0 then k + len else k) = (p : ℤ) := by split_ifs <;> omega
    simp only [indexOf, e]
    rw [if_pos ⟨by omega, by omega⟩]; simp
  have bad : ∀ (len : ℕ) (k : ℤ), k < -len ∨ len ≤ k → indexOf len k = .error .indexError := by
    intro len k hk
    simp only [indexOf]
    exact if_neg (by split_ifs <;> omega)
  have all : ∀ (len : ℕ) (k : ℤ), (∃ p, indexOf len k = .ok p) ∨ indexOf len k = .error .indexError := by
    intro len k
    simp only [indexOf]
    by_cases hk : 0 ≤ (if k < 0 then k + (len : ℤ) else k) ∧ (if k < 0 then k + (len : ℤ) else k) < len
    · exact .inl ⟨_, if_pos hk⟩
    · exact .inr (if_neg hk)
  constructor
  · intro p q hp hq hp' hq'
    simp only [evalArr, ha, subscriptVal, ok r i p hp hp', ok c j q hq hq']
    rw [show (Arr.mk r c M).entry p q = M ⟨p, hp'⟩ ⟨q, hq'⟩ from entry_get M ⟨p, hp'⟩ ⟨q, hq'⟩]
  · intro h
    simp only [evalArr, ha, subscriptVal]
    by_cases hi : i < -r ∨ r ≤ i
    · rw [bad r i hi]
    · rw [bad c j (by omega)]
      rcases all r i with ⟨p, e⟩ | e <;> rw [e]

/-! ### What is refused -/

/-- C106: a name other than `ϵ`, and a call of a function other than those of the module, raises TypeError, whatever its arguments. -/
theorem C106_refuses (leaf : List Char → Except Err (PVal K)) :
    (∀ id, id ≠ ['ε'] → id ≠ ['ϵ'] → evalArr leaf (.name id) = .error .typeError) ∧
    (∀ f args, f ∉ ["oPs".toList, "Fraction".toList, "PAdic".toList] → evalArr leaf (.call f args) = .error .typeError) := by
  refine ⟨fun id h h' => ?_, fun f args h => ?_⟩
  · simp only [evalArr]
    rw [if_neg (not_or.mpr ⟨h, h'⟩)]
  · simp only [evalArr]
    exact if_neg h

/-- C106: products of arrays whose inner lengths differ, sums of arrays of different lengths neither of which is one, and products `@`
with a number raise. -/
theorem C106_shapes (leaf : List Char → Except Err (PVal K)) (a b : Node) (A B : Arr K) (ha : evalArr leaf a = .ok (.arr A)) :
    (evalArr leaf b = .ok (.arr B) → A.cols ≠ B.rows → evalArr leaf (.bin .matmul a b) = .error .valueError) ∧
    (evalArr leaf b = .ok (.arr B) → (A.rows ≠ B.rows ∧ A.rows ≠ 1 ∧ B.rows ≠ 1) ∨ (A.cols ≠ B.cols ∧ A.cols ≠ 1 ∧ B.cols ≠ 1) →
      evalArr leaf (.bin .add a b) = .error .valueError ∧ evalArr leaf (.bin .sub a b) = .error .valueError) ∧
    (∀ x, evalArr leaf b = .ok (.sc x) → x ≠ .other →
      evalArr leaf (.bin .matmul a b) = .error .valueError ∧ evalArr leaf (.bin .matmul b a) = .error .valueError) := by
  refine ⟨fun hb h => ?_, fun hb h => ?_, fun x hb hx => ?_⟩
  · simp [evalArr, ha, hb, binVal, arrayOp, Arr.matmul, h, asArr]
  · have hz : ∀ f : K → K → K, A.zip f B = .error .valueError := by
      intro f
      unfold Arr.zip
      rcases h with ⟨h1, h2, h3⟩ | ⟨h1, h2, h3⟩
      · have : broadcast A.rows B.rows = none := by simp [broadcast, h1, h2, h3]
        rw [this]
      · have : broadcast A.cols B.cols = none := by simp [broadcast, h1, h2, h3]
        rw [this]
        rcases broadcast A.rows B.rows with _ | _ <;> rfl
    simp [evalArr, ha, hb, binVal, arrayOp, hz, asArr]
  · cases x <;> simp_all [evalArr, binVal, mixedOp]

/-- C106: `@` of two numbers, a sign before a list and an index of a number raise TypeError. -/
theorem C106_types (leaf : List Char → Except Err (PVal K)) (a b : Node) :
    (∀ x y : K, (∃ v w : EVal K, evalArr leaf a = .ok (.sc v) ∧ evalArr leaf b = .ok (.sc w) ∧ v.toField = .ok x ∧ w.toField = .ok y) →
      evalArr leaf (.bin .matmul a b) = .error .typeError) ∧
    (∀ es vs, evalArrs leaf es = .ok vs → evalArr leaf (.neg (.list es)) = .error .typeError ∧ evalArr leaf (.pos (.list es)) = .error .typeError) ∧
    (∀ (v : EVal K) (x : K) ix, evalArr leaf a = .ok (.sc v) → v.toField = .ok x → evalArr leaf (.subscript a ix) = .error .typeError) := by
  refine ⟨fun x y ⟨v, w, ha, hb, hv, hw⟩ => ?_, fun es vs h => ?_, fun v x ix ha hv => ?_⟩
  · simp only [evalArr, ha, hb, binVal, scalarOp]
    cases v <;> cases w <;> first | rfl | (cases hv; done) | cases hw
  · simp [evalArr, h, negVal, posVal]
  · simp only [evalArr, ha]
    cases v <;> first | rfl | cases hv

/-- C106, where it fails: sums of different shapes do not all raise. A row plus a column is the table of all sums, a number is added
to every entry, and a row times a column is the table of all products, not their contraction.
Missing: an error, as for the shapes in `C106_shapes`. -/
theorem C106_spread_partial (leaf : List Char → Except Err (PVal K)) (a b s : Node) {m k : ℕ} (R : Matrix (Fin 1) (Fin k) K)
    (C : Matrix (Fin m) (Fin 1) K) (x : K) (ha : evalArr leaf a = .ok (.arr ⟨1, k, R⟩)) (hb : evalArr leaf b = .ok (.arr ⟨m, 1, C⟩))
    (hs : evalArr leaf s = .ok (.sc (.fld x))) :
    evalArr leaf (.bin .add a b) = .ok (.arr ⟨m, k, fun i j => R 0 j + C i 0⟩) ∧
    evalArr leaf (.bin .mul a b) = .ok (.arr ⟨m, k, fun i j => R 0 j * C i 0⟩) ∧
    evalArr leaf (.bin .add s b) = .ok (.arr ⟨m, 1, fun i j => x + C i j⟩) := by
  have hr : ∀ (i : ℕ) (j : Fin k), Arr.spread ⟨1, k, R⟩ i j = R 0 j := by
    intro i j
    have h2 : (if k = 1 then 0 else (j : ℕ)) = j := by split_ifs with h <;> [(subst h; simp); rfl]
    simp only [Arr.spread, h2, if_true]
    exact entry_get R 0 j
  have hc : ∀ (i : Fin m) (j : ℕ), Arr.spread ⟨m, 1, C⟩ i j = C i 0 := by
    intro i j
    have h2 : (if m = 1 then 0 else (i : ℕ)) = i := by split_ifs with h <;> [(subst h; simp); rfl]
    simp only [Arr.spread, h2, if_true]
    exact entry_get C i 0
  refine ⟨?_, ?_, ?_⟩
  · simp only [evalArr, ha, hb, binVal, arrayOp, Arr.zip, broadcast_one, broadcast_to_one, hr, hc, asArr]
  · simp only [evalArr, ha, hb, binVal, arrayOp, Arr.zip, broadcast_one, broadcast_to_one, hr, hc, asArr]
  · simp only [evalArr, hs, hb, binVal]
    rw [mixedOp_num (x := x) (by simp) _ rfl]
    exact congrArg asArr (zip_const_left _ x C)

/-! ### Gluing open strings -/

variable {n : ℕ}

/-- The text is that of a string beginning at a label, open at the end: `⟨a|..|`, or `⟨a|` alone, or with a square bracket. -/
def OpenEndText (n : ℕ) (t : List Char) (o : Char) (a : Fin n) (mid : List (Slot n)) : Prop :=
  (∀ c ∈ t, c ∉ boldChars) ∧ ∃ ta, readLabel n ta = .ok a ∧
    ((∃ ms, classify t = .openEnd o ta ms ∧ readSlots n ms = .ok mid) ∨
      (mid = [] ∧ ((o = '⟨' ∧ classify t = .Au ta) ∨ (o = '[' ∧ classify t = .Sd ta))))

/-- The text is that of a string open at the beginning and ending at a label. -/
def OpenBeginText (n : ℕ) (t : List Char) (mid : List (Slot n)) (d : Fin n) (c : Char) : Prop :=
  (∀ c ∈ t, c ∉ boldChars) ∧ ∃ td, readLabel n td = .ok d ∧
    ((∃ ms, classify t = .openBegin ms td c ∧ readSlots n ms = .ok mid) ∨
      (mid = [] ∧ ((c = '⟩' ∧ classify t = .Ad td) ∨ (c = ']' ∧ classify t = .Su td))))

/-- The text is that of a string open at both sides. -/
def DoubleOpenText (n : ℕ) (t : List Char) (mid : List (Slot n)) : Prop :=
  (∀ c ∈ t, c ∉ boldChars) ∧ ∃ ms, classify t = .doubleOpen ms ∧ readSlots n ms = .ok mid

theorem leafArr_plain (ps : Point K n) (fuel : ℕ) {t : List Char} (h : ∀ c ∈ t, c ∉ boldChars) {v : Val K}
    (hv : evalForm ps fuel (classify t) = some (.ok v)) : leafArr ps fuel t = .ok (shaped (classify t) v) := by
  rw [leafArr, rsubs_plain t h]
  simp only [hv]

/-- The spinors at the two ends of a string. -/
def frontOf (o : Char) (r l : V2 K) : V2 K := if o = '⟨' then ![r 1, -r 0] else l
def backOf (c : Char) (r l : V2 K) : V2 K := if c = '⟩' then r else ![l 1, -l 0]

theorem leaf_openEnd (c : Ctx K) (ps : Point K n) (fuel : ℕ) {t : List Char} {o : Char} {a : Fin n} {mid : List (Slot n)} {r l : V2 K}
    (ha : HasSpinors c (ps a) r l) (h : OpenEndText n t o a mid) :
    leafArr ps fuel t = .ok (.arr (rowArr (Matrix.vecMul (frontOf o r l) (chain ps (o = '⟨') mid)))) := by
  obtain ⟨hb, ta, h1, ⟨ms, h2, h3⟩ | ⟨rfl, ⟨rfl, h2⟩ | ⟨rfl, h2⟩⟩⟩ := h
  · have key : computeOpenEnd ps o a mid = .ok (Matrix.vecMul (frontOf o r l) (chain ps (o = '⟨') mid)) := by
      unfold computeOpenEnd frontOf
      by_cases ho : o = '⟨' <;> simp [ho, ha.r_u, ha.l_d, need_some]
    rw [leafArr_plain ps fuel hb (v := .vec _) (by rw [h2]; simp only [evalForm, h1, h3, key]; rfl), h2]
    rfl
  · rw [leafArr_plain ps fuel hb (v := .spinor (ps a).r_u) (by rw [h2]; simp only [evalForm, h1]), h2, ha.r_u]
    simp [shaped, chain, frontOf]
  · rw [leafArr_plain ps fuel hb (v := .spinor (ps a).l_d) (by rw [h2]; simp only [evalForm, h1]), h2, ha.l_d]
    simp [shaped, chain, frontOf]

theorem leaf_openBegin (c : Ctx K) (ps : Point K n) (fuel : ℕ) {t : List Char} {e : Char} {d : Fin n} {mid : List (Slot n)} {r l : V2 K}
    (hd : HasSpinors c (ps d) r l) (h : OpenBeginText n t mid d e) (he : e = '⟩' ∨ e = ']') :
    leafArr ps fuel t = .ok (.arr (colArr ((chain ps (typeAfter (e = '⟩') mid.length) mid).mulVec (backOf e r l)))) := by
  obtain ⟨hb, td, h1, ⟨ms, h2, h3⟩ | ⟨rfl, ⟨rfl, h2⟩ | ⟨rfl, h2⟩⟩⟩ := h
  · have key : computeOpenBegin ps mid d e = .ok ((chain ps (typeAfter (e = '⟩') mid.length) mid).mulVec (backOf e r l)) := by
      unfold computeOpenBegin backOf typeAfter
      rcases Nat.mod_two_eq_zero_or_one mid.length with hm | hm <;> rcases he with rfl | rfl <;>
        simp [hd.r_d, hd.l_u, need_some, hm]
    rw [leafArr_plain ps fuel hb (v := .vec _) (by rw [h2]; simp only [evalForm, h1, h3, key]; rfl), h2]
    rfl
  · rw [leafArr_plain ps fuel hb (v := .spinor (ps d).r_d) (by rw [h2]; simp only [evalForm, h1]), h2, hd.r_d]
    simp [shaped, chain, backOf]
  · rw [leafArr_plain ps fuel hb (v := .spinor (ps d).l_u) (by rw [h2]; simp only [evalForm, h1]), h2, hd.l_u]
    simp [shaped, chain, backOf]

theorem leaf_doubleOpen (ps : Point K n) (fuel : ℕ) {t : List Char} {mid : List (Slot n)} (h : DoubleOpenText n t mid) :
    leafArr ps fuel t = .ok (.arr ⟨2, 2, chain ps true mid⟩) := by
  obtain ⟨hb, ms, h2, h3⟩ := h
  rw [leafArr_plain ps fuel hb (v := .mat (chain ps true mid)) (by rw [h2]; simp only [evalForm, h3]; rfl), h2]
  rfl

/-- The brackets of a string with so many slots fit. -/
def Fits (o e : Char) (k : ℕ) : Prop :=
  (o = '⟨' ∧ e = '⟩' ∧ k % 2 = 0) ∨ (o = '⟨' ∧ e = ']' ∧ k % 2 = 1) ∨ (o = '[' ∧ e = ']' ∧ k % 2 = 0) ∨ (o = '[' ∧ e = '⟩' ∧ k % 2 = 1)

theorem computeNB_fits (c : Ctx K) (ps : Point K n) {a d : Fin n} {ra la rd ld : V2 K} (ha : HasSpinors c (ps a) ra la)
    (hd : HasSpinors c (ps d) rd ld) {o e : Char} (mid : List (Slot n)) (h : Fits o e mid.length) :
    computeNB ps o a mid d e = .ok (bil (frontOf o ra la) (chain ps (o = '⟨') mid) (backOf e rd ld)) := by
  obtain ⟨h1, h2, h3, h4⟩ := computeNB_ok c ps ha hd mid
  rcases h with ⟨rfl, rfl, h⟩ | ⟨rfl, rfl, h⟩ | ⟨rfl, rfl, h⟩ | ⟨rfl, rfl, h⟩
  · simpa [frontOf, backOf] using h1 h
  · simpa [frontOf, backOf] using h2 h
  · simpa [frontOf, backOf] using h3 h
  · simpa [frontOf, backOf] using h4 h

theorem fits_type {o e : Char} {j k : ℕ} (h : Fits o e (j + k)) : typeAfter (e = '⟩') k = typeAfter (o = '⟨') j ∧ (e = '⟩' ∨ e = ']') := by
  unfold typeAfter
  rcases h with ⟨rfl, rfl, h⟩ | ⟨rfl, rfl, h⟩ | ⟨rfl, rfl, h⟩ | ⟨rfl, rfl, h⟩ <;>
    rcases Nat.mod_two_eq_zero_or_one j with hj | hj <;> rcases Nat.mod_two_eq_zero_or_one k with hk | hk <;>
    first | (exfalso; omega) | simp [hj, hk]

theorem row_col (u w : V2 K) : binVal .matmul (.arr (rowArr u)) (.arr (colArr w)) = .ok (.arr (.const (dot2 u w))) := by
  refine (binVal_matmul _ _).trans ?_
  congr 3
  funext i j
  refine (Matrix.mul_apply ..).trans ?_
  simp [Fin.sum_univ_two, dot2]

theorem row_mat (u : V2 K) (M : M2 K) : binVal .matmul (.arr (rowArr u)) (.arr ⟨2, 2, M⟩) = .ok (.arr (rowArr (Matrix.vecMul u M))) := by
  refine (binVal_matmul _ _).trans ?_
  rfl

/-- C106: a string cut into two open pieces joined by `@` has the value of the whole string, and comes back as a number. -/
theorem C106_glue (c : Ctx K) (ps : Point K n) (fuel : ℕ) {a d : Fin n} {ra la rd ld : V2 K} (ha : HasSpinors c (ps a) ra la)
    (hd : HasSpinors c (ps d) rd ld) {o e : Char} {mid mid' : List (Slot n)} {u w : List Char} (hu : OpenEndText n u o a mid)
    (hw : OpenBeginText n w mid' d e) (h : Fits o e (mid ++ mid').length) :
    ∃ x, computeNB ps o a (mid ++ mid') d e = .ok x ∧ computeNode ps fuel (.bin .matmul (.oPs u) (.oPs w)) = .ok (.sc (.fld x)) := by
  rw [List.length_append] at h
  obtain ⟨ht, he⟩ := fits_type h
  refine ⟨_, computeNB_fits c ps ha hd _ (by rwa [List.length_append]), ?_⟩
  rw [computeNode]
  simp only [evalArr, leaf_openEnd c ps fuel ha hu, leaf_openBegin c ps fuel hd hw he, row_col, asScalar]
  rw [if_pos (by rfl), chain_append, ht]
  have : ∀ x : K, (Arr.const x).entry 0 0 = x := fun x => by simp [Arr.entry, Arr.const]
  rw [this]
  congr 3
  simp [bil_eq, dot2, Matrix.vecMul, Matrix.mulVec, dotProduct, Matrix.mul_apply, Fin.sum_univ_two]
  ring

/-- C106: so has a string cut into three pieces, when the piece open at both sides begins at an even place after an angle bracket or
at an odd place after a square one. -/
theorem C106_glue_middle (c : Ctx K) (ps : Point K n) (fuel : ℕ) {a d : Fin n} {ra la rd ld : V2 K} (ha : HasSpinors c (ps a) ra la)
    (hd : HasSpinors c (ps d) rd ld) {o e : Char} {mid mid' mid'' : List (Slot n)} {u v w : List Char} (hu : OpenEndText n u o a mid)
    (hv : DoubleOpenText n v mid') (hw : OpenBeginText n w mid'' d e) (h : Fits o e (mid ++ mid' ++ mid'').length)
    (hp : (o = '⟨' ∧ mid.length % 2 = 0) ∨ (o = '[' ∧ mid.length % 2 = 1)) :
    ∃ x, computeNB ps o a (mid ++ mid' ++ mid'') d e = .ok x ∧
      computeNode ps fuel (.bin .matmul (.bin .matmul (.oPs u) (.oPs v)) (.oPs w)) = .ok (.sc (.fld x)) := by
  rw [List.length_append] at h
  obtain ⟨ht, he⟩ := fits_type h
  refine ⟨_, computeNB_fits c ps ha hd _ (by rwa [List.length_append]), ?_⟩
  rw [computeNode]
  simp only [evalArr, leaf_openEnd c ps fuel ha hu, leaf_doubleOpen ps fuel hv, leaf_openBegin c ps fuel hd hw he, row_mat, row_col, asScalar]
  have hm : typeAfter (decide (o = '⟨')) mid.length = true := by
    unfold typeAfter
    rcases hp with ⟨rfl, hp⟩ | ⟨rfl, hp⟩ <;> simp [hp]
  rw [if_pos (by rfl), chain_append, ht, chain_append, hm]
  have : ∀ x : K, (Arr.const x).entry 0 0 = x := fun x => by simp [Arr.entry, Arr.const]
  rw [this]
  congr 3
  simp [bil_eq, dot2, Matrix.vecMul, Matrix.mulVec, dotProduct, Matrix.mul_apply, Fin.sum_univ_two]
  ring

/-- C106: brackets with a sum or difference of open strings between them have the sum or difference of the values of the two strings. -/
theorem C106_linear (c : Ctx K) (ps : Point K n) (fuel : ℕ) {a d : Fin n} {ra la rd ld : V2 K} (ha : HasSpinors c (ps a) ra la)
    (hd : HasSpinors c (ps d) rd ld) {e : Char} {mid mid' : List (Slot n)} {u v v' w : List Char} (hu : OpenEndText n u '⟨' a [])
    (hv : DoubleOpenText n v mid) (hv' : DoubleOpenText n v' mid') (hw : OpenBeginText n w [] d e) (h : Fits '⟨' e mid.length)
    (h' : Fits '⟨' e mid'.length) :
    ∃ x y, computeNB ps '⟨' a mid d e = .ok x ∧ computeNB ps '⟨' a mid' d e = .ok y ∧
      computeNode ps fuel (.bin .matmul (.bin .matmul (.oPs u) (.bin .add (.oPs v) (.oPs v'))) (.oPs w)) = .ok (.sc (.fld (x + y))) ∧
      computeNode ps fuel (.bin .matmul (.bin .matmul (.oPs u) (.bin .sub (.oPs v) (.oPs v'))) (.oPs w)) = .ok (.sc (.fld (x - y))) := by
  obtain ⟨-, he⟩ := fits_type (j := mid.length) (k := 0) (by simpa using h)
  have one : ∀ x : K, (Arr.const x).entry 0 0 = x := fun x => by simp [Arr.entry, Arr.const]
  have hadd : ∀ M N : M2 K, binVal .add (.arr ⟨2, 2, M⟩) (.arr ⟨2, 2, N⟩) = .ok (.arr ⟨2, 2, M + N⟩) := fun M N =>
    congrArg asArr (zip_same (· + ·) M N)
  have hsub : ∀ M N : M2 K, binVal .sub (.arr ⟨2, 2, M⟩) (.arr ⟨2, 2, N⟩) = .ok (.arr ⟨2, 2, M - N⟩) := fun M N =>
    congrArg asArr (zip_same (· - ·) M N)
  refine ⟨_, _, computeNB_fits c ps ha hd _ h, computeNB_fits c ps ha hd _ h', ?_, ?_⟩
  · rw [computeNode]
    simp only [evalArr, leaf_openEnd c ps fuel ha hu, leaf_doubleOpen ps fuel hv, leaf_doubleOpen ps fuel hv',
      leaf_openBegin c ps fuel hd hw he, hadd, row_mat, row_col, asScalar]
    rw [if_pos (by rfl), one]
    congr 3
    simp [chain, bil_eq, dot2, Matrix.vecMul, dotProduct, Fin.sum_univ_two]
    ring
  · rw [computeNode]
    simp only [evalArr, leaf_openEnd c ps fuel ha hu, leaf_doubleOpen ps fuel hv, leaf_doubleOpen ps fuel hv',
      leaf_openBegin c ps fuel hd hw he, hsub, row_mat, row_col, asScalar]
    rw [if_pos (by rfl), one]
    congr 3
    simp [chain, bil_eq, dot2, Matrix.vecMul, dotProduct, Fin.sum_univ_two]
    ring

/-- C106, where it fails: after a square bracket at an even place, or an angle bracket at an odd one, the piece open at both sides is read
with its two kinds of index exchanged, and another value comes out (Examples/EvalArr has a point at which it differs).
Missing: the value of the string, `chain ps false mid'` in place of `chain ps true mid'`. -/
theorem C106_glue_middle_partial (c : Ctx K) (ps : Point K n) (fuel : ℕ) {a d : Fin n} {ra la rd ld : V2 K} (ha : HasSpinors c (ps a) ra la)
    (hd : HasSpinors c (ps d) rd ld) {o e : Char} {mid mid' mid'' : List (Slot n)} {u v w : List Char} (hu : OpenEndText n u o a mid)
    (hv : DoubleOpenText n v mid') (hw : OpenBeginText n w mid'' d e) (h : Fits o e (mid ++ mid' ++ mid'').length)
    (hp : (o = '⟨' ∧ mid.length % 2 = 1) ∨ (o = '[' ∧ mid.length % 2 = 0)) :
    let back := chain ps (typeAfter (o = '⟨') (mid ++ mid').length) mid''
    computeNB ps o a (mid ++ mid' ++ mid'') d e =
      .ok (bil (frontOf o ra la) (chain ps (o = '⟨') mid * chain ps false mid' * back) (backOf e rd ld)) ∧
    computeNode ps fuel (.bin .matmul (.bin .matmul (.oPs u) (.oPs v)) (.oPs w)) =
      .ok (.sc (.fld (bil (frontOf o ra la) (chain ps (o = '⟨') mid * chain ps true mid' * back) (backOf e rd ld)))) := by
  intro back
  have hm : typeAfter (decide (o = '⟨')) mid.length = false := by
    unfold typeAfter
    rcases hp with ⟨rfl, hp⟩ | ⟨rfl, hp⟩ <;> simp [hp]
  rw [List.length_append] at h
  obtain ⟨ht, he⟩ := fits_type h
  refine ⟨?_, ?_⟩
  · rw [computeNB_fits c ps ha hd _ (by rwa [List.length_append]), chain_append, chain_append, hm]
  · rw [computeNode]
    simp only [evalArr, leaf_openEnd c ps fuel ha hu, leaf_doubleOpen ps fuel hv, leaf_openBegin c ps fuel hd hw he, row_mat, row_col, asScalar]
    rw [if_pos (by rfl), ht]
    have : ∀ x : K, (Arr.const x).entry 0 0 = x := fun x => by simp [Arr.entry, Arr.const]
    rw [this]
    congr 3
    simp [back, bil_eq, dot2, Matrix.vecMul, Matrix.mulVec, dotProduct, Matrix.mul_apply, Fin.sum_univ_two]
    ring

/-! ### Spinors of massive particles with an index -/

/-- `(ϵ@block([[⟨i|], [⟨i+1|]]))[0:1, :]`, particles_eval.py:121-122, given the names of the two spinors. -/
def lowAngleRow (u v : List Char) : Node :=
  .subscript (.bin .matmul (.name ['ϵ']) (.block (.list [.list [.oPs u], .list [.oPs v]]))) [.slice (some 0) (some 1), .slice none none]

/-- `(block([|i⟩, |i+1⟩])@-ϵ)[:, 0:1]`, particles_eval.py:123-124. -/
def lowAngleCol (u v : List Char) : Node :=
  .subscript (.bin .matmul (.block (.list [.oPs u, .oPs v])) (.neg (.name ['ϵ']))) [.slice none none, .slice (some 0) (some 1)]

/-- `(-ϵ@block([[[i|], [[i+1|]]))[0:1, :]`, particles_eval.py:125-126. -/
def highSquareRow (u v : List Char) : Node :=
  .subscript (.bin .matmul (.neg (.name ['ϵ'])) (.block (.list [.list [.oPs u], .list [.oPs v]]))) [.slice (some 0) (some 1), .slice none none]

/-- `(block([|i], |i+1]])@ϵ)[:, 0:1]`, particles_eval.py:127-128. -/
def highSquareCol (u v : List Char) : Node :=
  .subscript (.bin .matmul (.block (.list [.oPs u, .oPs v])) (.name ['ϵ'])) [.slice none none, .slice (some 0) (some 1)]

theorem row_means (env : List Char → Option (Quant K)) {u v : List Char} {x y : Matrix (Fin 1) (Fin 2) K} (hu : env u = some (.mat 1 2 x))
    (hv : env v = some (.mat 1 2 y)) {g : Node} {E : M2 K} (hg : Means env g (.mat 2 2 E)) :
    ∃ M : Matrix (Fin 1) (Fin 2) K, Means env (.subscript (.bin .matmul g (.block (.list [.list [.oPs u], .list [.oPs v]])))
      [.slice (some 0) (some 1), .slice none none]) (.mat 1 2 M) ∧ M = E 0 0 • x + E 0 1 • y := by
  refine ⟨_, .cut (.matmul hg (.above (.name u _ hu) (.name v _ hv))) (.part 0 1 (by omega)) .all (by omega) (by omega), ?_⟩
  funext i j
  rw [Subsingleton.elim i 0]
  have h0 : (⟨0 + (0 : Fin 1).1, by simp⟩ : Fin 2) = 0 := rfl
  have hj : (⟨0 + j.1, by omega⟩ : Fin 2) = j := by ext; simp
  refine (Matrix.mul_apply ..).trans ?_
  rw [hj, h0]
  refine (Fin.sum_univ_two _).trans ?_
  rfl

theorem col_means (env : List Char → Option (Quant K)) {u v : List Char} {x y : Matrix (Fin 2) (Fin 1) K} (hu : env u = some (.mat 2 1 x))
    (hv : env v = some (.mat 2 1 y)) {g : Node} {E : M2 K} (hg : Means env g (.mat 2 2 E)) :
    ∃ M : Matrix (Fin 2) (Fin 1) K, Means env (.subscript (.bin .matmul (.block (.list [.oPs u, .oPs v])) g)
      [.slice none none, .slice (some 0) (some 1)]) (.mat 2 1 M) ∧ M = E 0 0 • x + E 1 0 • y := by
  refine ⟨_, .cut (.matmul (.beside (.name u _ hu) (.name v _ hv)) hg) .all (.part 0 1 (by omega)) (by omega) (by omega), ?_⟩
  funext i j
  rw [Subsingleton.elim j 0]
  have h0 : (⟨0 + (0 : Fin 1).1, by simp⟩ : Fin 2) = 0 := rfl
  have hi : (⟨0 + i.1, by omega⟩ : Fin 2) = i := by ext; simp
  refine (Matrix.mul_apply ..).trans ?_
  rw [hi, h0]
  refine (Fin.sum_univ_two _).trans ?_
  have e1 : Fin.append (x i) (y i) 0 = x i 0 := rfl
  have e2 : Fin.append (x i) (y i) 1 = y i 0 := rfl
  show Fin.append (x i) (y i) 0 * E 0 0 + Fin.append (x i) (y i) 1 * E 1 0 = E 0 0 * x i 0 + E 1 0 * y i 0
  rw [e1, e2]
  ring

/-- C106: the first component of the spinor of a massive particle with its index lowered or raised is plus or minus the second component: with
`⟨i|`, `⟨i+1|` the two components, `⟨i_|` is `⟨i+1|`, `|i_⟩` is `|i+1⟩`, `[i^|` is `-[i+1|` and `|i^]` is `-|i+1]`. They stand for these in
every expression. -/
theorem C106_spin_index (env : List Char → Option (Quant K)) (u v : List Char) :
    (∀ x y, env u = some (.mat 1 2 x) → env v = some (.mat 1 2 y) →
      Means env (lowAngleRow u v) (.mat 1 2 y) ∧ Means env (highSquareRow u v) (.mat 1 2 (-y))) ∧
    (∀ x y, env u = some (.mat 2 1 x) → env v = some (.mat 2 1 y) →
      Means env (lowAngleCol u v) (.mat 2 1 y) ∧ Means env (highSquareCol u v) (.mat 2 1 (-y))) := by
  refine ⟨fun x y hu hv => ⟨?_, ?_⟩, fun x y hu hv => ⟨?_, ?_⟩⟩
  · obtain ⟨M, h1, h2⟩ := row_means env hu hv .eps
    rw [h2] at h1
    simpa [lowAngleRow] using h1
  · obtain ⟨M, h1, h2⟩ := row_means env hu hv (.negMat .eps)
    rw [h2] at h1
    simpa [highSquareRow] using h1
  · obtain ⟨M, h1, h2⟩ := col_means env hu hv (.negMat .eps)
    rw [h2] at h1
    simpa [lowAngleCol] using h1
  · obtain ⟨M, h1, h2⟩ := col_means env hu hv .eps
    rw [h2] at h1
    simpa [highSquareCol] using h1

/-- `numpy.transpose(-ϵ @ oPs('|..|') @ ϵ)`, particles_eval.py:154: the piece open at both sides after `[i^|`. -/
def flipNode (v : List Char) : Node :=
  .transpose (.bin .matmul (.bin .matmul (.neg (.name ['ϵ'])) (.oPs v)) (.name ['ϵ']))

theorem flip_eval (leaf : List Char → Except Err (PVal K)) {v : List Char} {M : M2 K} (h : leaf v = .ok (.arr ⟨2, 2, M⟩)) :
    evalArr leaf (flipNode v) = .ok (.arr ⟨2, 2, flip2 M⟩) := by
  have key : Matrix.transpose (((-!![0, 1; -1, 0] : M2 K) * M) * !![0, 1; -1, 0]) = flip2 M := by
    rw [flip2_eq]
    ext i j
    fin_cases i <;> fin_cases j <;> simp [Matrix.vecMul, dotProduct, Matrix.mul_apply, Fin.sum_univ_two]
  have h1 : binVal .matmul (.arr ⟨2, 2, -!![0, 1; -1, 0]⟩) (.arr ⟨2, 2, M⟩) = .ok (.arr ⟨2, 2, (-!![0, 1; -1, 0] : M2 K) * M⟩) := binVal_matmul _ _
  have h2 : binVal .matmul (.arr ⟨2, 2, (-!![0, 1; -1, 0] : M2 K) * M⟩) (.arr ⟨2, 2, !![0, 1; -1, 0]⟩) =
      .ok (.arr ⟨2, 2, ((-!![0, 1; -1, 0] : M2 K) * M) * !![0, 1; -1, 0]⟩) := binVal_matmul _ _
  have h3 : evalArr leaf (.name ['ϵ']) = .ok (.arr ⟨2, 2, !![0, 1; -1, 0]⟩) := by simp [evalArr, epsArr]
  have h4 : evalArr leaf (.neg (.name ['ϵ'])) = .ok (.arr ⟨2, 2, -!![0, 1; -1, 0]⟩) := by rw [evalArr, h3]; rfl
  have h5 : evalArr leaf (.bin .matmul (.neg (.name ['ϵ'])) (.oPs v)) = .ok (.arr ⟨2, 2, (-!![0, 1; -1, 0] : M2 K) * M⟩) := by
    rw [evalArr, h4, evalArr, h]; exact h1
  rw [flipNode, evalArr, evalArr, h5, h3]
  simp only [h2]
  rw [← key]
  rfl

/-- C106: after `[i^|` a piece open at both sides with one slot has the kinds of its indices exchanged, as it must. -/
theorem C106_flip_one (c : Ctx K) (ps : Point K n) (fuel : ℕ) {v : List Char} {s : Slot n} (hv : DoubleOpenText n v [s])
    (hc : ∀ b k, (b, k) ∈ s → Consistent c (ps k)) : evalArr (leafArr ps fuel) (flipNode v) = .ok (.arr ⟨2, 2, chain ps false [s]⟩) := by
  rw [flip_eval _ (leaf_doubleOpen ps fuel hv), chain_single, chain_single, flip2_slot hc true]
  rfl

/-- C106, where it fails: with several slots their order is reversed as well, and with an even number of them the kinds of the indices stay.
Missing: `chain ps false mid`. -/
theorem C106_flip_partial (c : Ctx K) (ps : Point K n) (fuel : ℕ) {v : List Char} {mid : List (Slot n)} (hv : DoubleOpenText n v mid)
    (hc : ∀ k, Occurs k mid → Consistent c (ps k)) :
    evalArr (leafArr ps fuel) (flipNode v) = .ok (.arr ⟨2, 2, chain ps (mid.length % 2 = 0) mid.reverse⟩) := by
  rw [flip_eval _ (leaf_doubleOpen ps fuel hv), flip2_chain mid hc true]
  congr 4

end Lips

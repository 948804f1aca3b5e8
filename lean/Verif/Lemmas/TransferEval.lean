import Verif.Lemmas.Transfer
import Verif.Spec.Upto

/-!
Relations between two fields that respect the operations of `_eval_node`.
-/

set_option linter.unusedSectionVars false

namespace Lips

variable {K L : Type*} [Field K] [Field L] {n : ℕ}

/-- A relation between numbers that respects the operations of `compute`, and inverses of numbers whose partner in the second field is not zero. -/
structure TransferInv (T : K → L → Prop) : Prop extends Transfer T where
  ne : ∀ {x y}, T x y → y ≠ 0 → x ≠ 0
  inv : ∀ {x y}, T x y → y ≠ 0 → T x⁻¹ y⁻¹

variable {T : K → L → Prop}

theorem Upto.error {α β : Type*} {R : α → β → Prop} (e : Err) : Upto R (.error e) (.error e) := Or.inr rfl

theorem Upto.ok {α β : Type*} {R : α → β → Prop} {a : α} {b : β} (h : R a b) : Upto R (.ok a) (.ok b) := Or.inr h

/-- What a relation up to division by zero means for two results. -/
theorem Upto.cases {α β : Type*} {R : α → β → Prop} {a : Except Err α} {b : Except Err β} (h : Upto R a b) :
    b = .error .zeroDivision ∨ (∃ e, a = .error e ∧ b = .error e) ∨ ∃ x y, a = .ok x ∧ b = .ok y ∧ R x y := by
  rcases h with h | h
  · exact Or.inl h
  · rcases a with e | x <;> rcases b with e' | y
    · exact Or.inr (Or.inl ⟨e, rfl, by rw [show e = e' from h]⟩)
    · exact h.elim
    · exact h.elim
    · exact Or.inr (Or.inr ⟨x, y, rfl, rfl, h⟩)

namespace TransferInv

theorem nat (h : TransferInv T) (m : ℕ) : T (m : K) (m : L) := by
  induction m with
  | zero => simpa using h.zero
  | succ m ih => rw [Nat.cast_succ, Nat.cast_succ]; exact h.add ih h.one

theorem int (h : TransferInv T) : ∀ m : ℤ, T (m : K) (m : L)
  | .ofNat m => by
    rw [Int.ofNat_eq_natCast, Int.cast_natCast, Int.cast_natCast]
    exact h.nat m
  | .negSucc m => by rw [Int.cast_negSucc, Int.cast_negSucc]; exact h.neg (h.nat (m + 1))

theorem div (h : TransferInv T) {x x' : K} {y y' : L} (h1 : T x y) (h2 : T x' y') (h0 : y' ≠ 0) : T (x / x') (y / y') := by
  rw [div_eq_mul_inv, div_eq_mul_inv]
  exact h.mul h1 (h.inv h2 h0)

theorem zpow (h : TransferInv T) {x : K} {y : L} (h1 : T x y) : ∀ k : ℤ, (k < 0 → y ≠ 0) → T (x ^ k) (y ^ k)
  | .ofNat k, _ => by
    rw [Int.ofNat_eq_natCast, zpow_natCast, zpow_natCast]
    exact h.pow h1 k
  | .negSucc k, h0 => by
    rw [zpow_negSucc, zpow_negSucc]
    exact h.inv (h.pow h1 _) (pow_ne_zero _ (h0 (Int.negSucc_lt_zero k)))

/-- The second field divides by zero, or the conversions of a number are related. -/
theorem toField (h : TransferInv T) : ∀ {v : EVal K} {w : EVal L}, NRel T v w → Upto T v.toField w.toField
  | .int a, .int b, e => by
    have e : a = b := e
    subst e
    exact Upto.ok (h.int a)
  | .frac a, .frac b, e => by
    have e : a = b := e
    subst e
    by_cases h0 : (a.den : L) = 0
    · left; exact if_pos h0
    · refine Or.inr ?_
      rw [EVal.toField, EVal.toField, ratField, ratField, if_neg h0, if_neg (h.ne (h.nat _) h0)]
      exact h.div (h.int _) (h.nat _) h0
  | .fld _, .fld _, e => Upto.ok e
  | .other, .other, _ => Upto.error _
  | .int _, .frac _, e => e.elim
  | .int _, .fld _, e => e.elim
  | .int _, .other, e => e.elim
  | .frac _, .int _, e => e.elim
  | .frac _, .fld _, e => e.elim
  | .frac _, .other, e => e.elim
  | .fld _, .int _, e => e.elim
  | .fld _, .frac _, e => e.elim
  | .fld _, .other, e => e.elim
  | .other, .int _, e => e.elim
  | .other, .frac _, e => e.elim
  | .other, .fld _, e => e.elim

theorem toField_noErr {v : EVal K} {e : Err} (h : v.toField = .error e) (ho : v ≠ .other) : e = .zeroDivision := by
  cases v with
  | int _ => cases h
  | frac q =>
    rw [EVal.toField, ratField] at h
    split at h
    · exact (Except.error.inj h).symm
    · cases h
  | fld _ => cases h
  | other => exact (ho rfl).elim

/-- Operators on numbers. -/
theorem binop (h : TransferInv T) {fi : ℤ → ℤ → Except Err (EVal K)} {fq : ℚ → ℚ → Except Err (EVal K)} {fk : K → K → Except Err (EVal K)}
    {gi : ℤ → ℤ → Except Err (EVal L)} {gq : ℚ → ℚ → Except Err (EVal L)} {gk : L → L → Except Err (EVal L)}
    (hi : ∀ a b, Upto (NRel T) (fi a b) (gi a b)) (hq : ∀ a b, Upto (NRel T) (fq a b) (gq a b))
    (hk : ∀ {x y x' y'}, T x x' → T y y' → Upto (NRel T) (fk x y) (gk x' y')) {v w : EVal K} {v' w' : EVal L} (h1 : NRel T v v') (h2 : NRel T w w') :
    Upto (NRel T) (Lips.binop fi fq fk v w) (Lips.binop gi gq gk v' w') := by
  have mixed : ∀ {v w : EVal K} {v' w' : EVal L}, NRel T v v' → NRel T w w' →
      Upto (NRel T) (match v.toField, w.toField with | .ok a, .ok b => fk a b | _, _ => .error .zeroDivision)
        (match v'.toField, w'.toField with | .ok a, .ok b => gk a b | _, _ => .error .zeroDivision) := by
    intro v w v' w' h1 h2
    rcases (h.toField h1).cases with e | ⟨e, -, e2⟩ | ⟨x, x', e1, e2, hx⟩
    · left; rw [e]
    · left; rw [e2]
    rw [e1, e2]
    rcases (h.toField h2).cases with e | ⟨e, -, e2⟩ | ⟨y, y', e1, e2, hy⟩
    · left; rw [e]
    · left; rw [e2]
    rw [e1, e2]
    exact hk hx hy
  cases v <;> cases v' <;> try exact h1.elim
  all_goals cases w <;> cases w' <;> try exact h2.elim
  · rw [show _ = _ from h1, show _ = _ from h2]; exact hi _ _
  · rw [show _ = _ from h1, show _ = _ from h2]; exact hq _ _
  · exact mixed h1 h2
  · exact Upto.ok trivial
  · rw [show _ = _ from h1, show _ = _ from h2]; exact hq _ _
  · rw [show _ = _ from h1, show _ = _ from h2]; exact hq _ _
  · exact mixed h1 h2
  · exact Upto.ok trivial
  · exact mixed h1 h2
  · exact mixed h1 h2
  · exact mixed h1 h2
  · exact Upto.ok trivial
  · exact Upto.ok trivial
  · exact Upto.ok trivial
  · exact Upto.ok trivial
  · exact Upto.ok trivial

variable {v w : EVal K} {v' w' : EVal L}

theorem vAdd (h : TransferInv T) (h1 : NRel T v v') (h2 : NRel T w w') : Upto (NRel T) (Lips.vAdd v w) (Lips.vAdd v' w') :=
  h.binop (fun _ _ => Upto.ok (show NRel T (.int _) (.int _) from rfl)) (fun _ _ => Upto.ok (show NRel T (.frac _) (.frac _) from rfl))
    (fun hx hy => Upto.ok (show NRel T (.fld _) (.fld _) from h.add hx hy)) h1 h2

theorem vSub (h : TransferInv T) (h1 : NRel T v v') (h2 : NRel T w w') : Upto (NRel T) (Lips.vSub v w) (Lips.vSub v' w') :=
  h.binop (fun _ _ => Upto.ok (show NRel T (.int _) (.int _) from rfl)) (fun _ _ => Upto.ok (show NRel T (.frac _) (.frac _) from rfl))
    (fun hx hy => Upto.ok (show NRel T (.fld _) (.fld _) from h.sub hx hy)) h1 h2

theorem vMul (h : TransferInv T) (h1 : NRel T v v') (h2 : NRel T w w') : Upto (NRel T) (Lips.vMul v w) (Lips.vMul v' w') :=
  h.binop (fun _ _ => Upto.ok (show NRel T (.int _) (.int _) from rfl)) (fun _ _ => Upto.ok (show NRel T (.frac _) (.frac _) from rfl))
    (fun hx hy => Upto.ok (show NRel T (.fld _) (.fld _) from h.mul hx hy)) h1 h2

theorem vDiv (h : TransferInv T) (h1 : NRel T v v') (h2 : NRel T w w') : Upto (NRel T) (Lips.vDiv v w) (Lips.vDiv v' w') := by
  refine h.binop (fun _ b => ?_) (fun a b => ?_) (fun {x y x' y'} hx hy => ?_) h1 h2
  · by_cases hb : b = 0
    · left; exact if_pos hb
    · rw [if_neg hb, if_neg hb]; exact Upto.ok trivial
  · by_cases hb : b = 0
    · left; exact if_pos hb
    · rw [if_neg hb, if_neg hb]; exact Upto.ok rfl
  · by_cases hb : y' = 0
    · left; exact if_pos hb
    · rw [if_neg hb, if_neg (h.ne hy hb)]
      exact Upto.ok (h.div hx hy hb)

theorem vPow (h : TransferInv T) (h1 : NRel T v v') (h2 : NRel T w w') : Upto (NRel T) (Lips.vPow v w) (Lips.vPow v' w') := by
  cases v <;> cases v' <;> try exact h1.elim
  all_goals cases w <;> cases w' <;> try exact h2.elim
  case int.int.int.int a a' k k' =>
    rw [show a = a' from h1, show k = k' from h2]
    simp only [Lips.vPow]
    split_ifs
    · exact Upto.ok rfl
    · exact Upto.error _
    · exact Upto.ok trivial
  case frac.frac.int.int a a' k k' =>
    rw [show a = a' from h1, show k = k' from h2]
    simp only [Lips.vPow]
    split_ifs
    · exact Upto.error _
    · exact Upto.ok rfl
  case fld.fld.int.int x y k k' =>
    rw [show k = k' from h2]
    simp only [Lips.vPow]
    by_cases hb : k' < 0 ∧ y = 0
    · left; exact if_pos hb
    · rw [if_neg hb, if_neg fun hc => hb ⟨hc.1, by_contra fun h0 => h.ne h1 h0 hc.2⟩]
      exact Upto.ok (h.zpow h1 k' fun hk h0 => hb ⟨hk, h0⟩)
  all_goals exact Upto.ok trivial

theorem vNeg (h : TransferInv T) (h1 : NRel T v v') : NRel T (Lips.vNeg v) (Lips.vNeg v') := by
  cases v <;> cases v' <;> try exact h1.elim
  · rw [show _ = _ from h1]; exact rfl
  · rw [show _ = _ from h1]; exact rfl
  · exact h.neg h1
  · exact trivial

theorem lift₂ {f : EVal K → EVal K → Except Err (EVal K)} {g : EVal L → EVal L → Except Err (EVal L)}
    (hf : ∀ {v w v' w'}, NRel T v v' → NRel T w w' → Upto (NRel T) (f v w) (g v' w')) {a b : Except Err (EVal K)} {a' b' : Except Err (EVal L)}
    (h1 : Upto (NRel T) a a') (h2 : Upto (NRel T) b b') : Upto (NRel T) (Lips.lift₂ f a b) (Lips.lift₂ g a' b') := by
  rcases h1.cases with rfl | ⟨e, rfl, rfl⟩ | ⟨x, x', rfl, rfl, hx⟩
  · left; rfl
  · exact Upto.error e
  rcases h2.cases with rfl | ⟨e, rfl, rfl⟩ | ⟨y, y', rfl, rfl, hy⟩
  · left; rfl
  · exact Upto.error e
  exact hf hx hy

/-- Expressions of numbers. -/
theorem evalNode (h : TransferInv T) {leaf : List Char → Except Err K} {leaf' : List Char → Except Err L} (hl : ∀ t, Upto T (leaf t) (leaf' t)) :
    ∀ a, Upto (NRel T) (Lips.evalNode leaf a) (Lips.evalNode leaf' a)
  | .atom (.num k) => Upto.ok rfl
  | .atom (.rat a b) => by
    unfold Lips.evalNode
    split_ifs
    · exact Upto.error _
    · exact Upto.ok rfl
  | .atom (.leaf i) => by
    unfold Lips.evalNode
    rcases (hl i).cases with e | ⟨e, e1, e2⟩ | ⟨x, y, e1, e2, hx⟩
    · left; rw [e]
    · rw [e1, e2]; exact Upto.error e
    · rw [e1, e2]; exact Upto.ok hx
  | .pos a => evalNode h hl a
  | .neg a => by
    unfold Lips.evalNode
    rcases (evalNode h hl a).cases with e | ⟨e, e1, e2⟩ | ⟨x, y, e1, e2, hx⟩
    · left; rw [e]
    · rw [e1, e2]; exact Upto.error e
    · rw [e1, e2]; exact Upto.ok (h.vNeg hx)
  | .add a b => lift₂ h.vAdd (evalNode h hl a) (evalNode h hl b)
  | .sub a b => lift₂ h.vSub (evalNode h hl a) (evalNode h hl b)
  | .mul a b => lift₂ h.vMul (evalNode h hl a) (evalNode h hl b)
  | .div a b => lift₂ h.vDiv (evalNode h hl a) (evalNode h hl b)
  | .pow a b => lift₂ h.vPow (evalNode h hl a) (evalNode h hl b)

/-! ### Arrays -/

variable {A B : Arr K} {A' B' : Arr L}

theorem entry (h : TransferInv T) (hA : ARel T A A') (i j : ℕ) : T (A.entry i j) (A'.entry i j) := by
  obtain ⟨h1, h2, h3⟩ := hA
  unfold Arr.entry
  by_cases hc : i < A.rows ∧ j < A.cols
  · rw [dif_pos hc, dif_pos (by rwa [← h1, ← h2])]
    exact h3 i j _ _ _ _
  · rw [dif_neg hc, dif_neg (by rwa [← h1, ← h2])]
    exact h.zero

theorem spread (h : TransferInv T) (hA : ARel T A A') (i j : ℕ) : T (A.spread i j) (A'.spread i j) := by
  unfold Arr.spread
  rw [hA.1, hA.2.1]
  exact h.entry hA _ _

theorem zip (h : TransferInv T) {f : K → K → K} {g : L → L → L} (hf : ∀ {x y x' y'}, T x x' → T y y' → T (f x y) (g x' y')) (hA : ARel T A A')
    (hB : ARel T B B') : Upto (ARel T) (A.zip f B) (A'.zip g B') := by
  unfold Arr.zip
  rw [hA.1, hB.1, hA.2.1, hB.2.1]
  split
  · exact Upto.ok ⟨rfl, rfl, fun i j _ _ _ _ => hf (h.spread hA i j) (h.spread hB i j)⟩
  · exact Upto.error _

theorem arrDiv (h : TransferInv T) (hA : ARel T A A') (hB : ARel T B B') : Upto (ARel T) (A.div B) (A'.div B') := by
  unfold Arr.div Arr.zip
  rw [hA.1, hB.1, hA.2.1, hB.2.1]
  rcases broadcast A'.rows B'.rows with _ | r
  · exact Upto.error _
  rcases broadcast A'.cols B'.cols with _ | c
  · exact Upto.error _
  dsimp only
  by_cases hc : ∃ i < r, ∃ j < c, B'.spread i j = 0
  · left; exact if_pos hc
  have ne : ∀ i < r, ∀ j < c, B'.spread i j ≠ 0 := fun i hi j hj h0 => hc ⟨i, hi, j, hj, h0⟩
  rw [if_neg hc, if_neg fun ⟨i, hi, j, hj, h0⟩ => h.ne (h.spread hB i j) (ne i hi j hj) h0]
  exact Upto.ok ⟨rfl, rfl, fun i j hi hj _ _ => h.div (h.spread hA i j) (h.spread hB i j) (ne i hi j hj)⟩

theorem arrPow (h : TransferInv T) (hA : ARel T A A') (k : ℤ) : Upto (ARel T) (A.pow k) (A'.pow k) := by
  unfold Arr.pow
  by_cases hc : k < 0 ∧ ∃ i j, A'.get i j = 0
  · left; exact if_pos hc
  rw [if_neg hc, if_neg fun ⟨hk, i, j, h0⟩ => hc ⟨hk, ⟨i, hA.1 ▸ i.2⟩, ⟨j, hA.2.1 ▸ j.2⟩,
    by_contra fun h1 => h.ne (hA.2.2 i j i.2 j.2 _ _) h1 h0⟩]
  exact Upto.ok ⟨hA.1, hA.2.1, fun i j hi hj hi' hj' => h.zpow (hA.2.2 i j hi hj hi' hj') k fun hk h0 => hc ⟨hk, _, _, h0⟩⟩

theorem matmul (h : TransferInv T) (hA : ARel T A A') (hB : ARel T B B') : Upto (ARel T) (A.matmul B) (A'.matmul B') := by
  unfold Arr.matmul
  by_cases hc : A.cols = B.rows
  · rw [if_pos hc, if_pos (by rw [← hA.2.1, hc, hB.1])]
    refine Upto.ok ⟨hA.1, hB.2.1, fun i j hi hj hi' hj' => ?_⟩
    obtain ⟨r, c, M⟩ := A
    obtain ⟨r', c', M'⟩ := A'
    obtain ⟨h1, h2, h3⟩ := hA
    dsimp only at h1 h2 hi hi' hj hj' ⊢
    subst h2
    exact h.sum fun k => h.mul (h3 i k _ k.2 _ k.2) (h.entry hB k j)
  · rw [if_neg hc, if_neg (by rwa [← hA.2.1, ← hB.1])]
    exact Upto.error _

theorem beside (h : TransferInv T) (hA : ARel T A A') (hB : ARel T B B') : Upto (ARel T) (A.beside B) (A'.beside B') := by
  unfold Arr.beside
  by_cases hc : A.rows = B.rows
  · rw [if_pos hc, if_pos (by rw [← hA.1, hc, hB.1])]
    refine Upto.ok ⟨hA.1, by rw [hA.2.1, hB.2.1], fun i j hi hj hi' hj' => ?_⟩
    dsimp only
    by_cases hc' : j < A.cols
    · rw [if_pos hc', if_pos (by rwa [← hA.2.1])]
      exact h.entry hA _ _
    · rw [if_neg hc', if_neg (by rwa [← hA.2.1]), hA.2.1]
      exact h.entry hB _ _
  · rw [if_neg hc, if_neg (by rwa [← hA.1, ← hB.1])]
    exact Upto.error _

theorem above (h : TransferInv T) (hA : ARel T A A') (hB : ARel T B B') : Upto (ARel T) (A.above B) (A'.above B') := by
  unfold Arr.above
  by_cases hc : A.cols = B.cols
  · rw [if_pos hc, if_pos (by rw [← hA.2.1, hc, hB.2.1])]
    refine Upto.ok ⟨by rw [hA.1, hB.1], hA.2.1, fun i j hi hj hi' hj' => ?_⟩
    dsimp only
    by_cases hc' : i < A.rows
    · rw [if_pos hc', if_pos (by rwa [← hA.1])]
      exact h.entry hA _ _
    · rw [if_neg hc', if_neg (by rwa [← hA.1]), hA.1]
      exact h.entry hB _ _
  · rw [if_neg hc, if_neg (by rwa [← hA.2.1, ← hB.2.1])]
    exact Upto.error _

theorem joinArrs {f : Arr K → Arr K → Except Err (Arr K)} {g : Arr L → Arr L → Except Err (Arr L)}
    (hf : ∀ {A B A' B'}, ARel T A A' → ARel T B B' → Upto (ARel T) (f A B) (g A' B')) :
    ∀ {As : List (Arr K)} {Bs : List (Arr L)}, List.Forall₂ (ARel T) As Bs → Upto (ARel T) (Lips.joinArrs f As) (Lips.joinArrs g Bs)
  | _, _, .nil => Upto.error _
  | _, _, .cons h1 .nil => Upto.ok h1
  | _, _, .cons h1 (.cons h2 h3) => by
    unfold Lips.joinArrs
    rcases (joinArrs hf (.cons h2 h3)).cases with e | ⟨e, e1, e2⟩ | ⟨x, y, e1, e2, hx⟩
    · left; rw [e]
    · rw [e1, e2]; exact Upto.error e
    · rw [e1, e2]; exact hf h1 hx

theorem cut (h : TransferInv T) (hA : ARel T A A') (a b c d : ℕ) : ARel T (A.cut a b c d) (A'.cut a b c d) :=
  ⟨rfl, rfl, fun _ _ _ _ _ _ => h.entry hA _ _⟩

theorem asArr {r : Except Err (Arr K)} {r' : Except Err (Arr L)} (h1 : Upto (ARel T) r r') : Upto (XRel T) (Lips.asArr r) (Lips.asArr r') := by
  rcases h1.cases with rfl | ⟨e, rfl, rfl⟩ | ⟨x, y, rfl, rfl, hx⟩
  · left; rfl
  · exact Upto.error e
  · exact Upto.ok (.arr hx)

theorem asSc {r : Except Err (EVal K)} {r' : Except Err (EVal L)} (h1 : Upto (NRel T) r r') : Upto (XRel T) (Lips.asSc r) (Lips.asSc r') := by
  rcases h1.cases with rfl | ⟨e, rfl, rfl⟩ | ⟨x, y, rfl, rfl, hx⟩
  · left; rfl
  · exact Upto.error e
  · exact Upto.ok (.sc hx)

theorem otherRel : Upto (XRel T) (.ok (.sc .other)) (.ok (.sc .other)) := Upto.ok (.sc trivial)

theorem scalarOp (h : TransferInv T) (h1 : NRel T v v') (h2 : NRel T w w') : ∀ o, Upto (NRel T) (Lips.scalarOp o v w) (Lips.scalarOp o v' w')
  | .add => h.vAdd h1 h2
  | .sub => h.vSub h1 h2
  | .mul => h.vMul h1 h2
  | .div => h.vDiv h1 h2
  | .pow => h.vPow h1 h2
  | .matmul => by
    cases v <;> cases v' <;> first | exact h1.elim | skip
    all_goals cases w <;> cases w' <;> first | exact h2.elim | exact Upto.error _ | exact Upto.ok trivial

theorem arrayOp (h : TransferInv T) (hA : ARel T A A') (hB : ARel T B B') : ∀ o, Upto (XRel T) (Lips.arrayOp o A B) (Lips.arrayOp o A' B')
  | .add => asArr (h.zip h.add hA hB)
  | .sub => asArr (h.zip h.sub hA hB)
  | .mul => asArr (h.zip h.mul hA hB)
  | .div => asArr (h.arrDiv hA hB)
  | .matmul => asArr (h.matmul hA hB)
  | .pow => otherRel

theorem mixedOp (h : TransferInv T) (o : Bin) {f : Arr K → Except Err (PVal K)} {g : Arr L → Except Err (PVal L)}
    (hf : ∀ {A A'}, ARel T A A' → Upto (XRel T) (f A) (g A')) (h1 : NRel T v v') : Upto (XRel T) (Lips.mixedOp o f v) (Lips.mixedOp o g v') := by
  unfold Lips.mixedOp
  have gen : ∀ {v : EVal K} {v' : EVal L}, NRel T v v' →
      Upto (XRel T) (if o = .matmul then .error .valueError else match v.toField with | .ok a => f (.const a) | .error e => .error e)
      (if o = .matmul then .error .valueError else match v'.toField with | .ok a => g (.const a) | .error e => .error e) := by
    intro v v' h1
    by_cases ho : o = .matmul
    · rw [if_pos ho, if_pos ho]; exact Upto.error _
    rw [if_neg ho, if_neg ho]
    rcases (h.toField h1).cases with e | ⟨e, e1, e2⟩ | ⟨x, y, e1, e2, hx⟩
    · left; rw [e]
    · rw [e1, e2]; exact Upto.error e
    · rw [e1, e2]; exact hf ⟨rfl, rfl, fun _ _ _ _ _ _ => hx⟩
  cases v <;> cases v' <;> try exact h1.elim
  · exact gen h1
  · exact gen h1
  · exact gen h1
  · exact otherRel

theorem binVal (h : TransferInv T) (o : Bin) {x y : PVal K} {x' y' : PVal L} (h1 : XRel T x x') (h2 : XRel T y y') :
    Upto (XRel T) (Lips.binVal o x y) (Lips.binVal o x' y') := by
  cases h1 with
  | sc h1 =>
    cases h2 with
    | sc h2 => exact asSc (h.scalarOp h1 h2 o)
    | arr h2 => exact h.mixedOp o (fun h1 => h.arrayOp h1 h2 o) h1
    | list h2 => exact otherRel
  | arr h1 =>
    cases h2 with
    | sc h2 =>
      rename_i v v'
      by_cases ho : o = .pow
      · subst ho
        cases v <;> cases v' <;> try exact h2.elim
        · rw [show _ = _ from h2]; exact asArr (h.arrPow h1 _)
        all_goals exact otherRel
      · cases o <;> first | exact (ho rfl).elim | exact h.mixedOp _ (fun h2 => h.arrayOp h1 h2 _) h2
    | arr h2 => exact h.arrayOp h1 h2 o
    | list h2 => exact otherRel
  | list h1 => cases h2 <;> exact otherRel

theorem negVal (h : TransferInv T) {x : PVal K} {x' : PVal L} (h1 : XRel T x x') : Upto (XRel T) (Lips.negVal x) (Lips.negVal x') := by
  cases h1 with
  | sc h1 => exact Upto.ok (.sc (h.vNeg h1))
  | arr h1 => exact Upto.ok (.arr ⟨h1.1, h1.2.1, fun i j _ _ _ _ => h.neg (h1.2.2 i j _ _ _ _)⟩)
  | list _ => exact Upto.error _

theorem posVal {x : PVal K} {x' : PVal L} (h1 : XRel T x x') : Upto (XRel T) (Lips.posVal x) (Lips.posVal x') := by
  cases h1 with
  | sc h1 => exact Upto.ok (.sc h1)
  | arr h1 => exact Upto.ok (.arr h1)
  | list _ => exact Upto.error _

theorem arrsIn : ∀ {vs : List (PVal K)} {ws : List (PVal L)}, List.Forall₂ (XRel T) vs ws →
    (Lips.arrsIn vs = none ∧ Lips.arrsIn ws = none) ∨ ∃ As Bs, Lips.arrsIn vs = some As ∧ Lips.arrsIn ws = some Bs ∧ List.Forall₂ (ARel T) As Bs
  | _, _, .nil => Or.inr ⟨[], [], rfl, rfl, .nil⟩
  | _, _, .cons h1 h2 => by
    cases h1 with
    | sc _ => exact Or.inl ⟨rfl, rfl⟩
    | list _ => exact Or.inl ⟨rfl, rfl⟩
    | arr h1 =>
      unfold Lips.arrsIn
      rcases arrsIn h2 with ⟨e1, e2⟩ | ⟨As, Bs, e1, e2, h3⟩
      · rw [e1, e2]; exact Or.inl ⟨rfl, rfl⟩
      · rw [e1, e2]; exact Or.inr ⟨_, _, rfl, rfl, .cons h1 h3⟩

theorem listsIn : ∀ {vs : List (PVal K)} {ws : List (PVal L)}, List.Forall₂ (XRel T) vs ws →
    (Lips.listsIn vs = none ∧ Lips.listsIn ws = none) ∨
      ∃ As Bs, Lips.listsIn vs = some As ∧ Lips.listsIn ws = some Bs ∧ List.Forall₂ (List.Forall₂ (ARel T)) As Bs
  | _, _, .nil => Or.inr ⟨[], [], rfl, rfl, .nil⟩
  | _, _, .cons h1 h2 => by
    cases h1 with
    | sc _ => exact Or.inl ⟨rfl, rfl⟩
    | arr _ => exact Or.inl ⟨rfl, rfl⟩
    | list h1 =>
      unfold Lips.listsIn
      rcases arrsIn h1 with ⟨e1, e2⟩ | ⟨As, Bs, e1, e2, h3⟩
      · rw [e1, e2]; exact Or.inl ⟨rfl, rfl⟩
      rw [e1, e2]
      rcases listsIn h2 with ⟨e1, e2⟩ | ⟨Cs, Ds, e1, e2, h4⟩
      · rw [e1, e2]; exact Or.inl ⟨rfl, rfl⟩
      · rw [e1, e2]; exact Or.inr ⟨_, _, rfl, rfl, .cons h3 h4⟩

theorem allOk {α β : Type*} {R : α → β → Prop} : ∀ {as : List (Except Err α)} {bs : List (Except Err β)}, List.Forall₂ (Upto R) as bs →
    Upto (List.Forall₂ R) (Lips.allOk as) (Lips.allOk bs)
  | _, _, .nil => Upto.ok .nil
  | _, _, .cons h1 h2 => by
    rcases h1.cases with rfl | ⟨e, rfl, rfl⟩ | ⟨x, y, rfl, rfl, hx⟩
    · left; rfl
    · exact Upto.error e
    unfold Lips.allOk
    rcases (allOk h2).cases with e | ⟨e, e1, e2⟩ | ⟨xs, ys, e1, e2, hxs⟩
    · left; rw [e]
    · rw [e1, e2]; exact Upto.error e
    · rw [e1, e2]; exact Upto.ok (.cons hx hxs)

theorem blockVal (h : TransferInv T) {x : PVal K} {x' : PVal L} (h1 : XRel T x x') : Upto (XRel T) (Lips.blockVal x) (Lips.blockVal x') := by
  cases h1 with
  | sc h1 => exact otherRel
  | arr h1 => exact Upto.ok (.arr h1)
  | list h1 =>
    simp only [Lips.blockVal]
    rcases arrsIn h1 with ⟨e1, e2⟩ | ⟨As, Bs, e1, e2, h3⟩
    · rw [e1, e2]
      rcases listsIn h1 with ⟨e1, e2⟩ | ⟨Cs, Ds, e1, e2, h4⟩
      · rw [e1, e2]; exact otherRel
      rw [e1, e2]
      have h5 : List.Forall₂ (Upto (ARel T)) (Cs.map (Lips.joinArrs Arr.beside)) (Ds.map (Lips.joinArrs Arr.beside)) := by
        rw [List.forall₂_map_left_iff, List.forall₂_map_right_iff]
        exact h4.imp fun _ _ h6 => joinArrs h.beside h6
      dsimp only
      rcases (allOk h5).cases with e | ⟨e, e1, e2⟩ | ⟨xs, ys, e1, e2, hxs⟩
      · left; rw [e]
      · rw [e1, e2]; exact Upto.error e
      · rw [e1, e2]; exact asArr (joinArrs h.above hxs)
    · rw [e1, e2]
      exact asArr (joinArrs h.beside h3)

theorem transposeVal {x : PVal K} {x' : PVal L} (h1 : XRel T x x') : Upto (XRel T) (Lips.transposeVal x) (Lips.transposeVal x') := by
  cases h1 with
  | sc h1 => exact otherRel
  | arr h1 => exact Upto.ok (.arr ⟨h1.2.1, h1.1, fun i j _ _ _ _ => h1.2.2 j i _ _ _ _⟩)
  | list h1 => exact otherRel

theorem subscriptVal (h : TransferInv T) {x : PVal K} {x' : PVal L} (h1 : XRel T x x') (ix : List Ix) :
    Upto (XRel T) (Lips.subscriptVal x ix) (Lips.subscriptVal x' ix) := by
  cases h1 with
  | sc h1 =>
    rename_i v v'
    cases v <;> cases v' <;> try exact h1.elim
    · exact Upto.error _
    · exact Upto.error _
    · exact Upto.error _
    · exact otherRel
  | list h1 => exact otherRel
  | arr h1 =>
    rcases ix with _ | ⟨i, _ | ⟨j, _ | ⟨k, ix⟩⟩⟩
    · exact otherRel
    · cases i with
      | slice l u =>
        simp only [Lips.subscriptVal]
        rw [h1.1, h1.2.1]
        exact Upto.ok (.arr (h.cut h1 _ _ _ _))
      | pos k => exact otherRel
    · cases i with
      | slice l u =>
        cases j with
        | slice l' u' =>
          simp only [Lips.subscriptVal]
          rw [h1.1, h1.2.1]
          exact Upto.ok (.arr (h.cut h1 _ _ _ _))
        | pos k => exact otherRel
      | pos k =>
        cases j with
        | slice l' u' => exact otherRel
        | pos k' =>
          simp only [Lips.subscriptVal]
          rw [h1.1, h1.2.1]
          split
          · exact Upto.ok (.sc (h.entry h1 _ _))
          · exact Upto.error _
          · exact Upto.error _
    · cases i <;> cases j <;> exact Upto.error _

theorem epsRel (h : TransferInv T) : ARel T (epsArr : Arr K) (epsArr : Arr L) := by
  refine ⟨rfl, rfl, fun i j hi hj _ _ => ?_⟩
  have hi : i < 2 := hi
  have hj : j < 2 := hj
  obtain rfl | rfl : i = 0 ∨ i = 1 := by omega
  · obtain rfl | rfl : j = 0 ∨ j = 1 := by omega
    · exact h.zero
    · exact h.one
  · obtain rfl | rfl : j = 0 ∨ j = 1 := by omega
    · exact h.neg h.one
    · exact h.zero

mutual

/-- Expressions with open indices. -/
theorem evalArr (h : TransferInv T) {leaf : List Char → Except Err (PVal K)} {leaf' : List Char → Except Err (PVal L)}
    (hl : ∀ t, Upto (XRel T) (leaf t) (leaf' t)) : ∀ a, Upto (XRel T) (Lips.evalArr leaf a) (Lips.evalArr leaf' a)
  | .num k => by unfold Lips.evalArr; exact Upto.ok (.sc rfl)
  | .bin o a b => by
    unfold Lips.evalArr
    rcases (evalArr h hl a).cases with e | ⟨e, e1, e2⟩ | ⟨x, y, e1, e2, hx⟩
    · left; rw [e]
    · rw [e1, e2]; exact Upto.error e
    rw [e1, e2]
    rcases (evalArr h hl b).cases with e | ⟨e, e1, e2⟩ | ⟨x', y', e1, e2, hx'⟩
    · left; rw [e]
    · rw [e1, e2]; exact Upto.error e
    rw [e1, e2]
    exact h.binVal o hx hx'
  | .neg a => by
    unfold Lips.evalArr
    rcases (evalArr h hl a).cases with e | ⟨e, e1, e2⟩ | ⟨x, y, e1, e2, hx⟩
    · left; rw [e]
    · rw [e1, e2]; exact Upto.error e
    rw [e1, e2]
    exact h.negVal hx
  | .pos a => by
    unfold Lips.evalArr
    rcases (evalArr h hl a).cases with e | ⟨e, e1, e2⟩ | ⟨x, y, e1, e2, hx⟩
    · left; rw [e]
    · rw [e1, e2]; exact Upto.error e
    rw [e1, e2]
    exact posVal hx
  | .list es => by
    unfold Lips.evalArr
    rcases (evalArrs h hl es).cases with e | ⟨e, e1, e2⟩ | ⟨x, y, e1, e2, hx⟩
    · left; rw [e]
    · rw [e1, e2]; exact Upto.error e
    rw [e1, e2]
    exact Upto.ok (.list hx)
  | .oPs t => by unfold Lips.evalArr; exact hl t
  | .fraction a b => by
    unfold Lips.evalArr
    split_ifs
    · exact Upto.error _
    · exact Upto.ok (.sc rfl)
  | .block a => by
    unfold Lips.evalArr
    rcases (evalArr h hl a).cases with e | ⟨e, e1, e2⟩ | ⟨x, y, e1, e2, hx⟩
    · left; rw [e]
    · rw [e1, e2]; exact Upto.error e
    rw [e1, e2]
    exact h.blockVal hx
  | .transpose a => by
    unfold Lips.evalArr
    rcases (evalArr h hl a).cases with e | ⟨e, e1, e2⟩ | ⟨x, y, e1, e2, hx⟩
    · left; rw [e]
    · rw [e1, e2]; exact Upto.error e
    rw [e1, e2]
    exact transposeVal hx
  | .call f _ => by
    unfold Lips.evalArr
    split_ifs
    · exact otherRel
    · exact Upto.error _
  | .name id => by
    unfold Lips.evalArr
    split_ifs
    · exact Upto.ok (.arr h.epsRel)
    · exact Upto.error _
  | .subscript a ix => by
    unfold Lips.evalArr
    rcases (evalArr h hl a).cases with e | ⟨e, e1, e2⟩ | ⟨x, y, e1, e2, hx⟩
    · left; rw [e]
    · rw [e1, e2]; exact Upto.error e
    rw [e1, e2]
    exact h.subscriptVal hx ix

theorem evalArrs (h : TransferInv T) {leaf : List Char → Except Err (PVal K)} {leaf' : List Char → Except Err (PVal L)}
    (hl : ∀ t, Upto (XRel T) (leaf t) (leaf' t)) : ∀ es, Upto (List.Forall₂ (XRel T)) (Lips.evalArrs leaf es) (Lips.evalArrs leaf' es)
  | [] => by unfold Lips.evalArrs; exact Upto.ok .nil
  | a :: es => by
    unfold Lips.evalArrs
    rcases (evalArr h hl a).cases with e | ⟨e, e1, e2⟩ | ⟨x, y, e1, e2, hx⟩
    · left; rw [e]
    · rw [e1, e2]; exact Upto.error e
    rw [e1, e2]
    rcases (evalArrs h hl es).cases with e | ⟨e, e1, e2⟩ | ⟨x', y', e1, e2, hx'⟩
    · left; rw [e]
    · rw [e1, e2]; exact Upto.error e
    rw [e1, e2]
    exact Upto.ok (.cons hx hx')

end

/-! ### Points -/

theorem asScalar (h : TransferInv T) {x : PVal K} {x' : PVal L} (h1 : XRel T x x') : XRel T (Lips.asScalar x) (Lips.asScalar x') := by
  cases h1 with
  | sc h1 => exact .sc h1
  | list h1 => exact .list h1
  | arr h1 =>
    simp only [Lips.asScalar]
    rw [h1.1, h1.2.1]
    split_ifs
    · exact .sc (h.entry h1 0 0)
    · exact .arr h1

theorem shaped (f : Form) {v : Val K} {v' : Val L} (h1 : VRel T v v') : XRel T (Lips.shaped f v) (Lips.shaped f v') := by
  cases v <;> cases v' <;> try exact h1.elim
  case num.num => exact .sc h1
  case mat.mat => cases f <;> exact .arr ⟨rfl, rfl, fun _ _ _ _ _ _ => h1 _ _⟩
  case spinor.spinor s s' =>
    rcases s with _ | s <;> rcases s' with _ | s' <;> try exact h1.elim
    · cases f <;> exact .sc trivial
    · cases f <;> first | exact .sc trivial | exact .arr ⟨rfl, rfl, fun _ _ _ _ _ _ => h1 _⟩
  case vec.vec => cases f <;> first | exact .sc trivial | exact .arr ⟨rfl, rfl, fun _ _ _ _ _ _ => h1 _⟩
  case attribute.attribute => cases f <;> exact .sc trivial

variable {ps : Point K n} {qs : Point L n}

theorem leafArr (h : TransferInv T) (hp : ∀ k, PRel T (ps k) (qs k)) (fuel : ℕ) (t : List Char) :
    Upto (XRel T) (Lips.leafArr ps fuel t) (Lips.leafArr qs fuel t) := by
  unfold Lips.leafArr
  split
  · exact Upto.error _
  rename_i u _
  have hv := h.evalForm hp fuel (classify u)
  rcases h1 : evalForm ps fuel (classify u) with _ | e | x <;> rcases h2 : evalForm qs fuel (classify u) with _ | e' | y <;> rw [h1, h2] at hv <;>
    try exact hv.elim
  · exact Upto.error _
  · rw [show e = e' from hv]; exact Upto.error _
  · exact Upto.ok (shaped _ hv)

theorem computeNode (h : TransferInv T) (hp : ∀ k, PRel T (ps k) (qs k)) (fuel : ℕ) (a : Node) :
    Upto (XRel T) (Lips.computeNode ps fuel a) (Lips.computeNode qs fuel a) := by
  unfold Lips.computeNode
  rcases (h.evalArr (h.leafArr hp fuel) a).cases with e | ⟨e, e1, e2⟩ | ⟨x, y, e1, e2, hx⟩
  · left; rw [e]
  · rw [e1, e2]; exact Upto.error e
  · rw [e1, e2]; exact Upto.ok (h.asScalar hx)

theorem leafNum (h : TransferInv T) (hp : ∀ k, PRel T (ps k) (qs k)) (fuel : ℕ) (t : List Char) :
    Upto T (Lips.leafNum ps fuel t) (Lips.leafNum qs fuel t) := by
  have hv : ORel (ERel (VRel T)) (computeText ps fuel t) (computeText qs fuel t) := by
    unfold computeText
    split
    · exact h.evalForm hp _ _
    · exact rfl
  unfold Lips.leafNum
  rcases h1 : computeText ps fuel t with _ | e | x <;> rcases h2 : computeText qs fuel t with _ | e' | y <;> rw [h1, h2] at hv <;>
    try exact hv.elim
  · exact Upto.error _
  · rw [show e = e' from hv]; exact Upto.error _
  · cases x <;> cases y <;> try exact hv.elim
    · exact Upto.ok hv
    all_goals exact Upto.error _

theorem callText (h : TransferInv T) (hp : ∀ k, PRel T (ps k) (qs k)) (fuel : ℕ) (t : List Char) :
    ORel (Upto (Sum.LiftRel (VRel T) (NRel T))) (Lips.callText ps fuel t) (Lips.callText qs fuel t) := by
  unfold Lips.callText
  split
  · exact Upto.error _
  rename_i u _
  split
  · unfold evalChars
    split
    · trivial
    · exact Upto.error _
    · rename_i ts _
      show Upto (Sum.LiftRel (VRel T) (NRel T)) _ _
      rcases astParse ts with e | a
      · exact Upto.error _
      · dsimp only
        rcases (h.evalNode (h.leafNum hp fuel) a).cases with e | ⟨e, e1, e2⟩ | ⟨x, y, e1, e2, hx⟩
        · left; rw [e]
        · rw [e1, e2]; exact Upto.error e
        · rw [e1, e2]; exact Upto.ok (.inr hx)
  · have hv := h.evalForm hp fuel (classify u)
    rcases h1 : evalForm ps fuel (classify u) with _ | e | x <;> rcases h2 : evalForm qs fuel (classify u) with _ | e' | y <;> rw [h1, h2] at hv <;>
      try exact hv.elim
    · trivial
    · rw [show e = e' from hv]; exact Upto.error _
    · exact Upto.ok (.inl hv)

theorem computeArr (h : TransferInv T) (hp : ∀ k, PRel T (ps k) (qs k)) (fuel : ℕ) (t : List Char) :
    ORel (Upto (XRel T)) (Lips.computeArr ps fuel t) (Lips.computeArr qs fuel t) := by
  unfold Lips.computeArr
  rcases nodeOf (parseText t) with _ | a
  · trivial
  · exact h.computeNode hp fuel a

/-- `compute` as a number. -/
theorem callNumber (h : TransferInv T) (hp : ∀ k, PRel T (ps k) (qs k)) (fuel : ℕ) (t : List Char) :
    Lips.callNumber qs fuel t = some (.error .zeroDivision) ∨ ORel (ERel T) (Lips.callNumber ps fuel t) (Lips.callNumber qs fuel t) := by
  have hv := h.callText hp fuel t
  unfold Lips.callNumber
  rcases h1 : Lips.callText ps fuel t with _ | a <;> rcases h2 : Lips.callText qs fuel t with _ | b <;> rw [h1, h2] at hv <;> try exact hv.elim
  · right; trivial
  rcases Upto.cases hv with rfl | ⟨e, rfl, rfl⟩ | ⟨x, y, rfl, rfl, hx⟩
  · left; rfl
  · right; exact rfl
  cases hx with
  | inl hx =>
    rename_i v w
    right
    cases v <;> cases w <;> first | exact hx.elim | exact hx | trivial
  | inr hx =>
    rename_i v w
    have hf := h.toField hx
    cases v <;> cases w <;> try exact hx.elim
    · exact hf.imp (congrArg some) id
    · exact hf.imp (congrArg some) id
    · exact hf.imp (congrArg some) id
    · right; trivial

end TransferInv

/-! ### Both directions -/

theorem TransferInv.exact {α β : Type*} {R : α → β → Prop} {a : Except Err α} {b : Except Err β} (h1 : Upto R a b) (h2 : Upto (flip R) b a) : ERel R a b := by
  rcases h1 with rfl | h1
  · rcases h2 with rfl | h2
    · exact rfl
    · rcases a with e | x
      · exact Eq.symm h2
      · exact h2.elim
  · exact h1

end Lips

import Verif.Props.EvalGroup
import Mathlib.Data.Rat.Lemmas
import Mathlib.Data.Rat.Cast.Defs

/-!
What `_eval_node` returns for an expression whose value is defined.
-/

namespace Lips

variable {K : Type*} [Field K]

/-- The types of exact values. -/
inductive Ty where
  | int | rat | fld
  deriving DecidableEq

/-- The type of a value; none for a float. -/
def EVal.tag : EVal K → Option Ty
  | .int _ => some .int
  | .frac _ => some .rat
  | .fld _ => some .fld
  | .other => none

/-- The type of a binary operation; `ti` is the one for two integers. -/
def joinTy (ti : Option Ty) : Option Ty → Option Ty → Option Ty
  | none, _ => none
  | _, none => none
  | some .int, some .int => ti
  | some .fld, _ => some .fld
  | _, some .fld => some .fld
  | _, _ => some .rat

/-- The type of an expression; none when a quotient of integers or a negative power of an integer is computed, which is a
float. -/
def Ast.ty : Ast EAtom → Option Ty
  | .atom (.num _) => some .int
  | .atom (.rat _ _) => some .rat
  | .atom (.leaf _) => some .fld
  | .pos a => a.ty
  | .neg a => a.ty
  | .add a b => joinTy (some .int) a.ty b.ty
  | .sub a b => joinTy (some .int) a.ty b.ty
  | .mul a b => joinTy (some .int) a.ty b.ty
  | .div a b => joinTy none a.ty b.ty
  | .pow a b => if a.ty = some .int ∧ ∀ k ∈ b.int atomInt, k < 0 then none else a.ty

theorem ratField_ok {q : ℚ} {x : K} : ratField q = .ok x ↔ (q.den : K) ≠ 0 ∧ x = (q : K) := by
  unfold ratField
  split_ifs with h
  · simp [h]
  · rw [Rat.cast_def]; simp [h, eq_comm]

theorem ratField_int (m : ℤ) : ratField (m : ℚ) = .ok (m : K) := by
  rw [ratField_ok]; simp

theorem natCast_ne_of_dvd {a b : ℕ} (h : a ∣ b) (hb : (b : K) ≠ 0) : (a : K) ≠ 0 := by
  obtain ⟨c, rfl⟩ := h
  push_cast at hb
  exact left_ne_zero_of_mul hb

theorem ratField_add {a b : ℚ} {x y : K} (h1 : ratField a = .ok x) (h2 : ratField b = .ok y) : ratField (a + b) = .ok (x + y) := by
  rw [ratField_ok] at *
  refine ⟨natCast_ne_of_dvd (Rat.add_den_dvd a b) ?_, ?_⟩
  · push_cast; exact mul_ne_zero h1.1 h2.1
  · rw [Rat.cast_add_of_ne_zero h1.1 h2.1, h1.2, h2.2]

theorem ratField_neg {a : ℚ} {x : K} (h1 : ratField a = .ok x) : ratField (-a) = .ok (-x) := by
  rw [ratField_ok] at *
  exact ⟨by simpa using h1.1, by rw [Rat.cast_neg, h1.2]⟩

theorem ratField_sub {a b : ℚ} {x y : K} (h1 : ratField a = .ok x) (h2 : ratField b = .ok y) : ratField (a - b) = .ok (x - y) := by
  rw [sub_eq_add_neg, sub_eq_add_neg]; exact ratField_add h1 (ratField_neg h2)

theorem ratField_mul {a b : ℚ} {x y : K} (h1 : ratField a = .ok x) (h2 : ratField b = .ok y) : ratField (a * b) = .ok (x * y) := by
  rw [ratField_ok] at *
  refine ⟨natCast_ne_of_dvd (Rat.mul_den_dvd a b) ?_, ?_⟩
  · push_cast; exact mul_ne_zero h1.1 h2.1
  · rw [Rat.cast_mul_of_ne_zero h1.1 h2.1, h1.2, h2.2]

theorem ratField_inv {b : ℚ} {y : K} (h2 : ratField b = .ok y) (hy : y ≠ 0) : ratField b⁻¹ = .ok y⁻¹ ∧ b ≠ 0 := by
  have hb : b ≠ 0 := by
    rintro rfl
    rw [ratField_ok] at h2
    simp at h2
    exact hy h2
  rw [ratField_ok] at *
  have hnum : (b.num : K) ≠ 0 := by
    intro h
    rw [Rat.cast_def, h, zero_div] at h2
    exact hy h2.2
  refine ⟨⟨?_, ?_⟩, hb⟩
  · have : (b⁻¹).den = b.num.natAbs := Rat.den_inv_of_ne_zero hb
    rw [this]
    intro h
    apply hnum
    have h3 : ((b.num.natAbs : ℤ) : K) = 0 := by rw [Int.cast_natCast]; exact h
    rcases Int.natAbs_eq b.num with h' | h'
    · rw [h']; exact h3
    · rw [h', Int.cast_neg, h3, neg_zero]
  · rw [h2.2, Rat.cast_inv_of_ne_zero hnum]

theorem ratField_div {a b : ℚ} {x y : K} (h1 : ratField a = .ok x) (h2 : ratField b = .ok y) (hy : y ≠ 0) :
    ratField (a / b) = .ok (x / y) ∧ b ≠ 0 := by
  rw [div_eq_mul_inv, div_eq_mul_inv]
  exact ⟨ratField_mul h1 (ratField_inv h2 hy).1, (ratField_inv h2 hy).2⟩

theorem ratField_npow {a : ℚ} {x : K} (h1 : ratField a = .ok x) (k : ℕ) : ratField (a ^ k) = .ok (x ^ k) := by
  induction k with
  | zero => simpa using ratField_int (K := K) 1
  | succ k ih => rw [pow_succ, pow_succ]; exact ratField_mul ih h1

theorem ratField_zpow {a : ℚ} {x : K} (h1 : ratField a = .ok x) (k : ℤ) (hk : ¬ (k < 0 ∧ x = 0)) :
    ratField (a ^ k) = .ok (x ^ k) ∧ ¬ (k < 0 ∧ a = 0) := by
  rcases Int.eq_nat_or_neg k with ⟨n, rfl | rfl⟩
  · exact ⟨by rw [zpow_natCast, zpow_natCast]; exact ratField_npow h1 n, by omega⟩
  · rcases Nat.eq_zero_or_pos n with rfl | hn
    · exact ⟨by simpa using ratField_int (K := K) 1, by simp⟩
    · have hx : x ≠ 0 := fun h => hk ⟨by omega, h⟩
      obtain ⟨h, h'⟩ := ratField_inv h1 hx
      refine ⟨?_, fun h'' => h' h''.2⟩
      rw [zpow_neg, zpow_neg, zpow_natCast, zpow_natCast, ← inv_pow, ← inv_pow]
      exact ratField_npow h n

/-- The result of an operation: its type, and its value unless it is a float. -/
def Gives (r : Except Err (EVal K)) (t : Option Ty) (v : K) : Prop :=
  ∃ w, r = .ok w ∧ w.tag = t ∧ (t ≠ none → w.toField = .ok v)

theorem binop_gives {fi : ℤ → ℤ → Except Err (EVal K)} {fq : ℚ → ℚ → Except Err (EVal K)} {fk : K → K → Except Err (EVal K)}
    {ti t1 t2 : Option Ty} {w1 w2 : EVal K} {x y v : K} (k1 : w1.tag = t1) (k2 : w2.tag = t2)
    (h1 : t1 ≠ none → w1.toField = .ok x) (h2 : t2 ≠ none → w2.toField = .ok y)
    (hi : ∀ a b : ℤ, (a : K) = x → (b : K) = y → Gives (fi a b) ti v)
    (hq : ∀ a b : ℚ, ratField a = .ok x → ratField b = .ok y → Gives (fq a b) (some .rat) v)
    (hk : Gives (fk x y) (some .fld) v) : Gives (binop fi fq fk w1 w2) (joinTy ti t1 t2) v := by
  subst k1 k2
  have hint : ∀ m : ℤ, ∀ z : K, (m : K) = z → ratField (m : ℚ) = .ok z := by rintro m _ rfl; exact ratField_int m
  rcases w1 with a | a | a | _ <;> rcases w2 with b | b | b | _ <;>
    simp only [EVal.tag, ne_eq, reduceCtorEq, not_false_eq_true, forall_const, EVal.toField, Except.ok.injEq, not_true_eq_false,
      IsEmpty.forall_iff] at h1 h2 <;> simp only [binop, EVal.tag, joinTy]
  all_goals first
    | exact ⟨_, rfl, rfl, fun h => absurd rfl h⟩
    | exact hi a b h1 h2
    | exact hq a b h1 h2
    | exact hq a b (hint _ _ h1) h2
    | exact hq a b h1 (hint _ _ h2)
    | (simp only [EVal.toField, h1, h2]; exact hk)

theorem int_eval (leaf : List Char → Except Err K) (e : Ast EAtom) (m : ℤ) (h : e.int atomInt = some m) : evalNode leaf e = .ok (.int m) := by
  induction e generalizing m with
  | atom x =>
    rcases x with k | ⟨a, b⟩ | i
    · simp [Ast.int, atomInt] at h; simp [evalNode, h]
    · simp [Ast.int, atomInt] at h
    · simp [Ast.int, atomInt] at h
  | pos a ih => exact ih m h
  | neg a ih =>
    simp [Ast.int] at h
    obtain ⟨n, h1, rfl⟩ := h
    simp [evalNode, ih n h1, vNeg]
  | add a b iha ihb =>
    simp [Ast.int, Option.bind_eq_some_iff] at h
    obtain ⟨n, h1, k, h2, rfl⟩ := h
    simp [evalNode, iha n h1, ihb k h2, lift₂, vAdd, binop]
  | sub a b iha ihb =>
    simp [Ast.int, Option.bind_eq_some_iff] at h
    obtain ⟨n, h1, k, h2, rfl⟩ := h
    simp [evalNode, iha n h1, ihb k h2, lift₂, vSub, binop]
  | mul a b iha ihb =>
    simp [Ast.int, Option.bind_eq_some_iff] at h
    obtain ⟨n, h1, k, h2, rfl⟩ := h
    simp [evalNode, iha n h1, ihb k h2, lift₂, vMul, binop]
  | div a b => simp [Ast.int] at h
  | pow a b iha ihb =>
    simp only [Ast.int, Option.bind_eq_some_iff] at h
    obtain ⟨n, h1, k, h2, h3⟩ := h
    split_ifs at h3 with hk
    simp at h3
    simp [evalNode, iha n h1, ihb k h2, lift₂, vPow, hk, h3]

/-- `_eval_node` on an expression whose value is defined: it returns, with the type of the expression and, unless this is
a float, its value. -/
theorem evalNode_value (leaf : List Char → Except Err K) (e : Ast EAtom) (v : K)
    (h : e.value (atomValue fun i => (leaf i).toOption) atomInt = some v) : Gives (evalNode leaf e) e.ty v := by
  induction e generalizing v with
  | atom x =>
    rcases x with k | ⟨a, b⟩ | i
    · simp [Ast.value, atomValue] at h
      exact ⟨_, rfl, rfl, fun _ => by simp [EVal.toField, h]⟩
    · simp only [Ast.value, atomValue, quotient] at h
      split_ifs at h with hb
      simp at h
      have hb' : b ≠ 0 := by rintro rfl; simp at hb
      refine ⟨.frac (a / b), by simp [evalNode, hb'], rfl, fun _ => ?_⟩
      rw [← h]
      have h1 := ratField_int (K := K) (a : ℤ)
      have h2 := ratField_int (K := K) (b : ℤ)
      push_cast at h1 h2
      exact (ratField_div h1 h2 hb).1
    · simp only [Ast.value, atomValue] at h
      cases hl : leaf i with
      | error e => rw [hl] at h; simp [Except.toOption] at h
      | ok x =>
        rw [hl] at h
        simp [Except.toOption] at h
        exact ⟨.fld x, by simp [evalNode, hl], rfl, fun _ => by simp [EVal.toField, h]⟩
  | pos a ih => exact ih v h
  | neg a ih =>
    simp [Ast.value] at h
    obtain ⟨x, h1, rfl⟩ := h
    obtain ⟨w, k1, k2, k3⟩ := ih x h1
    refine ⟨vNeg w, by simp [evalNode, k1], ?_, fun ht => ?_⟩
    · rw [Ast.ty, ← k2]; cases w <;> rfl
    · have := k3 ht
      rcases w with a | a | a | _
      · simp [EVal.toField, vNeg] at this ⊢; exact this
      · exact ratField_neg this
      · simp [EVal.toField, vNeg] at this ⊢; exact this
      · simp [EVal.toField] at this
  | add a b iha ihb =>
    simp [Ast.value, Option.bind_eq_some_iff] at h
    obtain ⟨x, h1, y, h2, rfl⟩ := h
    obtain ⟨w, k1, k2, k3⟩ := iha x h1
    obtain ⟨w', l1, l2, l3⟩ := ihb y h2
    rw [evalNode, k1, l1, lift₂]
    refine binop_gives k2 l2 k3 l3 (fun a b ha hb => ⟨_, rfl, rfl, fun _ => ?_⟩)
      (fun a b ha hb => ⟨_, rfl, rfl, fun _ => ratField_add ha hb⟩) ⟨_, rfl, rfl, fun _ => rfl⟩
    simp [EVal.toField, ha, hb]
  | sub a b iha ihb =>
    simp [Ast.value, Option.bind_eq_some_iff] at h
    obtain ⟨x, h1, y, h2, rfl⟩ := h
    obtain ⟨w, k1, k2, k3⟩ := iha x h1
    obtain ⟨w', l1, l2, l3⟩ := ihb y h2
    rw [evalNode, k1, l1, lift₂]
    refine binop_gives k2 l2 k3 l3 (fun a b ha hb => ⟨_, rfl, rfl, fun _ => ?_⟩)
      (fun a b ha hb => ⟨_, rfl, rfl, fun _ => ratField_sub ha hb⟩) ⟨_, rfl, rfl, fun _ => rfl⟩
    simp [EVal.toField, ha, hb]
  | mul a b iha ihb =>
    simp [Ast.value, Option.bind_eq_some_iff] at h
    obtain ⟨x, h1, y, h2, rfl⟩ := h
    obtain ⟨w, k1, k2, k3⟩ := iha x h1
    obtain ⟨w', l1, l2, l3⟩ := ihb y h2
    rw [evalNode, k1, l1, lift₂]
    refine binop_gives k2 l2 k3 l3 (fun a b ha hb => ⟨_, rfl, rfl, fun _ => ?_⟩)
      (fun a b ha hb => ⟨_, rfl, rfl, fun _ => ratField_mul ha hb⟩) ⟨_, rfl, rfl, fun _ => rfl⟩
    simp [EVal.toField, ha, hb]
  | div a b iha ihb =>
    simp only [Ast.value, Option.bind_eq_some_iff] at h
    obtain ⟨x, h1, y, h2, h3⟩ := h
    unfold quotient at h3
    split_ifs at h3 with hy
    simp at h3
    subst h3
    obtain ⟨w, k1, k2, k3⟩ := iha x h1
    obtain ⟨w', l1, l2, l3⟩ := ihb y h2
    rw [evalNode, k1, l1, lift₂]
    refine binop_gives k2 l2 k3 l3 (fun a b ha hb => ?_) (fun a b ha hb => ?_) ?_
    · have : b ≠ 0 := by rintro rfl; simp at hb; exact hy hb.symm
      exact ⟨.other, by simp [this], rfl, fun h => absurd rfl h⟩
    · obtain ⟨h1, h2⟩ := ratField_div ha hb hy
      exact ⟨.frac (a / b), by simp [h2], rfl, fun _ => h1⟩
    · exact ⟨.fld (x / y), by simp [hy], rfl, fun _ => rfl⟩
  | pow a b iha ihb =>
    simp only [Ast.value, Option.bind_eq_some_iff] at h
    obtain ⟨x, h1, k, h2, h3⟩ := h
    unfold power at h3
    split_ifs at h3 with hx
    simp at h3
    subst h3
    obtain ⟨w, k1, k2, k3⟩ := iha x h1
    rw [evalNode, k1, int_eval leaf b k h2, lift₂, Ast.ty, h2]
    rcases w with m | q | z | _
    · simp only [EVal.tag] at k2
      have k3 := k3 (by rw [← k2]; simp)
      simp [EVal.toField] at k3
      rw [← k2]
      by_cases hk : 0 ≤ k
      · rw [if_neg (by simp; omega)]
        refine ⟨.int (m ^ k.toNat), by simp [vPow, hk], rfl, fun _ => ?_⟩
        obtain ⟨n, rfl⟩ := Int.eq_ofNat_of_zero_le hk
        simp [EVal.toField, k3]
      · rw [if_pos (by simp; omega)]
        have hm : m ≠ 0 := by rintro rfl; simp at k3; exact hx ⟨by omega, k3.symm⟩
        exact ⟨.other, by simp [vPow, hk, hm], rfl, fun h => absurd rfl h⟩
    · simp only [EVal.tag] at k2
      have k3 := k3 (by rw [← k2]; simp)
      obtain ⟨h4, h5⟩ := ratField_zpow k3 k hx
      rw [← k2, if_neg (by simp)]
      exact ⟨.frac (q ^ k), by simp only [vPow, if_neg h5], rfl, fun _ => h4⟩
    · simp only [EVal.tag] at k2
      have k3 := k3 (by rw [← k2]; simp)
      simp [EVal.toField] at k3
      subst k3
      rw [← k2, if_neg (by simp)]
      exact ⟨.fld (z ^ k), by simp only [vPow, if_neg hx], rfl, fun _ => rfl⟩
    · simp only [EVal.tag] at k2
      rw [← k2, if_neg (by simp)]
      exact ⟨.other, rfl, rfl, fun h => absurd rfl h⟩

/-! ### Where the value is not defined -/

theorem binop_ne_other {fi : ℤ → ℤ → Except Err (EVal K)} {fq : ℚ → ℚ → Except Err (EVal K)} {fk : K → K → Except Err (EVal K)}
    {w1 w2 w : EVal K} (h : binop fi fq fk w1 w2 = .ok w) (hw : w ≠ .other) : w1 ≠ .other ∧ w2 ≠ .other := by
  cases w1 <;> cases w2 <;> simp_all [binop, eq_comm]

omit [Field K] in
theorem lift₂_ok {f : EVal K → EVal K → Except Err (EVal K)} {r s : Except Err (EVal K)} {w : EVal K} (h : lift₂ f r s = .ok w) :
    ∃ w1 w2, r = .ok w1 ∧ s = .ok w2 ∧ f w1 w2 = .ok w := by
  rcases r with e | w1
  · simp [lift₂] at h
  · rcases s with e | w2
    · simp [lift₂] at h
    · exact ⟨w1, w2, rfl, rfl, h⟩

theorem binop_int {fi : ℤ → ℤ → Except Err (EVal K)} {fq : ℚ → ℚ → Except Err (EVal K)} {fk : K → K → Except Err (EVal K)}
    {w1 w2 : EVal K} {m : ℤ} (h : binop fi fq fk w1 w2 = .ok (.int m)) (hq : ∀ a b, fq a b ≠ .ok (.int m))
    (hk : ∀ a b, fk a b ≠ .ok (.int m)) : ∃ a b, w1 = .int a ∧ w2 = .int b ∧ fi a b = .ok (.int m) := by
  cases w1 <;> cases w2 <;> simp only [binop] at h
  all_goals first
    | exact ⟨_, _, rfl, rfl, h⟩
    | exact absurd h (hq _ _)
    | simp at h
    | (split at h
       · exact absurd h (hk _ _)
       · simp at h)

/-- An integer result comes from an expression of integers. -/
theorem eval_int (leaf : List Char → Except Err K) (e : Ast EAtom) (m : ℤ) (h : evalNode leaf e = .ok (.int m)) : e.int atomInt = some m := by
  induction e generalizing m with
  | atom x =>
    rcases x with k | ⟨a, b⟩ | i
    · simpa [Ast.int, atomInt, evalNode] using h
    · simp only [evalNode] at h; split_ifs at h; simp at h
    · simp only [evalNode] at h; split at h <;> simp at h
  | pos a ih => exact ih m h
  | neg a ih =>
    simp only [evalNode] at h
    split at h
    · rename_i x hx
      rcases x with k | q | z | _ <;> simp [vNeg] at h
      rw [Ast.int, ih k hx, ← h]; rfl
    · simp at h
  | add a b iha ihb =>
    obtain ⟨w1, w2, h1, h2, h3⟩ := lift₂_ok h
    obtain ⟨x, y, rfl, rfl, h4⟩ := binop_int h3 (by simp) (by simp)
    simp [Ast.int, iha x h1, ihb y h2] at h4 ⊢; exact h4
  | sub a b iha ihb =>
    obtain ⟨w1, w2, h1, h2, h3⟩ := lift₂_ok h
    obtain ⟨x, y, rfl, rfl, h4⟩ := binop_int h3 (by simp) (by simp)
    simp [Ast.int, iha x h1, ihb y h2] at h4 ⊢; exact h4
  | mul a b iha ihb =>
    obtain ⟨w1, w2, h1, h2, h3⟩ := lift₂_ok h
    obtain ⟨x, y, rfl, rfl, h4⟩ := binop_int h3 (by simp) (by simp)
    simp [Ast.int, iha x h1, ihb y h2] at h4 ⊢; exact h4
  | div a b iha ihb =>
    obtain ⟨w1, w2, h1, h2, h3⟩ := lift₂_ok h
    obtain ⟨x, y, rfl, rfl, h4⟩ := binop_int h3 (by intro a b; split_ifs <;> simp) (by intro a b; split_ifs <;> simp)
    split_ifs at h4; simp at h4
  | pow a b iha ihb =>
    obtain ⟨w1, w2, h1, h2, h3⟩ := lift₂_ok h
    unfold vPow at h3
    split at h3
    · rename_i x k
      split_ifs at h3 with hk
      · simp at h3
        simp [Ast.int, iha x h1, ihb k h2, hk, h3]
      · simp at h3
    · split_ifs at h3; simp at h3
    · split_ifs at h3; simp at h3
    · simp at h3

theorem toField_ok [CharZero K] {w : EVal K} (h : w ≠ .other) : ∃ v, w.toField = .ok v := by
  rcases w with m | q | x | _
  · exact ⟨_, rfl⟩
  · exact ⟨q, ratField_ok.mpr ⟨by exact_mod_cast q.den_nz, rfl⟩⟩
  · exact ⟨_, rfl⟩
  · exact absurd rfl h

theorem ratField_zero [CharZero K] {q : ℚ} (h : ratField q = .ok (0 : K)) : q = 0 := by
  have := (ratField_ok.mp h).2
  exact_mod_cast this.symm

omit [Field K] in
theorem tag_ne_none {w : EVal K} (h : w ≠ .other) : w.tag ≠ none := by
  cases w <;> simp_all [EVal.tag]

/-- Dividing by anything that is zero raises. -/
theorem vDiv_zero [CharZero K] {w1 w2 : EVal K} (h1 : w1 ≠ .other) (h2 : w2.toField = .ok 0) : vDiv w1 w2 = .error .zeroDivision := by
  obtain ⟨v, hv⟩ := toField_ok h1
  rcases w2 with m | q | z | _
  · have hm : m = 0 := by simpa [EVal.toField] using h2
    subst hm
    rcases w1 with a | a | a | _
    · simp [vDiv, binop]
    · simp [vDiv, binop]
    · simp [vDiv, binop, EVal.toField]
    · exact absurd rfl h1
  · have hq := ratField_zero h2
    subst hq
    rcases w1 with a | a | a | _
    · simp [vDiv, binop]
    · simp [vDiv, binop]
    · simp only [vDiv, binop, h2]; simp [EVal.toField]
    · exact absurd rfl h1
  · have hz : z = 0 := by simpa [EVal.toField] using h2
    subst hz
    rcases w1 with a | a | a | _
    · simp [vDiv, binop, EVal.toField]
    · simp only [vDiv, binop, hv]; simp [EVal.toField]
    · simp [vDiv, binop, EVal.toField]
    · exact absurd rfl h1
  · simp [EVal.toField] at h2

/-- `_eval_node` in characteristic zero: what it returns, unless a float, is the value of the expression, which is then
defined. -/
theorem value_of_evalNode [CharZero K] (leaf : List Char → Except Err K) (e : Ast EAtom) (w : EVal K) (h : evalNode leaf e = .ok w)
    (hw : w ≠ .other) : ∃ v, e.value (atomValue fun i => (leaf i).toOption) atomInt = some v ∧ w.toField = .ok v := by
  suffices hs : ∃ v, e.value (atomValue fun i => (leaf i).toOption) atomInt = some v by
    obtain ⟨v, hv⟩ := hs
    obtain ⟨w', h1, h2, h3⟩ := evalNode_value leaf e v hv
    rw [h] at h1
    injection h1 with h1
    subst h1
    exact ⟨v, hv, h3 (by rw [← h2]; exact tag_ne_none hw)⟩
  induction e generalizing w with
  | atom x =>
    rcases x with k | ⟨a, b⟩ | i
    · exact ⟨_, rfl⟩
    · simp only [evalNode] at h
      split_ifs at h with hb
      exact ⟨_, by simp only [Ast.value, atomValue, quotient]; rw [if_neg (by exact_mod_cast hb)]⟩
    · simp only [evalNode] at h
      split at h
      · rename_i x hx
        exact ⟨x, by simp [Ast.value, atomValue, hx, Except.toOption]⟩
      · simp at h
  | pos a ih => exact ih w h hw
  | neg a ih =>
    simp only [evalNode] at h
    split at h
    · rename_i x hx
      have hx' : x ≠ .other := by
        rintro rfl
        simp [vNeg] at h
        exact hw h.symm
      obtain ⟨v, hv⟩ := ih x hx hx'
      exact ⟨-v, by simp [Ast.value, hv]⟩
    · simp at h
  | add a b iha ihb =>
    obtain ⟨w1, w2, h1, h2, h3⟩ := lift₂_ok h
    obtain ⟨n1, n2⟩ := binop_ne_other h3 hw
    obtain ⟨x, hx⟩ := iha w1 h1 n1
    obtain ⟨y, hy⟩ := ihb w2 h2 n2
    exact ⟨x + y, by simp [Ast.value, hx, hy]⟩
  | sub a b iha ihb =>
    obtain ⟨w1, w2, h1, h2, h3⟩ := lift₂_ok h
    obtain ⟨n1, n2⟩ := binop_ne_other h3 hw
    obtain ⟨x, hx⟩ := iha w1 h1 n1
    obtain ⟨y, hy⟩ := ihb w2 h2 n2
    exact ⟨x - y, by simp [Ast.value, hx, hy]⟩
  | mul a b iha ihb =>
    obtain ⟨w1, w2, h1, h2, h3⟩ := lift₂_ok h
    obtain ⟨n1, n2⟩ := binop_ne_other h3 hw
    obtain ⟨x, hx⟩ := iha w1 h1 n1
    obtain ⟨y, hy⟩ := ihb w2 h2 n2
    exact ⟨x * y, by simp [Ast.value, hx, hy]⟩
  | div a b iha ihb =>
    obtain ⟨w1, w2, h1, h2, h3⟩ := lift₂_ok h
    obtain ⟨n1, n2⟩ := binop_ne_other h3 hw
    obtain ⟨x, hx⟩ := iha w1 h1 n1
    obtain ⟨y, hy⟩ := ihb w2 h2 n2
    obtain ⟨w', k1, k2, k3⟩ := evalNode_value leaf b y hy
    rw [h2] at k1
    injection k1 with k1
    subst k1
    have k3 := k3 (by rw [← k2]; exact tag_ne_none n2)
    have hy0 : y ≠ 0 := by
      rintro rfl
      rw [vDiv_zero n1 k3] at h3
      simp at h3
    exact ⟨x / y, by simp [Ast.value, hx, hy, quotient, hy0]⟩
  | pow a b iha ihb =>
    obtain ⟨w1, w2, h1, h2, h3⟩ := lift₂_ok h
    have n : w1 ≠ .other ∧ ∃ k, w2 = .int k := by
      cases w1 <;> cases w2 <;> simp_all [vPow, eq_comm]
    obtain ⟨n1, k, rfl⟩ := n
    obtain ⟨x, hx⟩ := iha w1 h1 n1
    obtain ⟨w', k1, k2, k3⟩ := evalNode_value leaf a x hx
    rw [h1] at k1
    injection k1 with k1
    subst k1
    have k3 := k3 (by rw [← k2]; exact tag_ne_none n1)
    have hk : ¬ (k < 0 ∧ x = 0) := by
      rintro ⟨hk, rfl⟩
      rcases w1 with m | q | z | _
      · simp only [vPow] at h3
        split_ifs at h3 with h4 h5
        · omega
        · simp at h3; exact hw h3.symm
      · have hq := ratField_zero k3
        simp [vPow, hk, hq] at h3
      · have hz : z = 0 := by simpa [EVal.toField] using k3
        simp [vPow, hk, hz] at h3
      · exact absurd rfl n1
    exact ⟨x ^ k, by simp only [Ast.value, hx, eval_int leaf b k h2, Option.bind_some, power]; rw [if_neg hk]⟩

end Lips

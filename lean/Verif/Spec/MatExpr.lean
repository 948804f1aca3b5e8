import Mathlib.Data.Matrix.Mul
import Mathlib.LinearAlgebra.Matrix.Notation
import Verif.Model.NodeText

/-!
What an expression of numbers and matrices means in ordinary matrix algebra. Only sums of equal shapes, products of matching shapes and
multiples by numbers mean anything; nothing is spread over the entries of an array.
-/

namespace Lips

/-- An integer, a number of the field, a matrix. -/
inductive Quant (K : Type*) where
  | int (m : ℤ)
  | scal (x : K)
  | mat (r c : ℕ) (M : Matrix (Fin r) (Fin c) K)

variable {K : Type*} [Field K]

/-- A quantity that is a number; a matrix with one entry is one. -/
inductive Quant.IsNum : Quant K → K → Prop
  | int (m : ℤ) : IsNum (.int m) m
  | scal (x : K) : IsNum (.scal x) x
  | one (M : Matrix (Fin 1) (Fin 1) K) : IsNum (.mat 1 1 M) (M 0 0)

/-- Is the quantity an integer. -/
def Quant.isInt : Quant K → Prop
  | .int _ => True
  | _ => False

/-- A slice of an index of length `len`: from `lo` on `k` values. -/
inductive Covers (len : ℕ) : Ix → ℕ → ℕ → Prop
  | all : Covers len (.slice none none) 0 len
  | part (lo k : ℕ) (h : lo + k ≤ len) : Covers len (.slice (some lo) (some (lo + k : ℕ))) lo k

/-- The sum, difference, product, quotient of two numbers. -/
inductive NumOp (K : Type*) [Field K] : Bin → K → K → K → Prop
  | add (x y : K) : NumOp K .add x y (x + y)
  | sub (x y : K) : NumOp K .sub x y (x - y)
  | mul (x y : K) : NumOp K .mul x y (x * y)
  | div (x y : K) (h : y ≠ 0) : NumOp K .div x y (x / y)

/-- The sum, difference, product of two integers. -/
inductive IntOp : Bin → ℤ → ℤ → ℤ → Prop
  | add (x y : ℤ) : IntOp .add x y (x + y)
  | sub (x y : ℤ) : IntOp .sub x y (x - y)
  | mul (x y : ℤ) : IntOp .mul x y (x * y)
  | pow (x : ℤ) (k : ℕ) : IntOp .pow x k (x ^ k)

/-- What an expression means when the names mean what `env` says. -/
inductive Means (env : List Char → Option (Quant K)) : Node → Quant K → Prop
  | num (k : ℕ) : Means env (.num k) (.int k)
  | fraction (a b : ℕ) (h : (b : K) ≠ 0) : Means env (.fraction a b) (.scal (a / b))
  | name (t : List Char) (q : Quant K) (h : env t = some q) : Means env (.oPs t) q
  | eps : Means env (.name ['ϵ']) (.mat 2 2 !![0, 1; -1, 0])
  | pos {a q} : Means env a q → Means env (.pos a) q
  | negInt {a m} : Means env a (.int m) → Means env (.neg a) (.int (-m))
  | negScal {a x} : Means env a (.scal x) → Means env (.neg a) (.scal (-x))
  | negMat {a r c M} : Means env a (.mat r c M) → Means env (.neg a) (.mat r c (-M))
  | opInt {a b o x y z} : Means env a (.int x) → Means env b (.int y) → IntOp o x y z → Means env (.bin o a b) (.int z)
  | opNum {a b o q q' x y z} : Means env a q → Means env b q' → q.IsNum x → q'.IsNum y → ¬ (q.isInt ∧ q'.isInt) →
      NumOp K o x y z → Means env (.bin o a b) (.scal z)
  | powNum {a b x k} : Means env a (.scal x) → Means env b (.int k) → ¬ (k < 0 ∧ x = 0) → Means env (.bin .pow a b) (.scal (x ^ k))
  | addMat {a b r c M N} : Means env a (.mat r c M) → Means env b (.mat r c N) → Means env (.bin .add a b) (.mat r c (M + N))
  | subMat {a b r c M N} : Means env a (.mat r c M) → Means env b (.mat r c N) → Means env (.bin .sub a b) (.mat r c (M - N))
  | matmul {a b r k c M N} : Means env a (.mat r k M) → Means env b (.mat k c N) → Means env (.bin .matmul a b) (.mat r c (M * N))
  | numMat {a b q x r c M} : Means env a q → q.IsNum x → Means env b (.mat r c M) → Means env (.bin .mul a b) (.mat r c (x • M))
  | matNum {a b q x r c M} : Means env a (.mat r c M) → Means env b q → q.IsNum x → Means env (.bin .mul a b) (.mat r c (x • M))
  | matDiv {a b q x r c M} : Means env a (.mat r c M) → Means env b q → q.IsNum x → x ≠ 0 →
      Means env (.bin .div a b) (.mat r c (x⁻¹ • M))
  | transpose {a r c M} : Means env a (.mat r c M) → Means env (.transpose a) (.mat c r M.transpose)
  | beside {a b r c d M N} : Means env a (.mat r c M) → Means env b (.mat r d N) →
      Means env (.block (.list [a, b])) (.mat r (c + d) fun i => Fin.append (M i) (N i))
  | above {a b r s c M N} : Means env a (.mat r c M) → Means env b (.mat s c N) →
      Means env (.block (.list [.list [a], .list [b]])) (.mat (r + s) c fun i j => Fin.append (fun k => M k j) (fun k => N k j) i)
  | cut {a r c M ix iy lo k lo' k'} : Means env a (.mat r c M) → Covers r ix lo k → Covers c iy lo' k' →
      (hr : lo + k ≤ r) → (hc : lo' + k' ≤ c) →
      Means env (.subscript a [ix, iy]) (.mat k k' fun i j => M ⟨lo + i, by omega⟩ ⟨lo' + j, by omega⟩)

/-- The positions of a slice of something of this length: not before the first bound, before the second one; negative bounds count from
the end. -/
def InSlice (len : ℕ) (lo hi : Option ℤ) (p : ℕ) : Prop :=
  (∀ k ∈ lo, (if k < 0 then k + len else k) ≤ p) ∧ ∀ k ∈ hi, (p : ℤ) < if k < 0 then k + len else k

end Lips

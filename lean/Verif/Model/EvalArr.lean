import Verif.Model.Call

/-!
Model of the evaluation of expressions with open indices: the rest of `_eval_node` (lips/particles_eval.py:178-251), that is lists,
`@`, `numpy.block`, `numpy.transpose`, `ϵ` and slices, on arrays with two indices, and `as_scalar_if_scalar`
(lips/particles_eval.py:90-101, lips/particles_compute.py:28-41).

Simplifications: arrays have two indices and entries in the field (also `ϵ`, whose entries are integers). Slices have
integer literals as bounds and no step. Values that are neither numbers nor such arrays nor lists of them (floats, arrays with one
index, results of other numpy functions) are not followed (`EVal.other`). `sqrt`, `mpf` and `PAdic(..)` are left out. The text from
which `_eval_node` builds the call `oPs('..')` is read back by `eval` as the same name, for the names `_parse` writes.
-/

namespace Lips

/-! ### Arrays -/

/-- An array with two indices. -/
structure Arr (K : Type*) where
  rows : ℕ
  cols : ℕ
  get : Matrix (Fin rows) (Fin cols) K

/-- Python values: numbers, arrays, lists. -/
inductive PVal (K : Type*) where
  | sc (v : EVal K)
  | arr (A : Arr K)
  | list (vs : List (PVal K))

variable {K : Type*} [Field K]

/-- The entry at two indices. -/
def Arr.entry (A : Arr K) (i j : ℕ) : K := if h : i < A.rows ∧ j < A.cols then A.get ⟨i, h.1⟩ ⟨j, h.2⟩ else 0

/-- numpy's broadcasting of a length: equal lengths, or one of them is one. -/
def broadcast (m n : ℕ) : Option ℕ := if m = n then some m else if m = 1 then some n else if n = 1 then some m else none

/-- The entry of an array repeated along its indices of length one. -/
def Arr.spread (A : Arr K) (i j : ℕ) : K := A.entry (if A.rows = 1 then 0 else i) (if A.cols = 1 then 0 else j)

/-- An operation entry by entry, with broadcasting; ValueError when the shapes do not fit. -/
def Arr.zip (f : K → K → K) (A B : Arr K) : Except Err (Arr K) :=
  match broadcast A.rows B.rows, broadcast A.cols B.cols with
  | some r, some c => .ok ⟨r, c, fun i j => f (A.spread i j) (B.spread i j)⟩
  | _, _ => .error .valueError

/-- A number as an array. -/
def Arr.const (x : K) : Arr K := ⟨1, 1, fun _ _ => x⟩

/-- `A / B` entry by entry; ZeroDivisionError when an entry of `B` that is used is zero. -/
noncomputable def Arr.div (A B : Arr K) : Except Err (Arr K) :=
  match A.zip (· / ·) B with
  | .error e => .error e
  | .ok C => open Classical in if ∃ i < C.rows, ∃ j < C.cols, B.spread i j = 0 then .error .zeroDivision else .ok C

/-- `A ** k` entry by entry. -/
noncomputable def Arr.pow (A : Arr K) (k : ℤ) : Except Err (Arr K) :=
  open Classical in if k < 0 ∧ ∃ i j, A.get i j = 0 then .error .zeroDivision else .ok ⟨A.rows, A.cols, fun i j => A.get i j ^ k⟩

/-- `A @ B`; ValueError when the lengths of the contracted index differ. -/
def Arr.matmul (A B : Arr K) : Except Err (Arr K) :=
  if A.cols = B.rows then .ok ⟨A.rows, B.cols, fun i j => ∑ k : Fin A.cols, A.get i k * B.entry k j⟩ else .error .valueError

/-- `-A`, `numpy.transpose(A)`. -/
def Arr.neg (A : Arr K) : Arr K := ⟨A.rows, A.cols, -A.get⟩
def Arr.transpose (A : Arr K) : Arr K := ⟨A.cols, A.rows, A.get.transpose⟩

/-- Two arrays next to each other, one above the other. -/
def Arr.beside (A B : Arr K) : Except Err (Arr K) :=
  if A.rows = B.rows then
    .ok ⟨A.rows, A.cols + B.cols, fun i j => if j < A.cols then A.entry i j else B.entry i (j - A.cols)⟩ else .error .valueError

def Arr.above (A B : Arr K) : Except Err (Arr K) :=
  if A.cols = B.cols then
    .ok ⟨A.rows + B.rows, A.cols, fun i j => if i < A.rows then A.entry i j else B.entry (i - A.rows) j⟩ else .error .valueError

/-- Several arrays joined by one of the two; none at all is a ValueError. -/
def joinArrs (f : Arr K → Arr K → Except Err (Arr K)) : List (Arr K) → Except Err (Arr K)
  | [] => .error .valueError
  | [A] => .ok A
  | A :: B :: As => match joinArrs f (B :: As) with
    | .ok C => f A C
    | .error e => .error e

/-- The rows from `a` up to `b` and the columns from `c` up to `d`. -/
def Arr.cut (A : Arr K) (a b c d : ℕ) : Arr K := ⟨b - a, d - c, fun i j => A.entry (a + i) (c + j)⟩

/-! ### Operators on values -/

/-- Binary operators, particles_eval.py:22-24 (`^` on integers is left out: `_parse` has replaced it). -/
inductive Bin where
  | add | sub | mul | div | pow | matmul
  deriving DecidableEq

/-- A result as a value. -/
def asSc (r : Except Err (EVal K)) : Except Err (PVal K) :=
  match r with
  | .ok v => .ok (.sc v)
  | .error e => .error e

def asArr (r : Except Err (Arr K)) : Except Err (PVal K) :=
  match r with
  | .ok A => .ok (.arr A)
  | .error e => .error e

/-- `@` on two numbers is a TypeError. -/
def numMatmul : EVal K → EVal K → Except Err (EVal K)
  | .other, _ => .ok .other
  | _, .other => .ok .other
  | _, _ => .error .typeError

/-- An operator on two numbers. -/
noncomputable def scalarOp : Bin → EVal K → EVal K → Except Err (EVal K)
  | .add => vAdd
  | .sub => vSub
  | .mul => vMul
  | .div => vDiv
  | .pow => vPow
  | .matmul => numMatmul

/-- An operator on two arrays. Simplification: an array as an exponent is not followed. -/
noncomputable def arrayOp : Bin → Arr K → Arr K → Except Err (PVal K)
  | .add, A, B => asArr (A.zip (· + ·) B)
  | .sub, A, B => asArr (A.zip (· - ·) B)
  | .mul, A, B => asArr (A.zip (· * ·) B)
  | .div, A, B => asArr (A.div B)
  | .matmul, A, B => asArr (A.matmul B)
  | .pow, _, _ => .ok (.sc .other)

/-- An operator on a number and an array, with the number spread over the array; `@` with a number is a ValueError. -/
noncomputable def mixedOp (o : Bin) (f : Arr K → Except Err (PVal K)) (x : EVal K) : Except Err (PVal K) :=
  match x with
  | .other => .ok (.sc .other)
  | x => if o = .matmul then .error .valueError else match x.toField with
    | .ok a => f (.const a)
    | .error e => .error e

/-- `operators[type(node.op)](left, right)`. -/
noncomputable def binVal (o : Bin) : PVal K → PVal K → Except Err (PVal K)
  | .sc x, .sc y => asSc (scalarOp o x y)
  | .arr A, .arr B => arrayOp o A B
  | .arr A, .sc y => match o, y with
    | .pow, .int k => asArr (A.pow k)
    | .pow, _ => .ok (.sc .other)
    | o, y => mixedOp o (arrayOp o A) y
  | .sc x, .arr B => mixedOp o (fun A => arrayOp o A B) x
  | _, _ => .ok (.sc .other)

/-- `op.neg`. -/
noncomputable def negVal : PVal K → Except Err (PVal K)
  | .sc x => .ok (.sc (vNeg x))
  | .arr A => .ok (.arr A.neg)
  | .list _ => .error .typeError

/-- `op.pos`. -/
def posVal : PVal K → Except Err (PVal K)
  | .list _ => .error .typeError
  | v => .ok v

/-- The arrays in a list, if it has nothing else; the lists in a list. -/
def arrsIn : List (PVal K) → Option (List (Arr K))
  | [] => some []
  | .arr A :: vs => (arrsIn vs).map (A :: ·)
  | _ :: _ => none

def listsIn : List (PVal K) → Option (List (List (Arr K)))
  | [] => some []
  | .list us :: vs => (arrsIn us).bind fun As => (listsIn vs).map (As :: ·)
  | _ :: _ => none

/-- The results of a list, or the first error. -/
def allOk {α : Type*} : List (Except Err α) → Except Err (List α)
  | [] => .ok []
  | .error e :: _ => .error e
  | .ok a :: rs => match allOk rs with
    | .ok as => .ok (a :: as)
    | .error e => .error e

/-- `numpy.block` of a list of arrays, or of a list of such lists. -/
def blockVal : PVal K → Except Err (PVal K)
  | .arr A => .ok (.arr A)
  | .sc _ => .ok (.sc .other)
  | .list vs => match arrsIn vs with
    | some As => asArr (joinArrs Arr.beside As)
    | none => match listsIn vs with
      | none => .ok (.sc .other)
      | some Ass => match allOk (Ass.map (joinArrs Arr.beside)) with
        | .ok As => asArr (joinArrs Arr.above As)
        | .error e => .error e

/-- `numpy.transpose`. -/
def transposeVal : PVal K → Except Err (PVal K)
  | .arr A => .ok (.arr A.transpose)
  | _ => .ok (.sc .other)

/-- An index: a slice or an integer. -/
inductive Ix where
  | slice (lo hi : Option ℤ)
  | pos (k : ℤ)
  deriving DecidableEq

/-- A bound of a slice of something of this length: negative ones count from the end, all are cut to the length. -/
def bound (len : ℕ) (k : ℤ) : ℕ := if k < 0 then (k + len).toNat else min k.toNat len

/-- The first index of a slice and the one after the last. -/
def lowOf (len : ℕ) : Option ℤ → ℕ
  | none => 0
  | some k => bound len k

def highOf (len : ℕ) : Option ℤ → ℕ
  | none => len
  | some k => bound len k

/-- An integer as an index. -/
def indexOf (len : ℕ) (k : ℤ) : Except Err ℕ :=
  let i := if k < 0 then k + len else k
  if 0 ≤ i ∧ i < len then .ok i.toNat else .error .indexError

/-- `value[index]`, particles_eval.py:230-248. -/
def subscriptVal : PVal K → List Ix → Except Err (PVal K)
  | .arr A, [.slice l h] => .ok (.arr (A.cut (lowOf A.rows l) (highOf A.rows h) 0 A.cols))
  | .arr A, [.slice l h, .slice l' h'] =>
    .ok (.arr (A.cut (lowOf A.rows l) (highOf A.rows h) (lowOf A.cols l') (highOf A.cols h')))
  | .arr A, [.pos i, .pos j] => match indexOf A.rows i, indexOf A.cols j with
    | .ok i, .ok j => .ok (.sc (.fld (A.entry i j)))
    | .error e, _ => .error e
    | _, .error e => .error e
  | .arr _, _ :: _ :: _ :: _ => .error .indexError
  | .sc .other, _ => .ok (.sc .other)
  | .sc _, _ => .error .typeError
  | _, _ => .ok (.sc .other)

/-! ### `_eval_node` -/

/-- The nodes of Python's syntax tree. -/
inductive Node where
  | num (k : ℕ)
  | bin (o : Bin) (a b : Node)
  | neg (a : Node)
  | pos (a : Node)
  | list (es : List Node)
  | oPs (name : List Char)
  | fraction (a b : ℕ)
  | block (a : Node)
  | transpose (a : Node)
  | call (f : List Char) (args : List Node)
  | name (id : List Char)
  | subscript (a : Node) (ix : List Ix)

/-- `LeviCivita`, lips/tools.py:20. -/
def epsArr : Arr K := ⟨2, 2, !![0, 1; -1, 0]⟩

/-- The functions that `call` is not about. -/
def knownFns : List (List Char) := ["oPs".toList, "Fraction".toList, "PAdic".toList]

mutual

/-- `_eval_node`, particles_eval.py:178-251; `leaf` is what `oPs(..)` returns. `ϵ` is normalised to `ε` by Python, and is
in `locals_`; so are `oPs` and `numpy`, which are not of the types allowed in line 222. -/
noncomputable def evalArr (leaf : List Char → Except Err (PVal K)) : Node → Except Err (PVal K)
  | .num k => .ok (.sc (.int k))
  | .bin o a b => match evalArr leaf a with
    | .error e => .error e
    | .ok x => match evalArr leaf b with
      | .error e => .error e
      | .ok y => binVal o x y
  | .neg a => match evalArr leaf a with
    | .error e => .error e
    | .ok x => negVal x
  | .pos a => match evalArr leaf a with
    | .error e => .error e
    | .ok x => posVal x
  | .list es => match evalArrs leaf es with
    | .error e => .error e
    | .ok vs => .ok (.list vs)
  | .oPs t => leaf t
  | .fraction a b => if b = 0 then .error .zeroDivision else .ok (.sc (.frac (a / b)))
  | .block a => match evalArr leaf a with
    | .error e => .error e
    | .ok x => blockVal x
  | .transpose a => match evalArr leaf a with
    | .error e => .error e
    | .ok x => transposeVal x
  | .call f _ => if f ∈ knownFns then .ok (.sc .other) else .error .typeError
  | .name id => if id = ['ε'] ∨ id = ['ϵ'] then .ok (.arr epsArr) else .error .typeError
  | .subscript a ix => match evalArr leaf a with
    | .error e => .error e
    | .ok x => subscriptVal x ix

/-- The elements of a list, from left to right. -/
noncomputable def evalArrs (leaf : List Char → Except Err (PVal K)) : List Node → Except Err (List (PVal K))
  | [] => .ok []
  | a :: es => match evalArr leaf a with
    | .error e => .error e
    | .ok x => match evalArrs leaf es with
      | .error e => .error e
      | .ok xs => .ok (x :: xs)

end

/-! ### What `compute` returns -/

/-- `as_scalar_if_scalar`, particles_eval.py:90-101: an array with one entry becomes this entry. -/
def asScalar : PVal K → PVal K
  | .arr A => if A.rows * A.cols = 1 then .sc (.fld (A.entry 0 0)) else .arr A
  | v => v

/-- A pair as a row, as a column (lips/particle.py:121-198: spinors beginning with a bracket are rows, those ending with one are columns). -/
def rowArr (v : V2 K) : Arr K := ⟨1, 2, fun _ j => v j⟩
def colArr (v : V2 K) : Arr K := ⟨2, 1, fun i _ => v i⟩

/-- The shape of what a text of a form stands for. Simplification: a spinor that is not there (`None`), with which no operation
succeeds, and an internal mass are not followed. -/
def shaped : Form → Val K → PVal K
  | _, .num x => .sc (.fld x)
  | .Au _, .spinor (some v) => .arr (rowArr v)
  | .Sd _, .spinor (some v) => .arr (rowArr v)
  | .Ad _, .spinor (some v) => .arr (colArr v)
  | .Su _, .spinor (some v) => .arr (colArr v)
  | .openBegin _ _ _, .vec v => .arr (colArr v)
  | .openEnd _ _ _, .vec v => .arr (rowArr v)
  | _, .mat M => .arr ⟨2, 2, M⟩
  | _, _ => .sc .other

variable {n : ℕ}

/-- `oPs(name)` in an expression, particles_eval.py:193-196. Simplification: a name that is an expression itself is an error. -/
def leafArr (ps : Point K n) (fuel : ℕ) (t : List Char) : Except Err (PVal K) :=
  match rsubsDict t boldDigits with
  | .error e => .error e
  | .ok u => match evalForm ps fuel (classify u) with
    | some (.ok v) => .ok (shaped (classify u) v)
    | some (.error e) => .error e
    | none => .error .notImplemented

/-- `compute` of an expression, given its syntax tree. -/
noncomputable def computeNode (ps : Point K n) (fuel : ℕ) (a : Node) : Except Err (PVal K) :=
  match evalArr (leafArr ps fuel) a with
  | .ok v => .ok (asScalar v)
  | .error e => .error e

end Lips

import Verif.Spec.Mirror
import Verif.Props.FlipText
import Verif.Props.OpenWeights

/-!
C129: on the point with angle and square brackets exchanged an expression with open indices is the transpose of its mirror image on the point.
-/

namespace Lips

open Matrix

variable {K : Type*} [Field K] {n : ℕ}

/-! ### Arrays -/

theorem entry_transpose (A : Arr K) (i j : ℕ) : A.transpose.entry i j = A.entry j i := by
  unfold Arr.entry
  by_cases h : j < A.rows ∧ i < A.cols
  · rw [dif_pos h, dif_pos (show i < A.transpose.rows ∧ j < A.transpose.cols from h.symm)]; rfl
  · rw [dif_neg h, dif_neg (show ¬ (i < A.transpose.rows ∧ j < A.transpose.cols) from fun h' => h h'.symm)]

theorem spread_transpose (A : Arr K) (i j : ℕ) : A.transpose.spread i j = A.spread j i := entry_transpose A _ _

omit [Field K] in
omit [Field K] in
theorem transpose_transpose (A : Arr K) : A.transpose.transpose = A := rfl

omit [Field K] in
theorem const_transpose (x : K) : (Arr.const x).transpose = .const x := rfl

/-- The second result is the transposed first one, or both are exceptions. -/
def TransArr (r r' : Except Err (Arr K)) : Prop := match r, r' with
  | .ok A, .ok B => B = A.transpose
  | .error _, .error _ => True
  | _, _ => False

theorem zip_transpose (f : K → K → K) (A B : Arr K) : TransArr (A.zip f B) (A.transpose.zip f B.transpose) := by
  unfold Arr.zip
  show TransArr _ (match broadcast A.cols B.cols, broadcast A.rows B.rows with | some r, some c => _ | _, _ => _)
  rcases broadcast A.rows B.rows with _ | r
  · rcases broadcast A.cols B.cols with _ | c <;> trivial
  rcases broadcast A.cols B.cols with _ | c
  · trivial
  show _ = _
  exact arr_congr fun i j => by rw [spread_transpose, spread_transpose]; rfl

theorem div_transpose (A B : Arr K) : TransArr (A.div B) (A.transpose.div B.transpose) := by
  have key := zip_transpose (· / ·) A B
  unfold Arr.div
  rcases h0 : A.zip (· / ·) B with e | C <;> rcases h : A.transpose.zip (· / ·) B.transpose with e' | C' <;> rw [h0, h] at key
  · trivial
  · exact key.elim
  · exact key.elim
  · have key : C' = C.transpose := key
    subst key
    simp only
    have : (∃ i < C.transpose.rows, ∃ j < C.transpose.cols, B.transpose.spread i j = 0) ↔ ∃ i < C.rows, ∃ j < C.cols, B.spread i j = 0 := by
      simp only [spread_transpose]
      constructor
      · rintro ⟨i, hi, j, hj, h⟩; exact ⟨j, hj, i, hi, h⟩
      · rintro ⟨i, hi, j, hj, h⟩; exact ⟨j, hj, i, hi, h⟩
    by_cases hz : ∃ i < C.rows, ∃ j < C.cols, B.spread i j = 0
    · rw [if_pos hz, if_pos (this.2 hz)]; trivial
    · rw [if_neg hz, if_neg (fun h' => hz (this.1 h'))]; exact rfl

theorem pow_transpose (A : Arr K) (k : ℤ) : TransArr (A.pow k) (A.transpose.pow k) := by
  unfold Arr.pow
  have : (k < 0 ∧ ∃ i j, A.transpose.get i j = 0) ↔ k < 0 ∧ ∃ i j, A.get i j = 0 := and_congr_right fun _ => exists_comm
  by_cases h : k < 0 ∧ ∃ i j, A.get i j = 0
  · rw [if_pos h, if_pos (this.2 h)]; trivial
  · rw [if_neg h, if_neg (fun h' => h (this.1 h'))]; exact rfl

theorem matmul_transpose (A B : Arr K) : TransArr (A.matmul B) (B.transpose.matmul A.transpose) := by
  unfold Arr.matmul
  by_cases h : A.cols = B.rows
  · rw [if_pos h, if_pos (show B.transpose.cols = A.transpose.rows from h.symm)]
    refine arr_congr fun i j => ?_
    obtain ⟨r, k, M⟩ := A
    obtain ⟨k', c, N⟩ := B
    have h : k = k' := h
    subst h
    show ∑ x : Fin k, N x i * (Arr.transpose ⟨r, k, M⟩).entry x j = ∑ x : Fin k, M j x * (⟨k, c, N⟩ : Arr K).entry x i
    refine Finset.sum_congr rfl fun x _ => ?_
    have hj : (j : ℕ) < r := j.2
    have hi : (i : ℕ) < c := i.2
    rw [entry_transpose]
    simp only [Arr.entry, x.2, hi, hj, and_self, dite_true]
    exact mul_comm _ _
  · rw [if_neg h, if_neg (show ¬ B.transpose.cols = A.transpose.rows from fun h' => h h'.symm)]; trivial

theorem cut_transpose (A : Arr K) (a b c d : ℕ) : A.transpose.cut c d a b = (A.cut a b c d).transpose := by
  unfold Arr.cut
  exact arr_congr fun i j => entry_transpose A _ _

theorem above_transpose (A B : Arr K) : TransArr (A.beside B) (A.transpose.above B.transpose) ∧ TransArr (A.above B) (A.transpose.beside B.transpose) := by
  constructor
  · unfold Arr.beside Arr.above
    by_cases h : A.rows = B.rows
    · rw [if_pos h, if_pos (show A.transpose.cols = B.transpose.cols from h)]
      exact arr_congr fun i j => by rw [entry_transpose, entry_transpose]; rfl
    · rw [if_neg h, if_neg (show ¬ A.transpose.cols = B.transpose.cols from h)]; trivial
  · unfold Arr.beside Arr.above
    by_cases h : A.cols = B.cols
    · rw [if_pos h, if_pos (show A.transpose.rows = B.transpose.rows from h)]
      exact arr_congr fun i j => by rw [entry_transpose, entry_transpose]; rfl
    · rw [if_neg h, if_neg (show ¬ A.transpose.rows = B.transpose.rows from h)]; trivial

/-! ### Values -/

section
omit [Field K]

theorem transposed_arr (A : Arr K) : (PVal.arr A).transposed = .arr A.transpose := rfl

theorem TransArr.asArr {r r' : Except Err (Arr K)} (h : TransArr r r') : TransposedRes (asArr r) (asArr r') := by
  rcases r with e | A <;> rcases r' with e' | B
  · trivial
  · exact h.elim
  · exact h.elim
  · rw [show B = _ from h]; exact rfl

theorem trans_cases {r r' : Except Err (PVal K)} (h : TransposedRes r r') :
    (∃ e e', r = .error e ∧ r' = .error e') ∨ ∃ x, r = .ok x ∧ r' = .ok x.transposed := by
  rcases r with e | x <;> rcases r' with e' | x'
  · exact .inl ⟨e, e', rfl, rfl⟩
  · exact h.elim
  · exact h.elim
  · exact .inr ⟨x, rfl, by rw [show x' = _ from h]⟩

theorem asSc_trans (r : Except Err (EVal K)) : TransposedRes (asSc r) (asSc r) := by
  rcases r with e | x
  · trivial
  · exact rfl

theorem other_trans : TransposedRes (.ok (.sc .other) : Except Err (PVal K)) (.ok (.sc .other)) := rfl

end

theorem mixed_trans {o : Bin} {f f' : Arr K → Except Err (PVal K)} (hf : ∀ a, TransposedRes (f (.const a)) (f' (.const a))) (x : EVal K) :
    TransposedRes (mixedOp o f x) (mixedOp o f' x) := by
  have go : ∀ r : Except Err K, TransposedRes (if o = .matmul then .error .valueError else match r with | .ok a => f (.const a) | .error e => .error e)
      (if o = .matmul then .error .valueError else match r with | .ok a => f' (.const a) | .error e => .error e) := by
    intro r
    split
    · trivial
    rcases r with e | a
    · trivial
    · exact hf a
  cases x with
  | other => exact rfl
  | int k => exact go (EVal.int k).toField
  | frac q => exact go (EVal.frac q).toField
  | fld x => exact go (EVal.fld x).toField

theorem arrayOp_trans {o : Bin} (ho : o ≠ .matmul) (A B : Arr K) : TransposedRes (arrayOp o A B) (arrayOp o A.transpose B.transpose) := by
  cases o with
  | add => exact (zip_transpose _ A B).asArr
  | sub => exact (zip_transpose _ A B).asArr
  | mul => exact (zip_transpose _ A B).asArr
  | div => exact (div_transpose A B).asArr
  | pow => exact rfl
  | matmul => exact absurd rfl ho

theorem bin_trans {o : Bin} (ho : o ≠ .matmul) (x y : PVal K) : TransposedRes (binVal o x y) (binVal o x.transposed y.transposed) := by
  cases x with
  | sc x =>
    cases y with
    | sc y => exact asSc_trans _
    | arr B => exact mixed_trans (f := fun A => arrayOp o A B) (f' := fun A => arrayOp o A B.transpose) (fun a => arrayOp_trans ho (.const a) B) x
    | list => exact rfl
  | arr A =>
    cases y with
    | sc y =>
      have hm : TransposedRes (mixedOp o (arrayOp o A) y) (mixedOp o (arrayOp o A.transpose) y) := mixed_trans (fun a => arrayOp_trans ho A (.const a)) y
      cases o with
      | matmul => exact absurd rfl ho
      | pow =>
        cases y with
        | int k => exact (pow_transpose A k).asArr
        | frac => exact rfl
        | fld => exact rfl
        | other => exact rfl
      | add => exact hm
      | sub => exact hm
      | mul => exact hm
      | div => exact hm
    | arr B => exact arrayOp_trans ho A B
    | list => exact rfl
  | list => cases y <;> exact rfl

theorem matmul_trans (x y : PVal K) : TransposedRes (binVal .matmul x y) (binVal .matmul y.transposed x.transposed) := by
  cases x with
  | sc x =>
    cases y with
    | sc y => cases x <;> cases y <;> first | exact rfl | trivial
    | arr B => cases x <;> first | exact rfl | trivial
    | list => exact rfl
  | arr A =>
    cases y with
    | sc y => cases y <;> first | exact rfl | trivial
    | arr B => exact (matmul_transpose A B).asArr
    | list => exact rfl
  | list => cases y <;> exact rfl

theorem neg_trans (x : PVal K) : TransposedRes (negVal x) (negVal x.transposed) := by
  cases x with
  | sc x => exact rfl
  | arr A => exact rfl
  | list => trivial

omit [Field K] in
theorem pos_trans (x : PVal K) : TransposedRes (posVal x) (posVal x.transposed) := by
  cases x with
  | sc x => exact rfl
  | arr A => exact rfl
  | list => trivial

omit [Field K] in
theorem transpose_trans (x : PVal K) : TransposedRes (transposeVal x) (transposeVal x.transposed) := by
  cases x <;> exact rfl

theorem block_trans (x y : PVal K) :
    TransposedRes (blockVal (.list [.list [x, y]])) (blockVal (.list [.list [x.transposed], .list [y.transposed]])) ∧
    TransposedRes (blockVal (.list [.list [x], .list [y]])) (blockVal (.list [.list [x.transposed, y.transposed]])) := by
  cases x with
  | sc x => exact ⟨rfl, rfl⟩
  | list => exact ⟨rfl, rfl⟩
  | arr A =>
    cases y with
    | sc y => exact ⟨rfl, rfl⟩
    | list => exact ⟨rfl, rfl⟩
    | arr B =>
      obtain ⟨h1, h2⟩ := above_transpose A B
      constructor
      · have e1 : blockVal (.list [.list [.arr A, .arr B]]) = asArr (A.beside B) := by
          simp only [blockVal, arrsIn, listsIn, Option.map, Option.bind, List.map, joinArrs]
          rcases A.beside B with e | C <;> rfl
        rw [e1]
        exact h1.asArr
      · have e1 : blockVal (.list [.list [.arr A.transpose, .arr B.transpose]]) = asArr (A.transpose.beside B.transpose) := by
          simp only [blockVal, arrsIn, listsIn, Option.map, Option.bind, List.map, joinArrs]
          rcases A.transpose.beside B.transpose with e | C <;> rfl
        rw [transposed_arr, transposed_arr, e1]
        exact h2.asArr

/-- Not a list. -/
def NoList (r : Except Err (PVal K)) : Prop := ∀ vs, r ≠ .ok (.list vs)

theorem block_short {x y : PVal K} (hx : NoList (.ok x)) (hy : NoList (.ok y)) :
    TransposedRes (blockVal (.list [x, y])) (blockVal (.list [.list [x.transposed], .list [y.transposed]])) ∧
    TransposedRes (blockVal (.list [.list [x], .list [y]])) (blockVal (.list [x.transposed, y.transposed])) := by
  cases x with
  | sc x => exact ⟨rfl, rfl⟩
  | list us => exact absurd rfl (hx us)
  | arr A =>
    cases y with
    | sc y => exact ⟨rfl, rfl⟩
    | list us => exact absurd rfl (hy us)
    | arr B =>
      obtain ⟨h1, h2⟩ := above_transpose A B
      exact ⟨h1.asArr, h2.asArr⟩

omit [Field K] in
theorem asArr_noList (r : Except Err (Arr K)) : NoList (asArr r) := by
  intro vs h
  rcases r with e | A <;> cases h

theorem arrayOp_noList (o : Bin) (A B : Arr K) : NoList (arrayOp o A B) := by
  cases o with
  | pow => intro vs h; cases h
  | _ => exact asArr_noList _

theorem mixed_noList {o : Bin} {f : Arr K → Except Err (PVal K)} (hf : ∀ A, NoList (f A)) (x : EVal K) : NoList (mixedOp o f x) := by
  have go : ∀ r : Except Err K, NoList (if o = .matmul then .error .valueError else match r with | .ok a => f (.const a) | .error e => .error e) := by
    intro r
    split
    · intro vs h; cases h
    rcases r with e | a
    · intro vs h; cases h
    · exact hf _
  cases x with
  | other => intro vs h; cases h
  | int k => exact go (EVal.int k).toField
  | frac q => exact go (EVal.frac q).toField
  | fld x => exact go (EVal.fld x).toField

theorem bin_noList (o : Bin) (x y : PVal K) : NoList (binVal o x y) := by
  cases x with
  | sc x =>
    cases y with
    | sc y =>
      intro vs h
      have h : asSc (scalarOp o x y) = .ok (.list vs) := h
      revert h
      rcases scalarOp o x y with e | v <;> intro h <;> cases h
    | arr B => exact mixed_noList (f := fun A => arrayOp o A B) (fun A => arrayOp_noList o A B) x
    | list => intro vs h; cases h
  | arr A =>
    cases y with
    | sc y =>
      have hm : NoList (mixedOp o (arrayOp o A) y) := mixed_noList (arrayOp_noList o A) y
      cases o with
      | pow =>
        cases y with
        | int k => exact asArr_noList _
        | _ => intro vs h; cases h
      | _ => exact hm
    | arr B => exact arrayOp_noList o A B
    | list => intro vs h; cases h
  | list => cases y <;> intro vs h <;> cases h

theorem block_noList (x : PVal K) : NoList (blockVal x) := by
  cases x with
  | sc => intro vs h; cases h
  | arr => intro vs h; cases h
  | list us =>
    simp only [blockVal]
    split
    · exact asArr_noList _
    · split
      · intro vs h; cases h
      · split
        · exact asArr_noList _
        · intro vs h; cases h

theorem subscript_noList (x : PVal K) (ix : List Ix) : NoList (subscriptVal x ix) := by
  intro vs h
  unfold subscriptVal at h
  split at h <;> try cases h
  split at h <;> cases h

theorem subscript_trans (x : PVal K) :
    (∀ i j, TransposedRes (subscriptVal x [i, j]) (subscriptVal x.transposed [j, i])) ∧
    (∀ l h, TransposedRes (subscriptVal x [.slice l h]) (subscriptVal x.transposed [.slice none none, .slice l h])) ∧
    (∀ l h, TransposedRes (subscriptVal x [.slice none none, .slice l h]) (subscriptVal x.transposed [.slice l h])) := by
  have cut : ∀ (A : Arr K) a b c d, TransposedRes (.ok (.arr (A.cut a b c d))) (.ok (.arr (A.transpose.cut c d a b))) := by
    intro A a b c d
    rw [cut_transpose]
    exact rfl
  cases x with
  | sc x => cases x <;> exact ⟨fun _ _ => by first | exact rfl | trivial, fun _ _ => by first | exact rfl | trivial, fun _ _ => by first | exact rfl | trivial⟩
  | list => exact ⟨fun _ _ => rfl, fun _ _ => rfl, fun _ _ => rfl⟩
  | arr A =>
    refine ⟨fun i j => ?_, fun l h => cut A _ _ _ _, fun l h => cut A _ _ _ _⟩
    cases i <;> cases j
    · exact cut A _ _ _ _
    · exact rfl
    · exact rfl
    · simp only [subscriptVal, transposed_arr]
      show TransposedRes _ (match indexOf A.cols _, indexOf A.rows _ with | .ok i, .ok j => _ | .error e, _ => _ | _, .error e => _)
      rcases indexOf A.rows _ with e | i
      · rcases indexOf A.cols _ with e | j <;> trivial
      rcases indexOf A.cols _ with e | j
      · trivial
      · show _ = _
        rw [entry_transpose]
        rfl

/-! ### Expressions -/

/-- Names may have any values, if those of mirror images are transposed. -/
structure MirrorLeaves (m : List Char → List Char → Prop) (odd : List Char → Prop) (leaf leaf' : List Char → Except Err (PVal K)) : Prop where
  name : ∀ t t', m t t' → TransposedRes (leaf' t') (leaf t)
  noList : ∀ t, NoList (leaf t)
  odd : ∀ t, odd t → (∃ e e', leaf' t = .error e ∧ leaf t = .error e') ∨ ∃ x : EVal K, leaf' t = .ok (.sc x) ∧ leaf t = .ok (.sc (vNeg x))

omit [Field K] in
theorem trans_symm {r r' : Except Err (PVal K)} (h : TransposedRes r r') : TransposedRes r' r := by
  rcases trans_cases h with ⟨e, e', rfl, rfl⟩ | ⟨x, rfl, rfl⟩
  · trivial
  · cases x <;> exact rfl

theorem mirror_noList {m : List Char → List Char → Prop} {odd : List Char → Prop} {leaf leaf' : List Char → Except Err (PVal K)}
    (H : MirrorLeaves m odd leaf leaf') {a a' : Node} (h : Mirror m odd a a') : NoList (evalArr leaf a) := by
  have one : ∀ (r : Except Err (PVal K)) (f : PVal K → Except Err (PVal K)), (∀ x, NoList (f x)) →
      NoList (match r with | .error e => .error e | .ok x => f x) := by
    intro r f hf
    rcases r with e | x
    · intro vs h; cases h
    · exact hf x
  have two : ∀ (o : Bin) (a b : Node), NoList (evalArr leaf (.bin o a b)) := by
    intro o a b
    simp only [evalArr]
    refine one _ _ fun x => ?_
    exact one _ _ fun y => bin_noList o x y
  have bl : ∀ a : Node, NoList (evalArr leaf (.block a)) := by
    intro a
    rw [evalArr]
    exact one _ _ block_noList
  have su : ∀ (a : Node) ix, NoList (evalArr leaf (.subscript a ix)) := by
    intro a ix
    simp only [evalArr]
    exact one _ _ fun x => subscript_noList x ix
  cases h with
  | num k => intro vs h; rw [evalArr] at h; cases h
  | fraction a b => intro vs h; rw [evalArr] at h; split at h <;> cases h
  | name h => exact H.noList _
  | odd h => exact H.noList _
  | eps => intro vs h; rw [evalArr] at h; split at h <;> cases h
  | neg _ => rw [evalArr]; exact one _ _ fun x vs h => by cases x <;> cases h
  | pos _ => rw [evalArr]; exact one _ _ fun x vs h => by cases x <;> cases h
  | bin _ _ _ => exact two _ _ _
  | matmul _ _ => exact two _ _ _
  | transpose _ => rw [evalArr]; exact one _ _ fun x vs h => by cases x <;> cases h
  | row _ _ => exact bl _
  | column _ _ => exact bl _
  | shortRow _ _ => exact bl _
  | shortColumn _ _ => exact bl _
  | both _ _ _ => exact su _ _
  | rows _ _ _ => exact su _ _
  | cols _ _ _ => exact su _ _

/-- C129: whatever the names are. -/
theorem C129_transposed {m : List Char → List Char → Prop} {odd : List Char → Prop} {leaf leaf' : List Char → Except Err (PVal K)}
    (H : MirrorLeaves m odd leaf leaf') {a a' : Node} (h : Mirror m odd a a') : TransposedRes (evalArr leaf' a') (evalArr leaf a) := by
  refine trans_symm ?_
  induction h with
  | num k => exact rfl
  | fraction a b =>
    simp only [evalArr]
    split
    · trivial
    · exact rfl
  | name h => exact trans_symm (H.name _ _ h)
  | odd h =>
    simp only [evalArr]
    rcases H.odd _ h with ⟨e, e', h1, h2⟩ | ⟨x, h1, h2⟩
    · rw [h1, h2]; trivial
    · rw [h1, h2]; exact rfl
  | eps =>
    have e : evalArr leaf (.name ['ϵ']) = .ok (.arr epsArr) := by simp only [evalArr]; rfl
    have e' : evalArr leaf' (.neg (.name ['ϵ'])) = .ok (.arr epsArr.neg) := by simp only [evalArr]; rfl
    rw [e, e']
    show _ = _
    have key : ∀ i j : Fin 2, -(!![(0 : K), 1; -1, 0] i j) = !![(0 : K), 1; -1, 0] j i := by
      intro i j
      fin_cases i <;> fin_cases j <;> simp
    exact congrArg PVal.arr (arr_congr fun i j => key i j)
  | neg _ ih =>
    simp only [evalArr]
    rcases trans_cases ih with ⟨e, e', h1, h2⟩ | ⟨x, h1, h2⟩
    · rw [h1, h2]; trivial
    · rw [h1, h2]; exact neg_trans x
  | pos _ ih =>
    simp only [evalArr]
    rcases trans_cases ih with ⟨e, e', h1, h2⟩ | ⟨x, h1, h2⟩
    · rw [h1, h2]; trivial
    · rw [h1, h2]; exact pos_trans x
  | bin ho _ _ iha ihb =>
    simp only [evalArr]
    rcases trans_cases iha with ⟨e, e', h1, h2⟩ | ⟨x, h1, h2⟩
    · rw [h1, h2]; trivial
    · rw [h1, h2]
      rcases trans_cases ihb with ⟨e, e', h1, h2⟩ | ⟨y, h1, h2⟩
      · rw [h1, h2]; trivial
      · rw [h1, h2]; exact bin_trans ho x y
  | matmul _ _ iha ihb =>
    simp only [evalArr]
    rcases trans_cases iha with ⟨e, e', h1, h2⟩ | ⟨x, h1, h2⟩
    · rw [h1, h2]
      rcases trans_cases ihb with ⟨e, e', h1, h2⟩ | ⟨y, h1, h2⟩
      · rw [h2]; trivial
      · rw [h2]; trivial
    · rw [h1, h2]
      rcases trans_cases ihb with ⟨e, e', h1, h2⟩ | ⟨y, h1, h2⟩
      · rw [h1, h2]; trivial
      · rw [h1, h2]; exact matmul_trans x y
  | transpose _ ih =>
    simp only [evalArr]
    rcases trans_cases ih with ⟨e, e', h1, h2⟩ | ⟨x, h1, h2⟩
    · rw [h1, h2]; trivial
    · rw [h1, h2]; exact transpose_trans x
  | row _ _ iha ihb =>
    simp only [evalArr, evalArrs]
    rcases trans_cases iha with ⟨e, e', h1, h2⟩ | ⟨x, h1, h2⟩
    · rw [h1, h2]; trivial
    · rw [h1, h2]
      rcases trans_cases ihb with ⟨e, e', h1, h2⟩ | ⟨y, h1, h2⟩
      · rw [h1, h2]; trivial
      · rw [h1, h2]; exact (block_trans x y).1
  | column _ _ iha ihb =>
    simp only [evalArr, evalArrs]
    rcases trans_cases iha with ⟨e, e', h1, h2⟩ | ⟨x, h1, h2⟩
    · rw [h1, h2]; trivial
    · rw [h1, h2]
      rcases trans_cases ihb with ⟨e, e', h1, h2⟩ | ⟨y, h1, h2⟩
      · rw [h1, h2]; trivial
      · rw [h1, h2]; exact (block_trans x y).2
  | shortRow ha hb iha ihb =>
    have na := mirror_noList H ha
    have nb := mirror_noList H hb
    simp only [evalArr, evalArrs]
    rcases trans_cases iha with ⟨e, e', h1, h2⟩ | ⟨x, h1, h2⟩
    · rw [h1, h2]; trivial
    · rw [h1] at na
      rw [h1, h2]
      rcases trans_cases ihb with ⟨e, e', h1, h2⟩ | ⟨y, h1, h2⟩
      · rw [h1, h2]; trivial
      · rw [h1] at nb
        rw [h1, h2]; exact (block_short na nb).1
  | shortColumn ha hb iha ihb =>
    have na := mirror_noList H ha
    have nb := mirror_noList H hb
    simp only [evalArr, evalArrs]
    rcases trans_cases iha with ⟨e, e', h1, h2⟩ | ⟨x, h1, h2⟩
    · rw [h1, h2]; trivial
    · rw [h1] at na
      rw [h1, h2]
      rcases trans_cases ihb with ⟨e, e', h1, h2⟩ | ⟨y, h1, h2⟩
      · rw [h1, h2]; trivial
      · rw [h1] at nb
        rw [h1, h2]; exact (block_short na nb).2
  | both i j _ ih =>
    simp only [evalArr]
    rcases trans_cases ih with ⟨e, e', h1, h2⟩ | ⟨x, h1, h2⟩
    · rw [h1, h2]; trivial
    · rw [h1, h2]; exact (subscript_trans x).1 i j
  | rows l h _ ih =>
    simp only [evalArr]
    rcases trans_cases ih with ⟨e, e', h1, h2⟩ | ⟨x, h1, h2⟩
    · rw [h1, h2]; trivial
    · rw [h1, h2]; exact (subscript_trans x).2.1 l h
  | cols l h _ ih =>
    simp only [evalArr]
    rcases trans_cases ih with ⟨e, e', h1, h2⟩ | ⟨x, h1, h2⟩
    · rw [h1, h2]; trivial
    · rw [h1, h2]; exact (subscript_trans x).2.2 l h

theorem scalar_trans (x : PVal K) : asScalar x.transposed = (asScalar x).transposed := by
  cases x with
  | sc => rfl
  | list => rfl
  | arr A =>
    simp only [transposed_arr, asScalar]
    by_cases h : A.rows * A.cols = 1
    · rw [if_pos h, if_pos (show A.transpose.rows * A.transpose.cols = 1 by rw [← h]; exact mul_comm _ _), entry_transpose]; rfl
    · rw [if_neg h, if_neg (show ¬ A.transpose.rows * A.transpose.cols = 1 from fun h' => h (by rw [← h']; exact mul_comm _ _))]; rfl

/-! ### Names -/

theorem dot_mirror (M : M2 K) (u w : V2 K) : dot2 (vecMul u Mᵀ) w = dot2 (vecMul w M) u := by
  simp [dot2, vecMul, dotProduct, Fin.sum_univ_two]
  ring

theorem slotMat_swapped (c : Ctx K) (ps : Point K n) (b : Bool) (s : Slot n) : slotMat (barOf b) (swapped c ps) s = (slotMat (barOf b) ps s)ᵀ := by
  refine slotMat_map (g := Matrix.transpose) Matrix.transpose_zero Matrix.transpose_add _ _ _ _ s fun _ k _ => ?_
  cases b
  · exact (swapped_r2 c (ps k)).1
  · exact (swapped_r2 c (ps k)).2

/-- Products in the opposite order. -/
theorem chain_mirror (c : Ctx K) (ps : Point K n) (b : Bool) (ks : List (Slot n)) :
    chain (swapped c ps) b ks = (chain ps (!typeAfter b ks.length) ks.reverse)ᵀ := by
  induction ks generalizing b with
  | nil => cases b <;> simp [chain]
  | cons s ss ih =>
    have hb : typeAfter (!typeAfter b (ss.length + 1)) ss.length = b := by
      unfold typeAfter
      rcases Nat.mod_two_eq_zero_or_one ss.length with h | h <;> simp [h, Nat.add_mod]
    rw [chain_cons, ih, List.reverse_cons, chain_append, chain_single, Matrix.transpose_mul, slotMat_swapped, typeAfter_succ, List.length_reverse,
      List.length_cons, hb]

theorem readSlots_reverse (ms : List (List Char)) :
    (∃ ks, readSlots n ms = .ok ks ∧ readSlots n ms.reverse = .ok ks.reverse) ∨ ∃ e e', readSlots n ms = .error e ∧ readSlots n ms.reverse = .error e' := by
  unfold readSlots
  induction ms with
  | nil => exact .inl ⟨[], rfl, rfl⟩
  | cons x xs ih =>
    have e1 : [x].mapM (readSlot n) = (do let y ← readSlot n x; pure [y]) := by rw [List.mapM_cons]; rfl
    rw [List.mapM_cons, List.reverse_cons, List.mapM_append, e1]
    rcases ih with ⟨ks, h1, h2⟩ | ⟨e, e', h1, h2⟩
    · rw [h1, h2]
      rcases readSlot n x with e | y
      · exact .inr ⟨_, _, rfl, rfl⟩
      · exact .inl ⟨_, rfl, by rw [List.reverse_cons]; rfl⟩
    · rw [h1, h2]
      rcases readSlot n x with e | y
      · exact .inr ⟨_, _, rfl, rfl⟩
      · exact .inr ⟨_, _, rfl, rfl⟩

section
variable [NeZero (2 : K)] (c : Ctx K) (ps : Point K n) {r l : Fin n → V2 K} (hs : ∀ k, HasSpinors c (ps k) (r k) (l k))
include hs

theorem spinors_mirror (k : Fin n) : (swapped c ps k).r_u = (ps k).l_u ∧ (swapped c ps k).r_d = (ps k).l_d ∧ (swapped c ps k).l_u = (ps k).r_u ∧
    (swapped c ps k).l_d = (ps k).r_d := by
  have h := swapped_hasSpinors (hs k)
  refine ⟨?_, h.r_d.trans (hs k).l_d.symm, ?_, h.l_d.trans (hs k).r_d.symm⟩
  · rw [h.r_u, (hs k).l_u]
  · rw [h.l_u, (hs k).r_u]

theorem front_mirror {o : Char} (ho : o = '⟨' ∨ o = '[') (k : Fin n) :
    ∃ u, (if o = '⟨' then need (swapped c ps k).r_u else need (swapped c ps k).l_d) = .ok u ∧
      (if mirrorChar o = '⟩' then need (ps k).r_d else need (ps k).l_u) = .ok u := by
  obtain ⟨h1, -, -, h4⟩ := spinors_mirror c ps hs k
  rcases ho with rfl | rfl
  · exact ⟨_, by rw [if_pos rfl, h1, (hs k).l_u]; rfl, by rw [if_neg (by decide), (hs k).l_u]; rfl⟩
  · exact ⟨_, by rw [if_neg (by decide), h4, (hs k).r_d]; rfl, by rw [if_pos (by decide), (hs k).r_d]; rfl⟩

theorem back_mirror {e : Char} (he : e = '⟩' ∨ e = ']') (k : Fin n) :
    ∃ u, (if e = '⟩' then need (swapped c ps k).r_d else need (swapped c ps k).l_u) = .ok u ∧
      (if mirrorChar e = '⟨' then need (ps k).r_u else need (ps k).l_d) = .ok u := by
  obtain ⟨-, h2, h3, -⟩ := spinors_mirror c ps hs k
  rcases he with rfl | rfl
  · exact ⟨_, by rw [if_pos rfl, h2, (hs k).l_d]; rfl, by rw [if_neg (by decide), (hs k).l_d]; rfl⟩
  · exact ⟨_, by rw [if_neg (by decide), h3, (hs k).r_u]; rfl, by rw [if_pos (by decide), (hs k).r_u]; rfl⟩

/-- Numbers, up to the kind of an exception. -/
def SameNum {K : Type*} (r r' : Except Err K) : Prop := (∃ e e', r = .error e ∧ r' = .error e') ∨ ∃ x, r = .ok x ∧ r' = .ok x

theorem string_mirror {o e : Char} (ho : o = '⟨' ∨ o = '[') (he : e = '⟩' ∨ e = ']') (a : List Char) (ms : List (List Char)) (d : List Char) :
    SameNum (evalString ps (mirrorChar e) d ms.reverse a (mirrorChar o)) (evalString (swapped c ps) o a ms d e) := by
  have hn : nbSyntaxError ms.reverse.length (mirrorChar e) (mirrorChar o) = nbSyntaxError ms.length o e := by
    rw [List.length_reverse]
    rcases ho with rfl | rfl <;> rcases he with rfl | rfl <;> simp [nbSyntaxError, mirrorChar]
  unfold evalString
  rw [hn]
  by_cases hx : nbSyntaxError ms.length o e = true
  · rw [if_pos hx, if_pos hx]; exact .inl ⟨_, _, rfl, rfl⟩
  rw [if_neg hx, if_neg hx]
  rcases readSlots_reverse (n := n) ms with ⟨ks, h1, h2⟩ | ⟨e1, e2, h1, h2⟩
  · rw [h1, h2]
    have hl := readSlots_length h1
    rcases readLabel n a with e1 | a
    · rcases readLabel n d with e2 | d <;> exact .inl ⟨_, _, rfl, rfl⟩
    · rcases readLabel n d with e2 | d
      · exact .inl ⟨_, _, rfl, rfl⟩
      · obtain ⟨u, u1, u2⟩ := front_mirror c ps hs ho a
        obtain ⟨w, w1, w2⟩ := back_mirror c ps hs he d
        have hx1 : ¬ nbSyntaxError ks.length o e = true := by rw [hl]; exact hx
        have hx2 : ¬ nbSyntaxError ks.reverse.length (mirrorChar e) (mirrorChar o) = true := by
          rw [List.length_reverse, hl, ← List.length_reverse, hn]; exact hx
        refine .inr ⟨dot2 (vecMul u (chain (swapped c ps) (o = '⟨') ks)) w, ?_, ?_⟩
        · simp only [computeNB]
          rw [if_neg hx2, u2, w2, chain_mirror, dot_mirror]
          have ht : (!typeAfter (decide (o = '⟨')) ks.length) = decide (mirrorChar e = '⟨') := by
            rw [hl]
            unfold typeAfter
            rcases Nat.mod_two_eq_zero_or_one ms.length with hm | hm <;> rcases ho with rfl | rfl <;> rcases he with rfl | rfl <;>
              simp [nbSyntaxError, hm, mirrorChar] at hx ⊢
          rw [ht]
        · simp only [computeNB]
          rw [if_neg hx1, u1, w1]
  · rw [h1, h2]
    rcases readLabel n a with e1 | a <;> rcases readLabel n d with e2 | d <;> exact .inl ⟨_, _, rfl, rfl⟩

omit hs [NeZero (2 : K)] in
theorem same_leaf {fuel : ℕ} {f f' : Form} {ps' : Point K n} {q q' : Option (Except Err K)} (h : evalForm ps fuel f' = q'.map asNum)
    (hq : evalForm ps' fuel f = q.map asNum) (hs : (∃ r r', q = some r ∧ q' = some r' ∧ SameNum r' r) ∨ (q = none ∧ q' = none)) :
    TransposedRes (formLeaf ps fuel f') (formLeaf ps' fuel f) := by
  have sh : ∀ (f : Form) (x : K), shaped f (.num x : Val K) = .sc (.fld x) := fun f x => by unfold shaped; cases f <;> rfl
  unfold formLeaf
  rw [h, hq]
  rcases hs with ⟨r, r', rfl, rfl, ⟨e, e', rfl, rfl⟩ | ⟨x, rfl, rfl⟩⟩ | ⟨rfl, rfl⟩
  · trivial
  · show TransposedRes (.ok (shaped f' (.num x))) (.ok (shaped f (.num x)))
    rw [sh, sh]; exact rfl
  · trivial

/-- The value of the mirror image of a name. -/
theorem form_mirror (fuel : ℕ) {f f' : Form} (h : f.mirror = some f') : TransposedRes (formLeaf ps fuel f') (formLeaf (swapped c ps) fuel f) := by
  obtain ⟨hS, hTr, hD, hDS, hO, hP, hD5, -⟩ := C35_swap_invariants c ps fun k => (hs k).cons
  have hsp := spinors_mirror c ps hs
  have refl : ∀ r : Except Err (PVal K), (∀ v, r = .ok v → ∃ x, v = .sc x) → TransposedRes r r := by
    intro r hr
    rcases r with e | v
    · trivial
    · obtain ⟨x, rfl⟩ := hr v rfl; exact rfl
  have one : ∀ f : Form, evalForm (swapped c ps) fuel f = evalForm ps fuel f → (∀ v, evalForm ps fuel f = some (.ok v) → ∃ x, v = .num x) →
      TransposedRes (formLeaf ps fuel f) (formLeaf (swapped c ps) fuel f) := by
    intro f he hv
    have e : formLeaf (swapped c ps) fuel f = formLeaf ps fuel f := by unfold formLeaf; rw [he]
    rw [e]
    refine refl _ fun v h => ?_
    unfold formLeaf at h
    rcases hr : evalForm ps fuel f with _ | e | w <;> rw [hr] at h
    · cases h
    · cases h
    · obtain ⟨x, rfl⟩ := hv w hr
      injection h with h
      refine ⟨.fld x, ?_⟩
      rw [← h]
      unfold shaped
      cases f <;> rfl
  cases f with
  | Au a =>
    cases h
    simp only [formLeaf, evalForm]
    rcases readLabel n a with e | a
    · trivial
    · simp only [(hsp a).1, (hs a).l_u]; exact rfl
  | Su a =>
    cases h
    simp only [formLeaf, evalForm]
    rcases readLabel n a with e | a
    · trivial
    · simp only [(hsp a).2.2.1, (hs a).r_u]; exact rfl
  | Ad a =>
    cases h
    simp only [formLeaf, evalForm]
    rcases readLabel n a with e | a
    · trivial
    · simp only [(hsp a).2.1, (hs a).l_d]; exact rfl
  | Sd a =>
    cases h
    simp only [formLeaf, evalForm]
    rcases readLabel n a with e | a
    · trivial
    · simp only [(hsp a).2.2.2, (hs a).r_d]; exact rfl
  | angle a b =>
    cases h
    simp only [formLeaf, evalForm]
    rcases readLabel n a with e | a <;> rcases readLabel n b with e' | b
    · trivial
    · trivial
    · trivial
    · simp only [angle, square, (hsp a).1, (hsp b).2.1, (hs a).l_u, (hs b).l_d]
      show _ = _
      simp only [shaped, PVal.transposed, dot2]
      ring_nf
  | square a b =>
    cases h
    simp only [formLeaf, evalForm]
    rcases readLabel n a with e | a <;> rcases readLabel n b with e' | b
    · trivial
    · trivial
    · trivial
    · simp only [angle, square, (hsp a).2.2.2, (hsp b).2.2.1, (hs a).r_d, (hs b).r_u]
      show _ = _
      simp only [shaped, PVal.transposed, dot2]
      ring_nf
  | string o a ms d e =>
    simp only [Form.mirror] at h
    split at h
    · rename_i hoe
      cases h
      exact same_leaf ps (q := some _) (q' := some _) rfl rfl (.inl ⟨_, _, rfl, rfl, string_mirror c ps hs hoe.1 hoe.2 a ms d⟩)
    · cases h
  | openEnd o a ms =>
    simp only [Form.mirror] at h
    split at h
    · rename_i ho
      cases h
      simp only [formLeaf, evalForm]
      rcases readSlots_reverse (n := n) ms with ⟨ks, h1, h2⟩ | ⟨e1, e2, h1, h2⟩
      · rw [h1, h2]
        rcases readLabel n a with e1 | a
        · trivial
        · obtain ⟨u, u1, u2⟩ := front_mirror c ps hs ho a
          simp only [computeOpenBegin, computeOpenEnd, u1, u2]
          have ht : decide ((mirrorChar o = '⟩' ∧ ks.reverse.length % 2 = 0) ∨ (mirrorChar o = ']' ∧ ks.reverse.length % 2 = 1)) =
              !typeAfter (decide (o = '⟨')) ks.length := by
            rw [List.length_reverse]
            unfold typeAfter
            rcases Nat.mod_two_eq_zero_or_one ks.length with hm | hm <;> rcases ho with rfl | rfl <;> simp [hm, mirrorChar]
          rw [chain_mirror, ht, Matrix.vecMul_transpose]
          exact rfl
      · rw [h1, h2]
        rcases readLabel n a with e1 | a <;> trivial
    · cases h
  | openBegin ms d e =>
    simp only [Form.mirror] at h
    split at h
    · rename_i ho
      cases h
      simp only [formLeaf, evalForm]
      rcases readSlots_reverse (n := n) ms with ⟨ks, h1, h2⟩ | ⟨e1, e2, h1, h2⟩
      · rw [h1, h2]
        rcases readLabel n d with e1 | d
        · trivial
        · obtain ⟨u, u1, u2⟩ := back_mirror c ps hs ho d
          simp only [computeOpenBegin, computeOpenEnd, u1, u2]
          have ht : (!typeAfter (decide ((e = '⟩' ∧ ks.length % 2 = 0) ∨ (e = ']' ∧ ks.length % 2 = 1))) ks.length) = decide (mirrorChar e = '⟨') := by
            unfold typeAfter
            rcases Nat.mod_two_eq_zero_or_one ks.length with hm | hm <;> rcases ho with rfl | rfl <;> simp [hm, mirrorChar]
          rw [chain_mirror, ht, Matrix.mulVec_transpose]
          exact rfl
      · rw [h1, h2]
        rcases readLabel n d with e1 | d <;> trivial
    · cases h
  | doubleOpen ms =>
    simp only [Form.mirror] at h
    split at h
    · rename_i ho
      cases h
      simp only [formLeaf, evalForm]
      rcases readSlots_reverse (n := n) ms with ⟨ks, h1, h2⟩ | ⟨e1, e2, h1, h2⟩
      · rw [h1, h2]
        have ht : (!typeAfter true ks.length) = true := by
          rw [readSlots_length h1]; simp [typeAfter, ho]
        simp only [computeDoubleOpen, chain_mirror, ht]
        exact rfl
      · rw [h1, h2]; trivial
    · cases h
  | tr es =>
    rcases es with _ | ⟨s, ss⟩
    · cases h
    simp only [Form.mirror] at h
    split at h
    · rename_i ho
      cases h
      refine same_leaf ps (q := some ((readSlots n (s :: ss)).map (computeTr (swapped c ps)))) (q' := some ((readSlots n (ss ++ [s])).map (computeTr ps)))
        ?_ ?_ (.inl ⟨_, _, rfl, rfl, ?_⟩)
      · simp only [evalForm]
        rcases readSlots n (ss ++ [s]) with e | ks <;> rfl
      · simp only [evalForm]
        rcases readSlots n (s :: ss) with e | ks <;> rfl
      · have e1 : [s].mapM (readSlot n) = (do let y ← readSlot n s; pure [y]) := by rw [List.mapM_cons]; rfl
        have hl := fun ks => readSlots_length (n := n) (es := ss) (ks := ks)
        unfold readSlots at hl ⊢
        rw [List.mapM_cons, List.mapM_append, e1]
        rcases hk : ss.mapM (readSlot n) with e | ks <;> rcases readSlot n s with e' | k
        · exact .inl ⟨_, _, rfl, rfl⟩
        · exact .inl ⟨_, _, rfl, rfl⟩
        · exact .inl ⟨_, _, rfl, rfl⟩
        · refine .inr ⟨_, rfl, ?_⟩
          have := hl ks hk
          exact congrArg Except.ok (hTr k ks (by simp only [List.length_cons]; omega))
    · cases h
  | mandelstam ds =>
    cases h
    refine one _ (by simp only [evalForm, hS]) fun v hv => ?_
    simp only [evalForm, Option.some.injEq] at hv
    revert hv
    rcases readDigits n ds with e | ks <;> intro hv
    · cases hv
    · cases hv; exact ⟨_, rfl⟩
  | massOf t =>
    cases h
    refine one _ (by simp only [evalForm, hS]) fun v hv => ?_
    simp only [evalForm, Option.some.injEq] at hv
    revert hv
    rcases readDigits n (t.drop (t.length - 1)) with e | ks <;> intro hv
    · cases hv
    · cases hv; exact ⟨_, rfl⟩
  | delta cs =>
    cases h
    refine one _ ?_ fun v hv => ?_
    · rcases cs with _ | ⟨d, _ | ⟨k, ks⟩⟩
      · rfl
      · simp only [evalForm, hDS]
      · simp only [evalForm, evalDelta]
        rcases (d :: k :: ks).mapM (readDigits n) with e | ⟨_ | ⟨c0, _ | ⟨c1, cs⟩⟩⟩
        · rfl
        · rfl
        · rfl
        · simp only [hD]
    · have num : ∀ (r : Except Err K) v, asNum r = .ok v → ∃ x, v = .num x := fun r v h => asNum_num h
      rcases cs with _ | ⟨d, _ | ⟨k, ks⟩⟩
      · exact num _ v (Option.some.inj hv)
      · simp only [evalForm] at hv
        revert hv
        rcases shortCorners n fuel d with _ | e | ⟨A, B, C⟩ <;> intro hv
        · cases hv
        · cases hv
        · cases hv; exact ⟨_, rfl⟩
      · exact num _ v (Option.some.inj hv)
  | omega ds =>
    cases h
    refine one _ (by simp only [evalForm, hO]) fun v hv => ?_
    simp only [evalForm] at hv
    revert hv
    rcases shortCorners n fuel ds with _ | e | ⟨A, B, C⟩ <;> intro hv
    · cases hv
    · cases hv
    · exact asNum_num (Option.some.inj hv)
  | pi ds =>
    cases h
    refine one _ (by simp only [evalForm, hP]) fun v hv => ?_
    simp only [evalForm] at hv
    revert hv
    rcases shortCorners n fuel ds with _ | e | ⟨A, B, C⟩ <;> intro hv
    · cases hv
    · cases hv
    · exact asNum_num (Option.some.inj hv)
  | d5 =>
    cases h
    refine one _ (by simp only [evalForm, hD5]) fun v hv => ?_
    simp only [evalForm, Option.some.injEq] at hv
    split at hv
    · cases hv; exact ⟨_, rfl⟩
    · cases hv
  | tr5 | internalMass | expression => cases h

/-- A name, and one it is the mirror image of. -/
def MirrorNames (t t' : List Char) : Prop := ∃ u u', rsubsDict t boldDigits = .ok u ∧ rsubsDict t' boldDigits = .ok u' ∧ (classify u).mirror = some (classify u')

/-- `tr5` in one of its forms. -/
def Tr5Name (t : List Char) : Prop := ∃ u m, rsubsDict t boldDigits = .ok u ∧ classify u = .tr5 m

theorem leaves_mirror (fuel : ℕ) : MirrorLeaves MirrorNames Tr5Name (leafArr (swapped c ps) fuel) (leafArr ps fuel) where
  name := by
    rintro t t' ⟨u, u', h1, h2, h3⟩
    unfold leafArr
    rw [h1, h2]
    exact form_mirror c ps hs fuel h3
  noList := by
    intro t vs h
    have sh : ∀ (f : Form) (v : Val K), shaped f v ≠ .list vs := by
      intro f v h
      unfold shaped at h
      split at h <;> cases h
    unfold leafArr at h
    split at h
    · cases h
    · split at h
      · injection h with h; exact sh _ _ h
      · cases h
      · cases h
  odd := by
    rintro t ⟨u, m, h1, h2⟩
    unfold leafArr
    rw [h1]
    simp only [h2, evalForm, evalTr5_flip c ps hs]
    rcases evalTr5 ps m with _ | e | x
    · exact .inl ⟨_, _, rfl, rfl⟩
    · exact .inl ⟨_, _, rfl, rfl⟩
    · exact .inr ⟨.fld x, rfl, rfl⟩

/-- C129: on the point with angle and square brackets exchanged `compute` makes of an expression the transpose of what it makes of the mirror image of
this expression on the point itself; the one raises an exception exactly if the other does. -/
theorem C129_compute (fuel : ℕ) {a a' : Node} (h : Mirror MirrorNames Tr5Name a a') :
    TransposedRes (computeNode ps fuel a') (computeNode (swapped c ps) fuel a) := by
  have key := C129_transposed (leaves_mirror c ps hs fuel) h
  unfold computeNode
  rcases trans_cases key with ⟨e, e', h1, h2⟩ | ⟨x, h1, h2⟩
  · rw [h1, h2]; trivial
  · rw [h1, h2]; exact scalar_trans x

/-- C129: for texts. -/
theorem C129_text (fuel : ℕ) {s s' : List Char} {a a' : Node} (hs1 : nodeOf (parseText s) = some a) (hs2 : nodeOf (parseText s') = some a')
    (h : Mirror MirrorNames Tr5Name a a') :
    ∃ r r', computeArr ps fuel s' = some r' ∧ computeArr (swapped c ps) fuel s = some r ∧ TransposedRes r' r := by
  unfold computeArr
  rw [hs1, hs2]
  exact ⟨_, _, rfl, rfl, C129_compute c ps hs fuel h⟩

/-- C129: in particular arrays are transposed, and numbers are the same. -/
theorem C129_values (fuel : ℕ) {a a' : Node} (h : Mirror MirrorNames Tr5Name a a') :
    (∀ p q (M : Matrix (Fin p) (Fin q) K), computeNode ps fuel a' = .ok (.arr ⟨p, q, M⟩) → computeNode (swapped c ps) fuel a = .ok (.arr ⟨q, p, Mᵀ⟩)) ∧
    (∀ x, computeNode ps fuel a' = .ok (.sc x) → computeNode (swapped c ps) fuel a = .ok (.sc x)) ∧
    ∀ e, computeNode ps fuel a' = .error e → ∃ e', computeNode (swapped c ps) fuel a = .error e' := by
  have key := trans_cases (C129_compute c ps hs fuel h)
  revert key
  generalize computeNode ps fuel a' = r'
  generalize computeNode (swapped c ps) fuel a = r
  rintro (⟨e, e', rfl, rfl⟩ | ⟨x, rfl, rfl⟩)
  · exact ⟨(fun _ _ _ h => by cases h), (fun _ h => by cases h), fun _ _ => ⟨_, rfl⟩⟩
  · exact ⟨(fun _ _ _ h => by cases h; rfl), (fun _ h => by cases h; rfl), fun _ h => by cases h⟩

end

end Lips

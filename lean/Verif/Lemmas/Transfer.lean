import Verif.Spec.FieldChange

/-!
Relations between two fields that respect the operations of `compute`.
-/

namespace Lips

open Matrix

variable {K L : Type*} [Field K] [Field L] {n : ℕ}

/-- A relation between numbers that respects sums, products, signs and halves. -/
structure Transfer (T : K → L → Prop) : Prop where
  one : T 1 1
  add : ∀ {x y x' y'}, T x x' → T y y' → T (x + y) (x' + y')
  mul : ∀ {x y x' y'}, T x x' → T y y' → T (x * y) (x' * y')
  neg : ∀ {x x'}, T x x' → T (-x) (-x')
  half : ∀ {x x'}, T x x' → T (x / 2) (x' / 2)

variable {T : K → L → Prop}

/-- Related particles: the same spinors are present, all components and the entries of the bispinors are related. -/
structure PRel (T : K → L → Prop) (p : Particle K) (q : Particle L) : Prop where
  r_d : SRel T p.r_d q.r_d
  l_d : SRel T p.l_d q.l_d
  r_u : SRel T p.r_u q.r_u
  l_u : SRel T p.l_u q.l_u
  r2 : ∀ i j, T (p.r2 i j) (q.r2 i j)
  r2b : ∀ i j, T (p.r2b i j) (q.r2b i j)

namespace Transfer

theorem zero (h : Transfer T) : T 0 0 := by
  have := h.add h.one (h.neg h.one)
  simpa using this

theorem sub (h : Transfer T) {x y : K} {x' y' : L} (h1 : T x x') (h2 : T y y') : T (x - y) (x' - y') := by
  rw [sub_eq_add_neg, sub_eq_add_neg]
  exact h.add h1 (h.neg h2)

theorem two (h : Transfer T) : T 2 2 := by
  rw [← one_add_one_eq_two, ← one_add_one_eq_two]
  exact h.add h.one h.one

theorem pow (h : Transfer T) {x : K} {x' : L} (h1 : T x x') (k : ℕ) : T (x ^ k) (x' ^ k) := by
  induction k with
  | zero => simpa using h.one
  | succ k ih => rw [pow_succ, pow_succ]; exact h.mul ih h1

theorem sum (h : Transfer T) {m : ℕ} {f : Fin m → K} {g : Fin m → L} (hf : ∀ i, T (f i) (g i)) : T (∑ i, f i) (∑ i, g i) := by
  induction m with
  | zero => simpa using h.zero
  | succ m ih =>
    rw [Fin.sum_univ_succ, Fin.sum_univ_succ]
    exact h.add (hf 0) (ih fun i => hf i.succ)

theorem mmul (h : Transfer T) {A B : M2 K} {A' B' : M2 L} (hA : ∀ i j, T (A i j) (A' i j)) (hB : ∀ i j, T (B i j) (B' i j)) :
    ∀ i j, T ((A * B) i j) ((A' * B') i j) := by
  intro i j
  rw [Matrix.mul_apply, Matrix.mul_apply]
  exact h.sum fun k => h.mul (hA i k) (hB k j)

theorem lsum (h : Transfer T) {α : Type*} {f : α → M2 K} {g : α → M2 L} (l : List α) (hf : ∀ a ∈ l, ∀ i j, T (f a i j) (g a i j)) :
    ∀ i j, T ((l.map f).sum i j) ((l.map g).sum i j) := by
  induction l with
  | nil => intro i j; simpa using h.zero
  | cons a l ih =>
    intro i j
    rw [List.map_cons, List.map_cons, List.sum_cons, List.sum_cons, Matrix.add_apply, Matrix.add_apply]
    exact h.add (hf a (by simp) i j) (ih (fun b hb => hf b (by simp [hb])) i j)

theorem mtrace (h : Transfer T) {A : M2 K} {A' : M2 L} (hA : ∀ i j, T (A i j) (A' i j)) : T (trace A) (trace A') := by
  rw [Matrix.trace_fin_two, Matrix.trace_fin_two]
  exact h.add (hA 0 0) (hA 1 1)

theorem pyDet (h : Transfer T) : ∀ (m : ℕ) {A : Matrix (Fin m) (Fin m) K} {A' : Matrix (Fin m) (Fin m) L}, (∀ i j, T (A i j) (A' i j)) →
    T (Lips.pyDet m A) (Lips.pyDet m A')
  | 0, _, _, _ => h.zero
  | 1, _, _, hA => hA 0 0
  | m + 2, _, _, hA => by
    rw [Lips.pyDet, Lips.pyDet]
    exact h.sum fun col => h.mul (h.mul (h.pow (h.neg h.one) _) (hA 0 col)) (pyDet h (m + 1) fun i j => hA _ _)

theorem vecMul (h : Transfer T) {v : V2 K} {w : V2 L} {A : M2 K} {A' : M2 L} (hv : ∀ i, T (v i) (w i)) (hA : ∀ i j, T (A i j) (A' i j)) (i : Fin 2) :
    T (Matrix.vecMul v A i) (Matrix.vecMul w A' i) := by
  simp only [Matrix.vecMul, dotProduct]
  exact h.sum fun k => h.mul (hv k) (hA k i)

theorem mulVec (h : Transfer T) {v : V2 K} {w : V2 L} {A : M2 K} {A' : M2 L} (hv : ∀ i, T (v i) (w i)) (hA : ∀ i j, T (A i j) (A' i j)) (i : Fin 2) :
    T (A.mulVec v i) (A'.mulVec w i) := by
  simp only [Matrix.mulVec, dotProduct]
  exact h.sum fun k => h.mul (hA i k) (hv k)

theorem dot2 (h : Transfer T) {v u : V2 K} {w z : V2 L} (h1 : ∀ i, T (v i) (w i)) (h2 : ∀ i, T (u i) (z i)) : T (Lips.dot2 v u) (Lips.dot2 w z) :=
  h.add (h.mul (h1 0) (h2 0)) (h.mul (h1 1) (h2 1))

variable {ps : Point K n} {qs : Point L n}

theorem slotMat (h : Transfer T) {f : Particle K → M2 K} {g : Particle L → M2 L} (hf : ∀ k i j, T (f (ps k) i j) (g (qs k) i j)) (s : Slot n) :
    ∀ i j, T (Lips.slotMat f ps s i j) (Lips.slotMat g qs s i j) := by
  refine h.lsum s fun a _ i j => ?_
  split
  · exact hf _ i j
  · exact h.neg (hf _ i j)

theorem chain (h : Transfer T) (hp : ∀ k, PRel T (ps k) (qs k)) : ∀ (mid : List (Slot n)) (b : Bool) (i j : Fin 2),
    T (Lips.chain ps b mid i j) (Lips.chain qs b mid i j)
  | [], b, i, j => by
    rw [Lips.chain, Lips.chain, Matrix.one_apply, Matrix.one_apply]
    split
    · exact h.one
    · exact h.zero
  | s :: ss, true, i, j => h.mmul (h.slotMat (fun k => (hp k).r2b) s) (chain h hp ss false) i j
  | s :: ss, false, i, j => h.mmul (h.slotMat (fun k => (hp k).r2) s) (chain h hp ss true) i j

omit [Field K] [Field L] in
theorem need {s : Option (V2 K)} {t : Option (V2 L)} (h : SRel T s t) : ERel (fun v w => ∀ i, T (v i) (w i)) (Lips.need s) (Lips.need t) := by
  rcases s with _ | s <;> rcases t with _ | t
  · rfl
  · exact h
  · exact h
  · exact h

theorem computeNB (h : Transfer T) (hp : ∀ k, PRel T (ps k) (qs k)) (o : Char) (a : Fin n) (mid : List (Slot n)) (d : Fin n) (e : Char) :
    ERel T (Lips.computeNB ps o a mid d e) (Lips.computeNB qs o a mid d e) := by
  unfold Lips.computeNB
  split
  · rfl
  have h1 : ERel (fun v w => ∀ i, T (v i) (w i)) (if o = '⟨' then Lips.need (ps a).r_u else Lips.need (ps a).l_d)
      (if o = '⟨' then Lips.need (qs a).r_u else Lips.need (qs a).l_d) := by
    split
    · exact need (hp a).r_u
    · exact need (hp a).l_d
  have h2 : ERel (fun v w => ∀ i, T (v i) (w i)) (if e = '⟩' then Lips.need (ps d).r_d else Lips.need (ps d).l_u)
      (if e = '⟩' then Lips.need (qs d).r_d else Lips.need (qs d).l_u) := by
    split
    · exact need (hp d).r_d
    · exact need (hp d).l_u
  revert h1 h2
  generalize (if o = '⟨' then Lips.need (ps a).r_u else Lips.need (ps a).l_d) = x
  generalize (if o = '⟨' then Lips.need (qs a).r_u else Lips.need (qs a).l_d) = x'
  generalize (if e = '⟩' then Lips.need (ps d).r_d else Lips.need (ps d).l_u) = y
  generalize (if e = '⟩' then Lips.need (qs d).r_d else Lips.need (qs d).l_u) = y'
  intro h1 h2
  rcases x with x | x <;> rcases x' with x' | x' <;> rcases y with y | y <;> rcases y' with y' | y' <;>
    first | exact h1.elim | exact h2.elim | exact h1 | exact h2 | exact h.dot2 (h.vecMul h1 (h.chain hp _ _)) h2

theorem openBegin (h : Transfer T) (hp : ∀ k, PRel T (ps k) (qs k)) (mid : List (Slot n)) (d : Fin n) (e : Char) :
    ERel (fun v w => ∀ i, T (v i) (w i)) (computeOpenBegin ps mid d e) (computeOpenBegin qs mid d e) := by
  unfold computeOpenBegin
  have h2 : ERel (fun v w => ∀ i, T (v i) (w i)) (if e = '⟩' then Lips.need (ps d).r_d else Lips.need (ps d).l_u)
      (if e = '⟩' then Lips.need (qs d).r_d else Lips.need (qs d).l_u) := by
    split
    · exact need (hp d).r_d
    · exact need (hp d).l_u
  revert h2
  generalize (if e = '⟩' then Lips.need (ps d).r_d else Lips.need (ps d).l_u) = y
  generalize (if e = '⟩' then Lips.need (qs d).r_d else Lips.need (qs d).l_u) = y'
  intro h2
  rcases y with y | y <;> rcases y' with y' | y'
  · exact h2
  · exact h2.elim
  · exact h2.elim
  · exact h.mulVec h2 (h.chain hp _ _)

theorem openEnd (h : Transfer T) (hp : ∀ k, PRel T (ps k) (qs k)) (o : Char) (a : Fin n) (mid : List (Slot n)) :
    ERel (fun v w => ∀ i, T (v i) (w i)) (computeOpenEnd ps o a mid) (computeOpenEnd qs o a mid) := by
  unfold computeOpenEnd
  have h2 : ERel (fun v w => ∀ i, T (v i) (w i)) (if o = '⟨' then Lips.need (ps a).r_u else Lips.need (ps a).l_d)
      (if o = '⟨' then Lips.need (qs a).r_u else Lips.need (qs a).l_d) := by
    split
    · exact need (hp a).r_u
    · exact need (hp a).l_d
  revert h2
  generalize (if o = '⟨' then Lips.need (ps a).r_u else Lips.need (ps a).l_d) = y
  generalize (if o = '⟨' then Lips.need (qs a).r_u else Lips.need (qs a).l_d) = y'
  intro h2
  rcases y with y | y <;> rcases y' with y' | y'
  · exact h2
  · exact h2.elim
  · exact h2.elim
  · exact h.vecMul h2 (h.chain hp _ _)

theorem sumR2 (h : Transfer T) (hp : ∀ k, PRel T (ps k) (qs k)) (ls : List (Fin n)) :
    (∀ i j, T (Lips.sumR2 ps ls i j) (Lips.sumR2 qs ls i j)) ∧ ∀ i j, T (Lips.sumR2b ps ls i j) (Lips.sumR2b qs ls i j) :=
  ⟨h.lsum ls fun a _ => (hp a).r2, h.lsum ls fun a _ => (hp a).r2b⟩

theorem computeS (h : Transfer T) (hp : ∀ k, PRel T (ps k) (qs k)) (ls : List (Fin n)) : T (Lips.computeS ps ls) (Lips.computeS qs ls) :=
  h.pyDet 2 (h.sumR2 hp ls).1

theorem computeDelta (h : Transfer T) (hp : ∀ k, PRel T (ps k) (qs k)) (m : ℕ) (corner : Fin (m + 2) → List (Fin n)) :
    T (Lips.computeDelta ps m corner) (Lips.computeDelta qs m corner) := by
  refine h.mul (h.pow (h.neg h.one) _) (h.pyDet _ fun i j => ?_)
  exact h.half (h.mtrace (h.mmul (h.sumR2 hp _).1 (h.sumR2 hp _).2))

theorem computeDeltaShort (h : Transfer T) (hp : ∀ k, PRel T (ps k) (qs k)) (a b : List (Fin n)) :
    T (Lips.computeDeltaShort ps a b) (Lips.computeDeltaShort qs a b) :=
  h.sub (h.pow (h.half (h.mtrace (h.mmul (h.sumR2 hp a).1 (h.sumR2 hp b).2))) 2) (h.mul (h.pyDet 2 (h.sumR2 hp a).1) (h.pyDet 2 (h.sumR2 hp b).2))

theorem computeOmega (h : Transfer T) (hp : ∀ k, PRel T (ps k) (qs k)) (a b c : List (Fin n)) :
    ERel T (Lips.computeOmega ps a b c) (Lips.computeOmega qs a b c) := by
  rcases a with _ | ⟨a0, a⟩
  · rfl
  · exact h.sub (h.mul (h.mul h.two (h.computeS hp _)) (h.computeS hp _))
      (h.mul (h.sub (h.add (h.computeS hp _) (h.computeS hp _)) (h.computeS hp _)) (h.computeS hp _))

theorem computePi (h : Transfer T) (hp : ∀ k, PRel T (ps k) (qs k)) (a c : List (Fin n)) : ERel T (Lips.computePi ps a c) (Lips.computePi qs a c) := by
  rcases a with _ | ⟨a0, _ | ⟨a1, a⟩⟩
  · rfl
  · rfl
  · exact h.sub (h.computeS hp _) (h.computeS hp _)

theorem computeD5 (h : Transfer T) (hp : ∀ k, PRel T (ps k) (qs k)) (l1 l2 l3 l4 l5 : Fin n) :
    T (Lips.computeD5 ps l1 l2 l3 l4 l5) (Lips.computeD5 qs l1 l2 l3 l4 l5) := by
  have hs := h.computeS hp
  have h2 := h.two
  have h1 := h.one
  unfold Lips.computeD5
  dsimp only
  repeat' first | exact hs _ | exact h2 | exact h1 | apply h.add | apply h.sub | apply h.mul

theorem evalString (h : Transfer T) (hp : ∀ k, PRel T (ps k) (qs k)) (o : Char) (a : List Char) (mid : List (List Char)) (d : List Char) (e : Char) :
    ERel T (Lips.evalString ps o a mid d e) (Lips.evalString qs o a mid d e) := by
  unfold Lips.evalString
  split
  · rfl
  split
  · exact h.computeNB hp _ _ _ _ _
  · rfl
  · rfl
  · rfl

theorem evalStringText (h : Transfer T) (hp : ∀ k, PRel T (ps k) (qs k)) (t : List Char) :
    ORel (ERel T) (Lips.evalStringText ps t) (Lips.evalStringText qs t) := by
  unfold Lips.evalStringText
  split
  · exact h.evalString hp _ _ _ _ _
  · trivial

theorem evalTr5 (h : Transfer T) (hp : ∀ k, PRel T (ps k) (qs k)) (m : List Char) : ORel (ERel T) (Lips.evalTr5 ps m) (Lips.evalTr5 qs m) := by
  unfold Lips.evalTr5
  split
  · exact rfl
  split
  · exact rfl
  next q a b c d _ =>
  have h1 := h.evalStringText hp (tr5Text '[' a b c d '⟩')
  have h2 := h.evalStringText hp (tr5Text '⟨' a b c d ']')
  revert h1 h2
  generalize Lips.evalStringText ps (tr5Text '[' a b c d '⟩') = x
  generalize Lips.evalStringText qs (tr5Text '[' a b c d '⟩') = x'
  generalize Lips.evalStringText ps (tr5Text '⟨' a b c d ']') = y
  generalize Lips.evalStringText qs (tr5Text '⟨' a b c d ']') = y'
  intro h1 h2
  rcases x with _ | x | x <;> rcases x' with _ | x' | x' <;> rcases y with _ | y | y <;> rcases y' with _ | y' | y' <;>
    first | exact h1.elim | exact h2.elim | exact h1 | exact h2 | exact trivial | exact h.sub h1 h2

omit [Field K] [Field L] in
theorem asNum {x : Except Err K} {y : Except Err L} (h : ERel T x y) : ERel (VRel T) (Lips.asNum x) (Lips.asNum y) := by
  rcases x with x | x <;> rcases y with y | y <;> exact h

/-- Every branch of `compute`, by cases on the form of the text. -/
theorem evalForm (h : Transfer T) (hp : ∀ k, PRel T (ps k) (qs k)) (fuel : ℕ) (f : Form) :
    ORel (ERel (VRel T)) (Lips.evalForm ps fuel f) (Lips.evalForm qs fuel f) := by
  have angle : ∀ a b, ERel T (Lips.angle (ps a) (ps b)) (Lips.angle (qs a) (qs b)) := by
    intro a b
    have h1 := (hp a).r_u
    have h2 := (hp b).r_d
    unfold Lips.angle
    revert h1 h2
    generalize (ps a).r_u = x; generalize (qs a).r_u = x'; generalize (ps b).r_d = y; generalize (qs b).r_d = y'
    intro h1 h2
    rcases x with _ | x <;> rcases x' with _ | x' <;> rcases y with _ | y <;> rcases y' with _ | y' <;>
      first | exact h1.elim | exact h2.elim | exact rfl | exact h.dot2 h1 h2
  have square : ∀ a b, ERel T (Lips.square (ps a) (ps b)) (Lips.square (qs a) (qs b)) := by
    intro a b
    have h1 := (hp a).l_d
    have h2 := (hp b).l_u
    unfold Lips.square
    revert h1 h2
    generalize (ps a).l_d = x; generalize (qs a).l_d = x'; generalize (ps b).l_u = y; generalize (qs b).l_u = y'
    intro h1 h2
    rcases x with _ | x <;> rcases x' with _ | x' <;> rcases y with _ | y <;> rcases y' with _ | y' <;>
      first | exact h1.elim | exact h2.elim | exact rfl | exact h.dot2 h1 h2
  cases f with
  | tr5 m =>
    have h1 := h.evalTr5 hp m
    simp only [Lips.evalForm]
    revert h1
    generalize Lips.evalTr5 ps m = x; generalize Lips.evalTr5 qs m = y
    intro h1
    rcases x with _ | x <;> rcases y with _ | y
    · trivial
    · exact h1
    · exact h1
    · exact asNum h1
  | tr es =>
    simp only [Lips.evalForm]
    rcases readSlots n es with e | ms
    · exact rfl
    · exact h.mtrace (h.chain hp _ _)
  | omega ds =>
    simp only [Lips.evalForm]
    rcases shortCorners n fuel ds with _ | e | ⟨A, B, C⟩
    · trivial
    · exact rfl
    · exact asNum (h.computeOmega hp _ _ _)
  | pi ds =>
    simp only [Lips.evalForm]
    rcases shortCorners n fuel ds with _ | e | ⟨A, B, C⟩
    · trivial
    · exact rfl
    · exact asNum (h.computePi hp _ _)
  | delta cs =>
    have long : ∀ cs, ERel T (evalDelta ps cs) (evalDelta qs cs) := by
      intro cs
      unfold evalDelta
      split
      · exact h.computeDelta hp _ _
      · exact rfl
      · exact rfl
    rcases cs with _ | ⟨ds, _ | ⟨d, cs⟩⟩
    · exact asNum (long [])
    · simp only [Lips.evalForm]
      rcases shortCorners n fuel ds with _ | e | ⟨A, B, C⟩
      · trivial
      · exact rfl
      · exact h.computeDeltaShort hp _ _
    · exact asNum (long (ds :: d :: cs))
  | d5 =>
    simp only [Lips.evalForm]
    split
    · exact h.computeD5 hp _ _ _ _ _
    · exact rfl
  | massOf t =>
    simp only [Lips.evalForm]
    split
    · exact h.computeS hp _
    · exact rfl
  | mandelstam ds =>
    simp only [Lips.evalForm]
    split
    · exact h.computeS hp _
    · exact rfl
  | angle a b =>
    simp only [Lips.evalForm]
    split
    · exact asNum (angle _ _)
    · exact rfl
    · exact rfl
  | square a b =>
    simp only [Lips.evalForm]
    split
    · exact asNum (square _ _)
    · exact rfl
    · exact rfl
  | Au a =>
    simp only [Lips.evalForm]
    split
    · exact (hp _).r_u
    · exact rfl
  | Ad a =>
    simp only [Lips.evalForm]
    split
    · exact (hp _).r_d
    · exact rfl
  | Su a =>
    simp only [Lips.evalForm]
    split
    · exact (hp _).l_u
    · exact rfl
  | Sd a =>
    simp only [Lips.evalForm]
    split
    · exact (hp _).l_d
    · exact rfl
  | string o a ms d c => exact asNum (h.evalString hp _ _ _ _ _)
  | openBegin ms d c =>
    simp only [Lips.evalForm]
    split
    next ms d _ _ =>
      have h1 := h.openBegin hp ms d c
      revert h1
      generalize computeOpenBegin ps ms d c = x; generalize computeOpenBegin qs ms d c = y
      intro h1
      rcases x with x | x <;> rcases y with y | y <;> exact h1
    · exact rfl
    · exact rfl
  | openEnd o a ms =>
    simp only [Lips.evalForm]
    split
    next a ms _ _ =>
      have h1 := h.openEnd hp o a ms
      revert h1
      generalize computeOpenEnd ps o a ms = x; generalize computeOpenEnd qs o a ms = y
      intro h1
      rcases x with x | x <;> rcases y with y | y <;> exact h1
    · exact rfl
    · exact rfl
  | doubleOpen ms =>
    simp only [Lips.evalForm]
    split
    · exact h.chain hp _ _
    · exact rfl
  | internalMass t => exact rfl
  | expression => trivial

end Transfer

end Lips

import Verif.Lemmas.SetLeft
import Verif.Props.SetString

/-! Helper lemmas: an exception of momentum fixing leaves the point as it was before momentum was to be fixed. -/

namespace Lips

open Matrix

set_option linter.unusedSectionVars false
set_option linter.unusedVariables false

variable {K Γ : Type*} [Field K] [NeZero (2 : K)] [LinearOrder Γ] {n : ℕ}

/-- On massless particles `fix_mom_cons` raises before it changes anything. -/
theorem fix1_atomic {c : Ctx K} {ps : Point K n} (h : OnShell c ps) {a b : Fin n} {e : Err} (he : fixAxis1 c ps a b = .error e) :
    fixAxis1Left c ps a b = ps := by
  obtain ⟨r, l, h⟩ := h
  by_cases hd : SpecSquare (l a) (l b) = 0
  · have hs : square (ps a) (ps b) = .ok 0 := by
      simp only [square, (h a).l_d, (h b).l_u, dot2, Matrix.cons_val_zero, Matrix.cons_val_one]
      rw [← hd]; congr 1; unfold SpecSquare; ring
    simp only [fixAxis1Left, hs, (h b).l_d, if_true]
  · have hab : a ≠ b := by rintro rfl; exact hd (specSquare_self _)
    obtain ⟨_, _, e1, -⟩ := fixAxis1_spin h hab hd
    rw [e1] at he; cases he

theorem fix2_atomic {c : Ctx K} {ps : Point K n} (h : OnShell c ps) {a b : Fin n} {e : Err} (he : fixAxis2 c ps a b = .error e) :
    fixAxis2Left c ps a b = ps := by
  obtain ⟨r, l, h⟩ := h
  by_cases hd : SpecAngle (r a) (r b) = 0
  · have hs : angle (ps a) (ps b) = .ok 0 := by
      simp only [angle, (h a).r_u, (h b).r_d, dot2, Matrix.cons_val_zero, Matrix.cons_val_one]
      rw [← hd]; congr 1; unfold SpecAngle; ring
    simp only [fixAxis2Left, hs, (h b).r_d, if_true]
  · have hab : a ≠ b := by rintro rfl; exact hd (specAngle_self _)
    obtain ⟨_, _, e1, -⟩ := fixAxis2_spin h hab hd
    rw [e1] at he; cases he

theorem fixFirstTwo_atomic {c : Ctx K} {ps : Point K n} (h : OnShell c ps) {pl : List (Fin n)} {ax : Bool} {e : Err}
    (he : fixFirstTwo c ps pl ax = .error e) : fixFirstTwoLeft c ps pl ax = ps := by
  rcases pl with _ | ⟨p, _ | ⟨q, pl⟩⟩
  · rfl
  · rfl
  · cases ax
    · exact fix1_atomic h he
    · exact fix2_atomic h he

theorem fixNB_atomic {c : Ctx K} {ps : Point K n} (h : OnShell c ps) {t : Str n} {a : Fin n} {first : Char} {e : Err}
    (he : fixNB c ps t a first = .error e) : fixNBLeft c ps t a first = ps := by
  unfold fixNB at he
  unfold fixNBLeft
  dsimp only at he ⊢
  split at he
  · rename_i hl; rw [if_pos hl]; exact fixFirstTwo_atomic h he
  · rename_i hl; rw [if_neg hl]; exact fixFirstTwo_atomic h he

theorem storeFix_stays {c : Ctx K} {ps : Point K n} (hp : OnShell c ps) {k : Fin n} {o : Out K} (h : Safe c ps k o) {ax : Bool}
    {pl : List (Fin n)} {e : Err} (he : fixIf c true ax pl (store ps k o) = .error e) :
    storeFixLeft c true ax pl ps k o = storeFixLeft c false ax pl ps k o := by
  obtain ⟨h1, h2⟩ := h hp
  rw [store_of_err h1] at he
  simp only [storeFixLeft, h1, if_true, Bool.false_eq_true, if_false]
  exact fixFirstTwo_atomic h2 he

/-! ### The setters -/

theorem stays_A2 {c : Ctx K} {ps : Point K n} (hp : OnShell c ps) {A B : Fin n} {X : K} {er : Err} :
    setA2 c ps A B X true = .error er → leftA2 c ps A B X true = leftA2 c ps A B X false := by
  unfold setA2 leftA2
  rcases need (ps A).r_u with e | u <;> rcases need (ps B).r_d with e' | w <;> dsimp only <;> try exact fun _ => rfl
  rcases pyDiv (X - u 1 * w 1) (u 0) with e | x
  · exact fun _ => rfl
  · exact storeFix_stays hp (safe_rd _ _ _ _)

theorem stays_S2 {c : Ctx K} {ps : Point K n} (hp : OnShell c ps) {A B : Fin n} {X : K} {er : Err} :
    setS2 c ps A B X true = .error er → leftS2 c ps A B X true = leftS2 c ps A B X false := by
  unfold setS2 leftS2
  rcases need (ps A).l_d with e | u <;> rcases need (ps B).l_u with e' | w <;> dsimp only <;> try exact fun _ => rfl
  rcases pyDiv (X - u 1 * w 1) (u 0) with e | x
  · exact fun _ => rfl
  · exact storeFix_stays hp (safe_lu _ _ _ _)

theorem freeLabels_len_congr {xs ys : List (Fin n)} (h : ∀ k, k ∈ xs ↔ k ∈ ys) : freeLabels xs = freeLabels ys := by
  unfold freeLabels
  congr 1
  funext k
  simp [h k]

/-- With two free labels the string is set as it is. -/
theorem stays_NB {c : Ctx K} {ps : Point K n} (hp : OnShell c ps) (fuel : ℕ) (t : Str n) (ht : 2 ≤ (freeLabels t.labels).length) (X : K)
    (mode : ℕ) {er : Err} :
    setNB c fuel ps t X true mode = .error er → leftNB c fuel ps t X true mode = leftNB c fuel ps t X false mode := by
  induction fuel generalizing t with
  | zero => exact fun _ => rfl
  | succ k ih =>
    rw [setNB, leftNB, leftNB]
    have h1 : ¬((freeLabels t.labels).length < 2 ∧ (true : Bool) = true) := by omega
    have h2 : ¬((freeLabels t.labels).length < 2 ∧ (false : Bool) = true) := by simp
    rw [if_neg h1, if_neg h2]
    simp only [Option.getD_none, Option.isSome_none, Bool.false_eq_true, if_false, if_true]
    split
    · split
      · exact ih _ (by rw [freeLabels_len_congr fun k => (reverse_labels t k).symm]; exact ht)
      · have hk := (leaves_head c false ps t X)
        rcases hr : setHead c ps t X with e | ps' <;> rw [hr] at hk
        · exact fun _ => rfl
        · exact fixNB_atomic (hk.ret _ rfl ▸ hk.shell hp)
    · rcases hm : t.uniqueMiddle with _ | ⟨i, j⟩ <;> dsimp only
      · exact fun _ => rfl
      have hk := (leaves_middle c false ps t i j X)
      rcases hr : setMiddle c ps t i j X with e | ps' <;> rw [hr] at hk
      · exact fun _ => rfl
      · exact fixNB_atomic (hk.ret _ rfl ▸ hk.shell hp)

theorem stays_S {c : Ctx K} {ps : Point K n} (hp : OnShell c ps) (ls : List (Fin n)) (hl : 2 ≤ (freeLabels ls).length) (X : K)
    (mode : ℕ) {er : Err} : setS c ps ls X true mode = .error er → leftS c ps ls X true mode = leftS c ps ls X false mode := by
  have hf : ∀ (p q : Char) (i : Fin n) (m : List (Fin n)), i :: m = ls →
      2 ≤ (freeLabels (Str.labels (⟨p, i, [m], i, q⟩ : Str n))).length := by
    rintro p q i m rfl
    rw [freeLabels_len_congr (ys := i :: m) fun k => ?_]
    · exact hl
    · simp only [Str.labels, List.flatten_cons, List.flatten_nil, List.append_nil, List.mem_cons, List.mem_append, List.not_mem_nil, or_false]
      constructor
      · rintro (h | h | h)
        · exact .inl h
        · exact .inr h
        · exact .inl h
      · rintro (h | h)
        · exact .inl h
        · exact .inr (.inl h)
  rcases ls with _ | ⟨i, _ | ⟨j, _ | ⟨k, ls⟩⟩⟩
  · exact fun _ => rfl
  all_goals
    unfold setS leftS
    dsimp only
    first
    | exact fun _ => rfl
    | (split
       · exact fun _ => rfl
       · by_cases h1 : mode = 1
         · simp only [if_pos h1]
           generalize Str.value ps _ = z
           rcases z with e | v
           · exact fun _ => rfl
           · exact stays_NB hp 3 _ (hf _ _ _ _ rfl) _ _
         · simp only [if_neg h1]
           generalize Str.value ps _ = z
           rcases z with e | v
           · exact fun _ => rfl
           · exact stays_NB hp 3 _ (hf _ _ _ _ rfl) _ _)

theorem stays_D {c : Ctx K} {ps : Point K n} (hp : OnShell c ps) {A B C : List (Fin n)} {X : K} {mode : ℕ} {er : Err} :
    setD c ps A B C X true mode = .error er → leftD c ps A B C X true mode = leftD c ps A B C X false mode := by
  unfold setD leftD
  dsimp only
  rcases A[(mode - 1) / 2]? with _ | k <;> dsimp only
  · exact fun _ => rfl
  rcases clusterLeg c ps (A.eraseIdx ((mode - 1) / 2)) with _ | Q1 <;> rcases clusterLeg c ps B with _ | Q2 <;>
    rcases clusterLeg c ps C with _ | Q3 <;> dsimp only <;> try exact fun _ => rfl
  rcases need (ps k).r_u with e | ru <;> rcases need (ps k).l_u with e' | lu <;> dsimp only <;> try exact fun _ => rfl
  generalize c.sqrt _ = sq
  rcases sq with _ | q <;> dsimp only
  · exact fun _ => rfl
  generalize pyDiv (_ : K) _ = dv
  rcases dv with e | x <;> dsimp only
  · exact fun _ => rfl
  have hs : Safe c ps k (if mode % 2 = 1 then setRu c (ps k) ![x, if mode % 2 = 1 then ru 1 else lu 1]
      else setLu c (ps k) ![x, if mode % 2 = 1 then ru 1 else lu 1]) := by
    split
    · exact safe_ru _ _ _ _
    · exact safe_lu _ _ _ _
  have := storeFix_stays (e := er) (ax := false) (pl := C.reverse) hp hs
  generalize (if mode % 2 = 1 then setRu c (ps k) ![x, if mode % 2 = 1 then ru 1 else lu 1]
      else setLu c (ps k) ![x, if mode % 2 = 1 then ru 1 else lu 1]) = o at this ⊢
  unfold fixIf at this
  rcases hs : store ps k o with e | ps' <;> rw [hs] at this <;> exact this

theorem stays_tr5 {c : Ctx K} {ps : Point K n} (hp : OnShell c ps) {w x y z : Slot n} {X : K} {er : Err} :
    setTr5 c ps w x y z X true = .error er → leftTr5 c ps w x y z X true = leftTr5 c ps w x y z X false := by
  unfold setTr5 leftTr5
  generalize tr5Rotate 4 (w, x, y, z) = t
  rcases t with _ | ⟨_ | ⟨⟨_ | _, k⟩, s⟩, b, d, e⟩ <;> dsimp only <;> try exact fun _ => rfl
  rcases computeOpenEnd ps '[' k [b, d, e] with er | x1 <;> rcases computeOpenEnd ps '[' k [e, d, b] with er | y1 <;>
    rcases need (ps k).r_d with er | r <;> dsimp only <;> try exact fun _ => rfl
  generalize pyDiv (_ : K) _ = dv
  rcases dv with er | v <;> dsimp only
  · exact fun _ => rfl
  · exact storeFix_stays hp (safe_rd _ _ _ _)

theorem stays_tr5All {c : Ctx K} : ∀ {n : ℕ} {ps : Point K n} (hp : OnShell c ps) {w x y z : Slot n} {X : K} {er : Err}
    (he : setTr5All c ps w x y z X true = .error er), leftTr5All c ps w x y z X true = leftTr5All c ps w x y z X false
  | n + 6, ps, hp, w, x, y, z, X, er, he => stays_tr5 hp he
  | 0, ps, hp, w, x, y, z, X, er, he => rfl
  | 1, ps, hp, w, x, y, z, X, er, he => rfl
  | 2, ps, hp, w, x, y, z, X, er, he => rfl
  | 3, ps, hp, w, x, y, z, X, er, he => rfl
  | 4, ps, hp, w, x, y, z, X, er, he => rfl
  | 5, ps, hp, w, x, y, z, X, er, he => rfl

theorem stays_5B {c : Ctx K} {ps : Point K n} (hp : OnShell c ps) {a b x y e f : Fin n} {X : K} {er : Err} :
    set5B c ps a b x y e f X true = .error er → left5B c ps a b x y e f X true = left5B c ps a b x y e f X false := by
  unfold set5B left5B
  generalize computeNB ps '⟨' a _ e '⟩' = z1
  generalize computeNB ps '⟨' b _ e '⟩' = z2
  rcases z1 with er | p <;> rcases need (ps a).l_d with er | la <;> rcases z2 with er | q <;>
    rcases need (ps b).l_d with er | lb <;> rcases need (ps e).l_u with er | w <;> dsimp only <;> try exact fun _ => rfl
  generalize pyDiv (_ : K) _ = dv
  rcases dv with er | v <;> dsimp only
  · exact fun _ => rfl
  · exact storeFix_stays hp (safe_lu _ _ _ _)

end Lips

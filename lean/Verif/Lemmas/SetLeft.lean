import Verif.Model.SetLeft
import Verif.Lemmas.SetKeeps

/-! Helper lemmas: what the setters of single invariants leave behind. -/

namespace Lips

open Matrix

set_option linter.unusedSectionVars false
set_option linter.unusedVariables false

variable {K Γ : Type*} [Field K] [NeZero (2 : K)] [LinearOrder Γ] {n : ℕ}

/-- How the outcome `r` of a call on `ps` and the point `l` it leaves behind are related; at most `m` particles
are changed. -/
structure Leaves (c : Ctx K) (m : ℕ) (fix : Bool) (ps : Point K n) (r : Except Err (Point K n)) (l : Point K n) : Prop where
  ret : ∀ qs, r = .ok qs → l = qs
  shell : OnShell c ps → OnShell c l
  same : OnShell c ps → fix = false → ∀ e, r = .error e → l = ps
  frame : ∃ s : List (Fin n), s.length ≤ m ∧ ∀ i, i ∉ s → l i = ps i

theorem leaves_error (c : Ctx K) (m : ℕ) (fix : Bool) (ps : Point K n) (e : Err) : Leaves c m fix ps (.error e) ps :=
  ⟨fun _ h => (nomatch h), id, fun _ _ _ _ => rfl, [], Nat.zero_le _, fun _ _ => rfl⟩

theorem leaves_ok (c : Ctx K) (m : ℕ) (fix : Bool) (ps : Point K n) : Leaves c m fix ps (.ok ps) ps :=
  ⟨fun _ h => by injection h, id, fun _ _ _ h => (nomatch h), [], Nat.zero_le _, fun _ _ => rfl⟩

/-- An assignment that cannot raise on a massless particle. -/
def Safe (c : Ctx K) (ps : Point K n) (k : Fin n) (o : Out K) : Prop :=
  OnShell c ps → o.err = none ∧ OnShell c (storeLeft ps k o)

theorem safe_of {c : Ctx K} {ps : Point K n} {k : Fin n} {o : Out K}
    (h : ∀ r l, Spin c ps r l → ∃ q r' l', o = ⟨q, none⟩ ∧ IsMassless c q r' l') : Safe c ps k o := by
  rintro ⟨r, l, hs⟩
  obtain ⟨q, r', l', rfl, hq⟩ := h r l hs
  refine ⟨rfl, Function.update r k r', Function.update l k l', fun i => ?_⟩
  by_cases hi : i = k
  · subst hi; simpa [storeLeft] using hq
  · simpa [storeLeft, hi] using hs i

theorem safe_rd (c : Ctx K) (ps : Point K n) (k : Fin n) (s : V2 K) : Safe c ps k (setRd c (ps k) s) :=
  safe_of fun r l h => by obtain ⟨q, e, hq⟩ := setRd_massless (h k) s; exact ⟨q, _, _, e, hq⟩

theorem safe_ru (c : Ctx K) (ps : Point K n) (k : Fin n) (s : V2 K) : Safe c ps k (setRu c (ps k) s) :=
  safe_of fun r l h => by obtain ⟨q, e, hq⟩ := setRu_massless (h k) s; exact ⟨q, _, _, e, hq⟩

theorem safe_ld (c : Ctx K) (ps : Point K n) (k : Fin n) (s : V2 K) : Safe c ps k (setLd c (ps k) s) :=
  safe_of fun r l h => by obtain ⟨q, e, hq⟩ := setLd_massless (h k) s; exact ⟨q, _, _, e, hq⟩

theorem safe_lu (c : Ctx K) (ps : Point K n) (k : Fin n) (s : V2 K) : Safe c ps k (setLu c (ps k) s) :=
  safe_of fun r l h => by obtain ⟨q, e, hq⟩ := setLu_massless (h k) s; exact ⟨q, _, _, e, hq⟩

theorem store_of_err {ps : Point K n} {k : Fin n} {o : Out K} (h : o.err = none) : store ps k o = .ok (storeLeft ps k o) := by
  rcases o with ⟨p, e⟩; cases h; rfl

theorem store_of_some {ps : Point K n} {k : Fin n} {o : Out K} {e : Err} (h : o.err = some e) : store ps k o = .error e := by
  rcases o with ⟨p, e'⟩; cases h; rfl

theorem leaves_store {c : Ctx K} {m : ℕ} {fix : Bool} {ps : Point K n} {k : Fin n} {o : Out K} (h : Safe c ps k o) (hm : 1 ≤ m) :
    Leaves c m fix ps (store ps k o) (storeLeft ps k o) := by
  refine ⟨?_, fun hp => (h hp).2, ?_, [k], hm, ?_⟩
  · intro qs e
    rcases ho : o.err with _ | er
    · rw [store_of_err ho] at e; injection e
    · rw [store_of_some ho] at e; cases e
  · intro hp _ e he
    rw [store_of_err (h hp).1] at he; cases he
  · intro i hi
    rw [List.mem_singleton] at hi
    simp [storeLeft, hi]

theorem toExcept_of_err {o : Out K} (h : o.err = none) : o.toExcept = .ok o.st := by
  rcases o with ⟨p, e⟩; cases h; rfl

theorem toExcept_of_some {o : Out K} {e : Err} (h : o.err = some e) : o.toExcept = .error e := by
  rcases o with ⟨p, e'⟩; cases h; rfl

/-- Momentum fixing changes two particles at most. -/
theorem leaves_fix1 (c : Ctx K) (ps : Point K n) (a b : Fin n) : Leaves c 2 true ps (fixAxis1 c ps a b) (fixAxis1Left c ps a b) := by
  unfold fixAxis1 fixAxis1Left
  dsimp only
  rcases hl : (ps b).l_d with _ | lb
  · exact leaves_error _ _ _ _ _
  rcases hd : square (ps a) (ps b) with er | d
  · exact leaves_error _ _ _ _ _
  by_cases h0 : d = 0
  · simp only [bind, Except.bind, if_pos h0, throw, throwThe, MonadExceptOf.throw]
    exact leaves_error _ _ _ _ _
  simp only [bind, Except.bind, if_neg h0, pure, Except.pure]
  have s1 := safe_ru c ps a (fun j => vecMul lb (othersR2 ps a b) j / d)
  generalize setRu c (ps a) (fun j => vecMul lb (othersR2 ps a b) j / d) = o at s1 ⊢
  have fr1 : ∀ i, i ∉ [a, b] → storeLeft ps a o i = ps i := by
    intro i hi
    simp only [List.mem_cons, List.not_mem_nil, or_false, not_or] at hi
    simp [storeLeft, hi.1]
  rcases ho : o.err with _ | er
  · rw [toExcept_of_err ho]
    dsimp only
    have hst : Function.update ps a o.st = storeLeft ps a o := rfl
    rw [hst]
    have s1' : OnShell c ps → OnShell c (storeLeft ps a o) := fun hp => (s1 hp).2
    generalize hps : storeLeft ps a o = ps₁ at s1' fr1 ⊢
    have st' : ∀ er, Leaves c 2 true ps (.error er) ps₁ := fun er =>
      ⟨fun _ h => (nomatch h), s1', fun _ h => (nomatch h), [a, b], le_rfl, fr1⟩
    rcases hl1 : (ps₁ a).l_d with _ | la
    · exact st' _
    rcases hd1 : square (ps₁ a) (ps₁ b) with er | d1
    · exact st' _
    by_cases h1 : d1 = 0
    · simp only [if_pos h1, throw, throwThe, MonadExceptOf.throw]
      exact st' _
    simp only [if_neg h1]
    have s2 := safe_ru c ps₁ b (fun j => -(vecMul la (othersR2 ps a b) j) / d1)
    generalize setRu c (ps₁ b) (fun j => -(vecMul la (othersR2 ps a b) j) / d1) = o2 at s2 ⊢
    refine ⟨?_, fun hp => (s2 (s1' hp)).2, fun _ h => (nomatch h), [a, b], le_rfl, ?_⟩
    · intro qs e
      rcases ho2 : o2.err with _ | er
      · rw [toExcept_of_err ho2] at e; injection e
      · rw [toExcept_of_some ho2] at e; cases e
    · intro i hi
      rw [← fr1 i hi]
      simp only [List.mem_cons, List.not_mem_nil, or_false, not_or] at hi
      simp [storeLeft, hi.2]
  · rw [toExcept_of_some ho]
    exact ⟨fun _ h => (nomatch h), fun hp => (s1 hp).2, fun _ h => (nomatch h), [a, b], le_rfl, fr1⟩

theorem leaves_fix2 (c : Ctx K) (ps : Point K n) (a b : Fin n) : Leaves c 2 true ps (fixAxis2 c ps a b) (fixAxis2Left c ps a b) := by
  unfold fixAxis2 fixAxis2Left
  dsimp only
  rcases hl : (ps b).r_d with _ | lb
  · exact leaves_error _ _ _ _ _
  rcases hd : angle (ps a) (ps b) with er | d
  · exact leaves_error _ _ _ _ _
  by_cases h0 : d = 0
  · simp only [bind, Except.bind, if_pos h0, throw, throwThe, MonadExceptOf.throw]
    exact leaves_error _ _ _ _ _
  simp only [bind, Except.bind, if_neg h0, pure, Except.pure]
  have s1 := safe_lu c ps a (fun j => -((othersR2 ps a b).mulVec lb j) / d)
  generalize setLu c (ps a) (fun j => -((othersR2 ps a b).mulVec lb j) / d) = o at s1 ⊢
  have fr1 : ∀ i, i ∉ [a, b] → storeLeft ps a o i = ps i := by
    intro i hi
    simp only [List.mem_cons, List.not_mem_nil, or_false, not_or] at hi
    simp [storeLeft, hi.1]
  rcases ho : o.err with _ | er
  · rw [toExcept_of_err ho]
    dsimp only
    have hst : Function.update ps a o.st = storeLeft ps a o := rfl
    rw [hst]
    have s1' : OnShell c ps → OnShell c (storeLeft ps a o) := fun hp => (s1 hp).2
    generalize hps : storeLeft ps a o = ps₁ at s1' fr1 ⊢
    have st' : ∀ er, Leaves c 2 true ps (.error er) ps₁ := fun er =>
      ⟨fun _ h => (nomatch h), s1', fun _ h => (nomatch h), [a, b], le_rfl, fr1⟩
    rcases hl1 : (ps₁ a).r_d with _ | la
    · exact st' _
    rcases hd1 : angle (ps₁ a) (ps₁ b) with er | d1
    · exact st' _
    by_cases h1 : d1 = 0
    · simp only [if_pos h1, throw, throwThe, MonadExceptOf.throw]
      exact st' _
    simp only [if_neg h1]
    have s2 := safe_lu c ps₁ b (fun j => (othersR2 ps a b).mulVec la j / d1)
    generalize setLu c (ps₁ b) (fun j => (othersR2 ps a b).mulVec la j / d1) = o2 at s2 ⊢
    refine ⟨?_, fun hp => (s2 (s1' hp)).2, fun _ h => (nomatch h), [a, b], le_rfl, ?_⟩
    · intro qs e
      rcases ho2 : o2.err with _ | er
      · rw [toExcept_of_err ho2] at e; injection e
      · rw [toExcept_of_some ho2] at e; cases e
    · intro i hi
      rw [← fr1 i hi]
      simp only [List.mem_cons, List.not_mem_nil, or_false, not_or] at hi
      simp [storeLeft, hi.2]
  · rw [toExcept_of_some ho]
    exact ⟨fun _ h => (nomatch h), fun hp => (s1 hp).2, fun _ h => (nomatch h), [a, b], le_rfl, fr1⟩

theorem leaves_weaken {c : Ctx K} {m m' : ℕ} {fix fix' : Bool} {ps : Point K n} {r : Except Err (Point K n)} {l : Point K n}
    (h : Leaves c m fix ps r l) (hm : m ≤ m') (hf : fix' = false → fix = false) : Leaves c m' fix' ps r l :=
  ⟨h.ret, h.shell, fun hp e => h.same hp (hf e), by obtain ⟨s, hs, h2⟩ := h.frame; exact ⟨s, hs.trans hm, h2⟩⟩

/-- How many particles a setter changes at most, with and without momentum fixing. -/
def width (fix : Bool) : ℕ := if fix then 3 else 1

theorem one_le_width (fix : Bool) : 1 ≤ width fix := by cases fix <;> decide

theorem width_le (fix : Bool) : width fix ≤ 3 := by cases fix <;> decide

theorem leaves_fixFirstTwo (c : Ctx K) (ps : Point K n) (pl : List (Fin n)) (ax : Bool) :
    Leaves c 2 true ps (fixFirstTwo c ps pl ax) (fixFirstTwoLeft c ps pl ax) := by
  rcases pl with _ | ⟨p, _ | ⟨q, pl⟩⟩
  · exact leaves_error _ _ _ _ _
  · exact leaves_error _ _ _ _ _
  · cases ax
    · exact leaves_fix1 c ps p q
    · exact leaves_fix2 c ps p q

theorem leaves_fixNB (c : Ctx K) (ps : Point K n) (t : Str n) (a : Fin n) (first : Char) :
    Leaves c 2 true ps (fixNB c ps t a first) (fixNBLeft c ps t a first) := by
  unfold fixNB fixNBLeft
  dsimp only
  by_cases h : 2 ≤ (freeLabels t.labels).length
  · rw [if_pos h, if_pos h]; exact leaves_fixFirstTwo c ps _ _
  · rw [if_neg h, if_neg h]; exact leaves_fixFirstTwo c ps _ _

/-- A first step that returned, then another. -/
theorem leaves_then {c : Ctx K} {m m' : ℕ} {fix : Bool} {ps ps' : Point K n} {r r' : Except Err (Point K n)} {l l' : Point K n}
    (h : Leaves c m fix ps r l) (hr : r = .ok ps') (h' : Leaves c m' true ps' r' l') : Leaves c (m + m') true ps r' l' := by
  have hl : l = ps' := h.ret _ hr
  subst hl
  refine ⟨h'.ret, fun hp => h'.shell (h.shell hp), fun _ h => (nomatch h), ?_⟩
  obtain ⟨s, hs, hf⟩ := h.frame
  obtain ⟨s', hs', hf'⟩ := h'.frame
  refine ⟨s ++ s', by rw [List.length_append]; omega, fun i hi => ?_⟩
  rw [List.mem_append, not_or] at hi
  rw [hf' i hi.2, hf i hi.1]

theorem leaves_fixNB_after {c : Ctx K} {ps ps' : Point K n} {fix : Bool} {r : Except Err (Point K n)} {l : Point K n}
    (h : Leaves c 1 fix ps r l) (hr : r = .ok ps') (t : Str n) (a : Fin n) (first : Char) :
    Leaves c (width fix) fix ps (if fix then fixNB c ps' t a first else .ok ps') (if fix then fixNBLeft c ps' t a first else ps') := by
  cases fix
  · have hl : l = ps' := h.ret _ hr
    subst hl; subst hr
    exact leaves_weaken h (one_le_width _) id
  · exact leaves_then h hr (leaves_fixNB c ps' t a first)

/-- An assignment, then momentum fixing if it is asked for. -/
theorem leaves_storeFix {c : Ctx K} {ps : Point K n} {k : Fin n} {o : Out K} (h : Safe c ps k o) (fix ax : Bool) (pl : List (Fin n)) :
    Leaves c (width fix) fix ps (fixIf c fix ax pl (store ps k o)) (storeFixLeft c fix ax pl ps k o) := by
  have hs : Leaves c 1 fix ps (store ps k o) (storeLeft ps k o) := leaves_store h le_rfl
  unfold fixIf storeFixLeft
  rcases ho : o.err with _ | e
  · rw [store_of_err ho] at hs ⊢
    dsimp only
    cases fix
    · exact leaves_weaken hs (one_le_width _) id
    · exact leaves_then hs rfl (leaves_fixFirstTwo c _ pl ax)
  · rw [store_of_some ho] at hs ⊢
    exact leaves_weaken hs (one_le_width _) id

theorem leaves_storeFixTrue {c : Ctx K} {ps : Point K n} {k E F : Fin n} {o : Out K} (h : Safe c ps k o) :
    Leaves c 3 true ps (match store ps k o with | .error e => .error e | .ok ps' => fixAxis1 c ps' E F)
      (storeFixLeft c true false [E, F] ps k o) := by
  have := leaves_storeFix h true false [E, F]
  unfold fixIf at this
  rcases hs : store ps k o with e | ps' <;> rw [hs] at this <;> exact this

/-! ### The setters -/

theorem leaves_A2 (c : Ctx K) (ps : Point K n) (A B : Fin n) (X : K) (fix : Bool) :
    Leaves c (width fix) fix ps (setA2 c ps A B X fix) (leftA2 c ps A B X fix) := by
  unfold setA2 leftA2
  rcases need (ps A).r_u with e | u <;> rcases need (ps B).r_d with e' | w <;> dsimp only <;>
    try exact leaves_error _ _ _ _ _
  rcases pyDiv (X - u 1 * w 1) (u 0) with e | x
  · exact leaves_error _ _ _ _ _
  · exact leaves_storeFix (safe_rd _ _ _ _) _ _ _

theorem leaves_S2 (c : Ctx K) (ps : Point K n) (A B : Fin n) (X : K) (fix : Bool) :
    Leaves c (width fix) fix ps (setS2 c ps A B X fix) (leftS2 c ps A B X fix) := by
  unfold setS2 leftS2
  rcases need (ps A).l_d with e | u <;> rcases need (ps B).l_u with e' | w <;> dsimp only <;>
    try exact leaves_error _ _ _ _ _
  rcases pyDiv (X - u 1 * w 1) (u 0) with e | x
  · exact leaves_error _ _ _ _ _
  · exact leaves_storeFix (safe_lu _ _ _ _) _ _ _

/-- Without momentum fixing one particle is changed at most. -/
theorem leaves_A2_alone (c : Ctx K) (fix : Bool) (ps : Point K n) (A B : Fin n) (X : K) :
    Leaves c 1 fix ps (setA2 c ps A B X false) (leftA2 c ps A B X false) := by
  unfold setA2 leftA2
  rcases need (ps A).r_u with e | u <;> rcases need (ps B).r_d with e' | w <;> dsimp only <;>
    try exact leaves_error _ _ _ _ _
  rcases pyDiv (X - u 1 * w 1) (u 0) with e | x
  · exact leaves_error _ _ _ _ _
  · have h := leaves_store (m := 1) (fix := fix) (safe_rd c ps B ![x, w 1]) le_rfl
    unfold fixIf storeFixLeft
    dsimp only
    rcases ho : (setRd c (ps B) ![x, w 1]).err with _ | e
    · rw [store_of_err ho] at h ⊢; exact h
    · rw [store_of_some ho] at h ⊢; exact h

theorem leaves_S2_alone (c : Ctx K) (fix : Bool) (ps : Point K n) (A B : Fin n) (X : K) :
    Leaves c 1 fix ps (setS2 c ps A B X false) (leftS2 c ps A B X false) := by
  unfold setS2 leftS2
  rcases need (ps A).l_d with e | u <;> rcases need (ps B).l_u with e' | w <;> dsimp only <;>
    try exact leaves_error _ _ _ _ _
  rcases pyDiv (X - u 1 * w 1) (u 0) with e | x
  · exact leaves_error _ _ _ _ _
  · have h := leaves_store (m := 1) (fix := fix) (safe_lu c ps B ![x, w 1]) le_rfl
    unfold fixIf storeFixLeft
    dsimp only
    rcases ho : (setLu c (ps B) ![x, w 1]).err with _ | e
    · rw [store_of_err ho] at h ⊢; exact h
    · rw [store_of_some ho] at h ⊢; exact h

theorem leaves_head (c : Ctx K) (fix : Bool) (ps : Point K n) (t : Str n) (X : K) :
    Leaves c 1 fix ps (setHead c ps t X) (leftHead c ps t X) := by
  unfold setHead leftHead
  dsimp only
  split
  · exact leaves_error _ _ _ _ _
  split
  · split
    · rcases need (ps t.s).r_d with e | r <;> dsimp only
      · exact leaves_error _ _ _ _ _
      generalize c.sqrt _ = sq
      rcases sq with _ | q <;> dsimp only
      · exact leaves_error _ _ _ _ _
      generalize pyDiv (_ : K) _ = dv
      rcases dv with e | A
      · exact leaves_error _ _ _ _ _
      · exact leaves_store (safe_rd _ _ _ _) le_rfl
    · rcases need (ps t.s).l_d with e | r <;> dsimp only
      · exact leaves_error _ _ _ _ _
      generalize c.sqrt _ = sq
      rcases sq with _ | q <;> dsimp only
      · exact leaves_error _ _ _ _ _
      generalize pyDiv (_ : K) _ = dv
      rcases dv with e | A
      · exact leaves_error _ _ _ _ _
      · exact leaves_store (safe_ld _ _ _ _) le_rfl
  · generalize (if t.last = '⟩' then need (ps t.e).r_d else need (ps t.e).l_u) = w
    rcases w with e | w <;> dsimp only
    · exact leaves_error _ _ _ _ _
    split
    · rcases need (ps t.s).r_u with e | u <;> dsimp only
      · exact leaves_error _ _ _ _ _
      generalize pyDiv (_ : K) _ = dv
      rcases dv with e | A
      · exact leaves_error _ _ _ _ _
      · exact leaves_store (safe_ru _ _ _ _) le_rfl
    · rcases need (ps t.s).l_d with e | u <;> dsimp only
      · exact leaves_error _ _ _ _ _
      generalize pyDiv (_ : K) _ = dv
      rcases dv with e | A
      · exact leaves_error _ _ _ _ _
      · exact leaves_store (safe_ld _ _ _ _) le_rfl

theorem leaves_middle (c : Ctx K) (fix : Bool) (ps : Point K n) (t : Str n) (i j : ℕ) (X : K) :
    Leaves c 1 fix ps (setMiddle c ps t i j X) (leftMiddle c ps t i j X) := by
  unfold setMiddle leftMiddle
  dsimp only
  generalize t.toFirst i j = u
  rcases u with ⟨p, s, ms, e, q⟩
  rcases ms with _ | ⟨_ | ⟨b, m⟩, rest⟩ <;> dsimp only
  · exact leaves_error _ _ _ _ _
  · exact leaves_error _ _ _ _ _
  generalize Str.value ps _ = x
  generalize Str.value ps _ = y
  generalize endOfPart ps _ _ _ _ _ = z
  rcases x with e1 | x <;> rcases y with e2 | y <;> rcases z with e3 | z <;> dsimp only <;> try exact leaves_error _ _ _ _ _
  generalize pyDiv (_ : K) _ = dv
  rcases dv with e | A <;> dsimp only
  · exact leaves_error _ _ _ _ _
  split
  · exact leaves_A2_alone c fix ps _ _ _
  · split
    · exact leaves_S2_alone c fix ps _ _ _
    · exact leaves_error _ _ _ _ _

theorem leaves_NB (c : Ctx K) (fuel : ℕ) (ps : Point K n) (t : Str n) (X : K) (fix : Bool) (mode : ℕ) :
    Leaves c (width fix) fix ps (setNB c fuel ps t X fix mode) (leftNB c fuel ps t X fix mode) := by
  induction fuel generalizing t X with
  | zero => exact leaves_error _ _ _ _ _
  | succ k ih =>
    rw [setNB, leftNB]
    generalize (if (freeLabels t.labels).length < 2 ∧ fix = true then t.findFlip else none) = flipped
    generalize flipped.getD t = u
    generalize (if flipped.isSome = true then -X else X) = Y
    split
    · split
      · exact ih _ _
      · have h := leaves_head c fix ps u Y
        rcases hr : setHead c ps u Y with e | ps' <;> dsimp only
        · exact leaves_weaken (hr ▸ h) (one_le_width _) id
        · exact leaves_fixNB_after h hr _ _ _
    · rcases u.uniqueMiddle with _ | ⟨i, j⟩ <;> dsimp only
      · exact leaves_error _ _ _ _ _
      · have h := leaves_middle c fix ps u i j Y
        rcases hr : setMiddle c ps u i j Y with e | ps' <;> dsimp only
        · exact leaves_weaken (hr ▸ h) (one_le_width _) id
        · exact leaves_fixNB_after h hr _ _ _

theorem leaves_S (c : Ctx K) (ps : Point K n) (ls : List (Fin n)) (X : K) (fix : Bool) (mode : ℕ) :
    Leaves c (width fix) fix ps (setS c ps ls X fix mode) (leftS c ps ls X fix mode) := by
  rcases ls with _ | ⟨i, _ | ⟨j, _ | ⟨k, ls⟩⟩⟩
  · exact leaves_error _ _ _ _ _
  all_goals
    unfold setS leftS
    dsimp only
    first
    | exact leaves_ok _ _ _ _
    | (split
       · exact leaves_error _ _ _ _ _
       · generalize (if mode = 1 then _ else _ : Str n) = t
         rcases t.value ps with e | v <;> dsimp only
         · exact leaves_error _ _ _ _ _
         · exact leaves_NB c 3 ps _ _ _ _)

theorem leaves_D (c : Ctx K) (ps : Point K n) (A B C : List (Fin n)) (X : K) (fix : Bool) (mode : ℕ) :
    Leaves c (width fix) fix ps (setD c ps A B C X fix mode) (leftD c ps A B C X fix mode) := by
  unfold setD leftD
  dsimp only
  rcases A[(mode - 1) / 2]? with _ | k <;> dsimp only
  · exact leaves_error _ _ _ _ _
  rcases clusterLeg c ps (A.eraseIdx ((mode - 1) / 2)) with _ | Q1 <;> rcases clusterLeg c ps B with _ | Q2 <;>
    rcases clusterLeg c ps C with _ | Q3 <;> dsimp only <;> try exact leaves_error _ _ _ _ _
  rcases need (ps k).r_u with e | ru <;> rcases need (ps k).l_u with e' | lu <;> dsimp only <;>
    try exact leaves_error _ _ _ _ _
  generalize c.sqrt _ = sq
  rcases sq with _ | q <;> dsimp only
  · exact leaves_error _ _ _ _ _
  generalize pyDiv (_ : K) _ = dv
  rcases dv with e | x <;> dsimp only
  · exact leaves_error _ _ _ _ _
  have hs : Safe c ps k (if mode % 2 = 1 then setRu c (ps k) ![x, if mode % 2 = 1 then ru 1 else lu 1]
      else setLu c (ps k) ![x, if mode % 2 = 1 then ru 1 else lu 1]) := by
    split
    · exact safe_ru _ _ _ _
    · exact safe_lu _ _ _ _
  have := leaves_storeFix hs fix false C.reverse
  generalize (if mode % 2 = 1 then setRu c (ps k) ![x, if mode % 2 = 1 then ru 1 else lu 1]
      else setLu c (ps k) ![x, if mode % 2 = 1 then ru 1 else lu 1]) = o at this ⊢
  unfold fixIf at this
  rcases hs : store ps k o with e | ps' <;> rw [hs] at this <;> exact this

theorem leaves_O (c : Ctx K) (ps : Point K n) (A B C : List (Fin n)) (X : K) :
    Leaves c 3 true ps (setO c ps A B C X) (leftO c ps A B C X) := by
  rcases C with _ | ⟨a, _ | ⟨b, C⟩⟩ <;> rcases A with _ | ⟨a', _ | ⟨b', A⟩⟩ <;> rcases B with _ | ⟨a'', _ | ⟨b'', B⟩⟩ <;>
    unfold setO leftO <;> dsimp only <;> try exact leaves_error _ _ _ _ _
  rcases spinorsOf ps a with e | ⟨r1, l1⟩ <;> rcases spinorsOf ps b with e | ⟨r2, l2⟩ <;>
    rcases spinorsOf ps a' with e | ⟨r3, l3⟩ <;> rcases spinorsOf ps b' with e | ⟨r4, l4⟩ <;> dsimp only <;>
    try exact leaves_error _ _ _ _ _
  generalize c.sqrt _ = sq
  rcases sq with _ | q <;> dsimp only
  · exact leaves_error _ _ _ _ _
  generalize pyDiv (_ : K) _ = dv
  rcases dv with e | x <;> dsimp only
  · exact leaves_error _ _ _ _ _
  · exact leaves_storeFixTrue (safe_rd _ _ _ _)

theorem leaves_P (c : Ctx K) (ps : Point K n) (A B C : List (Fin n)) (X : K) :
    Leaves c 3 true ps (setP c ps A B C X) (leftP c ps A B C X) := by
  rcases C with _ | ⟨a, _ | ⟨b, C⟩⟩ <;> rcases A with _ | ⟨a', _ | ⟨b', A⟩⟩ <;> rcases B with _ | ⟨a'', _ | ⟨b'', B⟩⟩ <;>
    unfold setP leftP <;> dsimp only <;> try exact leaves_error _ _ _ _ _
  rcases spinorsOf ps a with e | ⟨r1, l1⟩ <;> rcases spinorsOf ps b with e | ⟨r2, l2⟩ <;>
    rcases spinorsOf ps a' with e | ⟨r3, l3⟩ <;> rcases spinorsOf ps b' with e | ⟨r4, l4⟩ <;> dsimp only <;>
    try exact leaves_error _ _ _ _ _
  generalize pyDiv (_ : K) _ = dv
  rcases dv with e | x <;> dsimp only
  · exact leaves_error _ _ _ _ _
  · exact leaves_storeFixTrue (safe_rd _ _ _ _)

theorem leaves_tr5 (c : Ctx K) (ps : Point K n) (w x y z : Slot n) (X : K) (fix : Bool) :
    Leaves c (width fix) fix ps (setTr5 c ps w x y z X fix) (leftTr5 c ps w x y z X fix) := by
  unfold setTr5 leftTr5
  generalize tr5Rotate 4 (w, x, y, z) = t
  rcases t with _ | ⟨_ | ⟨⟨_ | _, k⟩, s⟩, b, d, e⟩ <;> dsimp only <;> try exact leaves_error _ _ _ _ _
  rcases computeOpenEnd ps '[' k [b, d, e] with er | x1 <;> rcases computeOpenEnd ps '[' k [e, d, b] with er | y1 <;>
    rcases need (ps k).r_d with er | r <;> dsimp only <;> try exact leaves_error _ _ _ _ _
  generalize pyDiv (_ : K) _ = dv
  rcases dv with er | v <;> dsimp only
  · exact leaves_error _ _ _ _ _
  · exact leaves_storeFix (safe_rd _ _ _ _) _ _ _

theorem leaves_5B (c : Ctx K) (ps : Point K n) (a b x y e f : Fin n) (X : K) (fix : Bool) :
    Leaves c (width fix) fix ps (set5B c ps a b x y e f X fix) (left5B c ps a b x y e f X fix) := by
  unfold set5B left5B
  generalize computeNB ps '⟨' a _ e '⟩' = z1
  generalize computeNB ps '⟨' b _ e '⟩' = z2
  rcases z1 with er | p <;> rcases need (ps a).l_d with er | la <;> rcases z2 with er | q <;>
    rcases need (ps b).l_d with er | lb <;> rcases need (ps e).l_u with er | w <;> dsimp only <;>
    try exact leaves_error _ _ _ _ _
  generalize pyDiv (_ : K) _ = dv
  rcases dv with er | v <;> dsimp only
  · exact leaves_error _ _ _ _ _
  · exact leaves_storeFix (safe_lu _ _ _ _) _ _ _

theorem leaves_storeBoth (c : Ctx K) (fix : Bool) (ps : Point K n) (k : Fin n) (r l : V2 K) :
    Leaves c 2 fix ps (storeBoth c ps k r l) (storeBothLeft c ps k r l) ∧
      (OnShell c ps → ∃ qs, storeBoth c ps k r l = .ok qs) := by
  unfold storeBoth storeBothLeft
  dsimp only
  have s1 := safe_rd c ps k r
  have h1 := leaves_store (m := 1) (fix := fix) s1 le_rfl
  generalize setRd c (ps k) r = o at s1 h1 ⊢
  rcases ho : o.err with _ | e
  · rw [store_of_err ho]
    dsimp only
    have s2 := safe_ld c (storeLeft ps k o) k l
    have h2 := leaves_store (m := 1) (fix := fix) s2 le_rfl
    generalize setLd c (storeLeft ps k o k) l = o2 at s2 h2 ⊢
    refine ⟨⟨h2.ret, fun hp => h2.shell (s1 hp).2, fun hp _ e he => ?_, ?_⟩, fun hp => ⟨_, store_of_err (s2 (s1 hp).2).1⟩⟩
    · rw [store_of_err (s2 (s1 hp).2).1] at he; cases he
    · obtain ⟨s, hs, hf⟩ := h1.frame
      obtain ⟨s', hs', hf'⟩ := h2.frame
      refine ⟨s ++ s', by rw [List.length_append]; omega, fun i hi => ?_⟩
      rw [List.mem_append, not_or] at hi
      rw [hf' i hi.2, hf i hi.1]
  · rw [store_of_some ho] at h1 ⊢
    refine ⟨leaves_weaken h1 (by omega) id, fun hp => ?_⟩
    rw [(s1 hp).1] at ho; cases ho

theorem leaves_tr5Five (c : Ctx K) (fix : Bool) (ps : Point K 5) (X : K) :
    Leaves c 5 fix ps (setTr5Five c ps X) (leftTr5Five c ps X) := by
  have fr : ∀ l : Point K 5, ∃ s : List (Fin 5), s.length ≤ 5 ∧ ∀ i, i ∉ s → l i = ps i := fun l =>
    ⟨List.finRange 5, by simp, fun i hi => absurd (List.mem_finRange i) hi⟩
  unfold setTr5Five leftTr5Five
  rcases fiveSpinors ps with e | ⟨r, l⟩ <;> dsimp only
  · exact leaves_error _ _ _ _ _
  rcases tr5Solve r l X with e | ⟨r1, r5, l5⟩ <;> dsimp only
  · exact leaves_error _ _ _ _ _
  obtain ⟨h0, g0⟩ := leaves_storeBoth c fix ps 0 r1 (l 0)
  rcases e0 : storeBoth c ps 0 r1 (l 0) with e | p0 <;> rw [e0] at h0 g0 <;> dsimp only
  · exact ⟨h0.ret, h0.shell, h0.same, fr _⟩
  have k0 : OnShell c ps → OnShell c p0 := fun hp => h0.ret _ rfl ▸ h0.shell hp
  obtain ⟨h1, g1⟩ := leaves_storeBoth c fix p0 1 (r 1) (l 1)
  rcases e1 : storeBoth c p0 1 (r 1) (l 1) with e | p1 <;> rw [e1] at h1 g1 <;> dsimp only
  · exact ⟨h1.ret, fun hp => h1.shell (k0 hp), fun hp => (by obtain ⟨_, h⟩ := g1 (k0 hp); cases h), fr _⟩
  have k1 : OnShell c ps → OnShell c p1 := fun hp => h1.ret _ rfl ▸ h1.shell (k0 hp)
  obtain ⟨h2, g2⟩ := leaves_storeBoth c fix p1 2 (r 2) (l 2)
  rcases e2 : storeBoth c p1 2 (r 2) (l 2) with e | p2 <;> rw [e2] at h2 g2 <;> dsimp only
  · exact ⟨h2.ret, fun hp => h2.shell (k1 hp), fun hp => (by obtain ⟨_, h⟩ := g2 (k1 hp); cases h), fr _⟩
  have k2 : OnShell c ps → OnShell c p2 := fun hp => h2.ret _ rfl ▸ h2.shell (k1 hp)
  obtain ⟨h3, g3⟩ := leaves_storeBoth c fix p2 3 (r 3) (l 3)
  rcases e3 : storeBoth c p2 3 (r 3) (l 3) with e | p3 <;> rw [e3] at h3 g3 <;> dsimp only
  · exact ⟨h3.ret, fun hp => h3.shell (k2 hp), fun hp => (by obtain ⟨_, h⟩ := g3 (k2 hp); cases h), fr _⟩
  have k3 : OnShell c ps → OnShell c p3 := fun hp => h3.ret _ rfl ▸ h3.shell (k2 hp)
  obtain ⟨h4, g4⟩ := leaves_storeBoth c fix p3 4 r5 l5
  refine ⟨h4.ret, fun hp => h4.shell (k3 hp), fun hp _ e he => ?_, fr _⟩
  obtain ⟨_, h⟩ := g4 (k3 hp)
  rw [h] at he; cases he

theorem leaves_tr5All (c : Ctx K) : ∀ {n : ℕ} (ps : Point K n) (w x y z : Slot n) (X : K) (fix : Bool),
    Leaves c (if n = 5 then 5 else width fix) fix ps (setTr5All c ps w x y z X fix) (leftTr5All c ps w x y z X fix)
  | 5, ps, w, x, y, z, X, fix => by
    rw [setTr5All, leftTr5All]
    rcases tr5Rotate 4 (w, x, y, z) with _ | u
    · exact leaves_error _ _ _ _ _
    · exact leaves_weaken (leaves_tr5Five c fix ps X) (by simp) id
  | n + 6, ps, w, x, y, z, X, fix => leaves_weaken (leaves_tr5 c ps w x y z X fix) (by rw [if_neg (by omega)]) id
  | 0, ps, w, x, y, z, X, fix => by
    rw [setTr5All, leftTr5All]
    · rcases tr5Rotate 4 (w, x, y, z) with _ | u
      · exact leaves_error _ _ _ _ _
      · exact leaves_error _ _ _ _ _
    all_goals simp
  | 1, ps, w, x, y, z, X, fix => by
    rw [setTr5All, leftTr5All]
    · rcases tr5Rotate 4 (w, x, y, z) with _ | u
      · exact leaves_error _ _ _ _ _
      · exact leaves_error _ _ _ _ _
    all_goals simp
  | 2, ps, w, x, y, z, X, fix => by
    rw [setTr5All, leftTr5All]
    · rcases tr5Rotate 4 (w, x, y, z) with _ | u
      · exact leaves_error _ _ _ _ _
      · exact leaves_error _ _ _ _ _
    all_goals simp
  | 3, ps, w, x, y, z, X, fix => by
    rw [setTr5All, leftTr5All]
    · rcases tr5Rotate 4 (w, x, y, z) with _ | u
      · exact leaves_error _ _ _ _ _
      · exact leaves_error _ _ _ _ _
    all_goals simp
  | 4, ps, w, x, y, z, X, fix => by
    rw [setTr5All, leftTr5All]
    · rcases tr5Rotate 4 (w, x, y, z) with _ | u
      · exact leaves_error _ _ _ _ _
      · exact leaves_error _ _ _ _ _
    all_goals simp

/-! ### Texts -/

/-- The same for texts, with or without meaning in the model. -/
inductive LeavesText (c : Ctx K) (m : ℕ) (fix : Bool) (ps : Point K n) : Option (Except Err (Point K n)) → Option (Point K n) → Prop
  | none : LeavesText c m fix ps none none
  | some {r : Except Err (Point K n)} {l : Point K n} (h : Leaves c m fix ps r l) : LeavesText c m fix ps (some r) (some l)

theorem leaves_NBText (c : Ctx K) (ps : Point K n) (t : List Char) (p q : Char) (X : K) (fix : Bool) (mode : ℕ) :
    LeavesText c (width fix) fix ps (setNBText c ps t p q X fix mode) (leftNBText c ps t p q X fix mode) := by
  unfold setNBText leftNBText
  rcases getLNB t with e | ⟨s, ms, e⟩ <;> dsimp only
  · exact .some (leaves_error _ _ _ _ _)
  split
  · exact .none
  generalize (List.mapM (fun m => List.mapM (label n) m) ms) = ms
  rcases label n s with er | s <;> rcases ms with er | ms <;> rcases label n e with er | e <;>
    try exact .none
  simp only []
  split
  · exact .some (leaves_NB _ _ _ _ _ _ _)
  · exact .none

theorem leaves_SText (c : Ctx K) (ps : Point K n) (ds : List Char) (X : K) (fix : Bool) (mode : ℕ) :
    LeavesText c (width fix) fix ps (setSText c ps ds X fix mode) (leftSText c ps ds X fix mode) := by
  unfold setSText leftSText
  split
  · exact .some (leaves_ok _ _ _ _)
  rcases readDigits n ds with e | ls <;> dsimp only
  · exact .some (leaves_error _ _ _ _ _)
  split
  · exact .none
  · exact .some (leaves_S _ _ _ _ _ _)

theorem leaves_DText (c : Ctx K) (ps : Point K n) (fuel : ℕ) (cs : List (List Char)) (X : K) (fix : Bool) (mode : ℕ) :
    LeavesText c (width fix) fix ps (setDText c ps fuel cs X fix mode) (leftDText c ps fuel cs X fix mode) := by
  unfold setDText leftDText
  split
  · exact .none
  rcases cs with _ | ⟨a, _ | ⟨b, _ | ⟨d, _ | ⟨f, cs⟩⟩⟩⟩ <;> dsimp only <;> try exact .none
  · rcases shortCorners n fuel a with _ | (e | ⟨A, B, C⟩) <;> dsimp only
    · exact .none
    · exact .some (leaves_error _ _ _ _ _)
    · exact .some (leaves_D _ _ _ _ _ _ _ _)
  · rcases readDigits n a with e | A <;> rcases readDigits n b with e | B <;> rcases readDigits n d with e | C <;> dsimp only <;>
      first
      | exact .some (leaves_error _ _ _ _ _)
      | exact .some (leaves_D _ _ _ _ _ _ _ _)

theorem leaves_tr5Text (c : Ctx K) (ps : Point K n) (m : List Char) (X : K) (fix : Bool) :
    LeavesText c (if n = 5 then 5 else width fix) fix ps (setTr5Text c ps m X fix) (leftTr5Text c ps m X fix) := by
  unfold setTr5Text leftTr5Text
  rcases unpack4 m with e | ⟨w, x, y, z⟩ <;> dsimp only
  · exact .some (leaves_error _ _ _ _ _)
  rcases readSlot n w with e | w <;> rcases readSlot n x with e | x <;> rcases readSlot n y with e | y <;>
    rcases readSlot n z with e | z <;> dsimp only <;> try exact .none
  exact .some (leaves_tr5All _ _ _ _ _ _ _ _)

theorem leaves_5BText (c : Ctx K) (ps : Point K n) (a b cd e f : List Char) (X : K) (fix : Bool) :
    LeavesText c (width fix) fix ps (set5BText c ps a b cd e f X fix) (left5BText c ps a b cd e f X fix) := by
  unfold set5BText left5BText
  rcases (cd.splitOn '+').mapM pyInt with er | (_ | ⟨x, _ | ⟨y, _ | ⟨z, l⟩⟩⟩) <;> dsimp only <;>
    try exact .some (leaves_error _ _ _ _ _)
  rcases readLabel n a with er | a <;> rcases readLabel n b with er | b <;> rcases label n x with er | x <;>
    rcases label n y with er | y <;> rcases readLabel n e with er | e <;> rcases readLabel n f with er | f <;> dsimp only <;>
    try exact .some (leaves_error _ _ _ _ _)
  exact .some (leaves_5B _ _ _ _ _ _ _ _ _ _)

/-- Texts for which momentum is fixed whatever `fix_mom` is. -/
def alwaysFixes : SetForm → Bool
  | .omega _ => true
  | .pi _ => true
  | _ => false

/-- How many particles a text may change: one, or three with momentum fixing, and all in the five-point branch of tr5. -/
def reach (n : ℕ) (fix : Bool) : SetForm → ℕ
  | .tr5 _ => if n = 5 then 5 else width fix
  | .omega _ => 3
  | .pi _ => 3
  | _ => width fix

theorem leaves_form (c : Ctx K) (ps : Point K n) (fuel : ℕ) (t : List Char) (X : K) (fix : Bool) (mode : ℕ) (f : SetForm) :
    LeavesText c (reach n fix f) (fix || alwaysFixes f) ps (setForm c ps fuel t X fix mode f) (leftForm c ps fuel t X fix mode f) := by
  rcases f with ⟨a, b⟩ | ⟨a, b⟩ | ⟨o, a, m, d, z⟩ | ds | cs | ds | ds | m | ⟨a, b, cd, e, f⟩ | _ <;>
    simp only [setForm, leftForm, reach, alwaysFixes, Bool.or_false, Bool.or_true]
  · refine .some ?_
    rcases readLabel n a with er | a <;> rcases readLabel n b with er | b <;> dsimp only <;>
      first
      | exact leaves_error _ _ _ _ _
      | exact leaves_A2 _ _ _ _ _ _
  · refine .some ?_
    rcases readLabel n a with er | a <;> rcases readLabel n b with er | b <;> dsimp only <;>
      first
      | exact leaves_error _ _ _ _ _
      | exact leaves_S2 _ _ _ _ _ _
  · exact leaves_NBText _ _ _ _ _ _ _ _
  · exact leaves_SText _ _ _ _ _ _
  · exact leaves_DText _ _ _ _ _ _ _
  · rcases shortCorners n fuel ds with _ | (e | ⟨A, B, C⟩)
    · exact .none
    · exact .some (leaves_error _ _ _ _ _)
    · exact .some (leaves_O _ _ _ _ _ _)
  · rcases shortCorners n fuel ds with _ | (e | ⟨A, B, C⟩)
    · exact .none
    · exact .some (leaves_error _ _ _ _ _)
    · exact .some (leaves_P _ _ _ _ _ _)
  · exact leaves_tr5Text _ _ _ _ _
  · exact leaves_5BText _ _ _ _ _ _ _ _ _
  · exact .some (leaves_ok _ _ _ _)

theorem leaves_text (c : Ctx K) (ps : Point K n) (fuel : ℕ) (t : List Char) (X : K) (fix : Bool) (mode : ℕ) :
    LeavesText c (reach n fix (setClassify t)) (fix || alwaysFixes (setClassify t)) ps (setInner c ps fuel t X fix mode)
      (leftText c ps fuel t X fix mode) := by
  unfold setInner leftText
  split
  · rcases checkConsistency t with e | _ <;> dsimp only
    · exact .some (leaves_error _ _ _ _ _)
    · exact leaves_form _ _ _ _ _ _ _ _
  · exact .none

/-- `fix_mom_cons` without real momenta. -/
theorem leaves_fixMomCons (c : Ctx K) (ps : Point K n) (A B axis : ℕ) (draw : ℕ × ℕ) :
    Leaves c 2 true ps (fixMomCons c ps A B false axis draw) (fixMomConsLeft c ps A B axis draw) := by
  have go : ∀ A B : ℕ, Leaves c 2 true ps
      (if A ≠ 0 ∧ B ≠ 0 then
        match label n A, label n B with
        | .ok a, .ok b => if axis = 1 then fixAxis1 c ps a b else fixAxis2 c ps a b
        | _, _ => .error .indexError
      else .ok ps)
      (if A ≠ 0 ∧ B ≠ 0 then
        match label n A, label n B with
        | .ok a, .ok b => if axis = 1 then fixAxis1Left c ps a b else fixAxis2Left c ps a b
        | _, _ => ps
      else ps) := by
    intro A B
    split
    · rcases label n A with e | a <;> rcases label n B with e | b <;> dsimp only <;> try exact leaves_error _ _ _ _ _
      split
      · exact leaves_fix1 _ _ _ _
      · exact leaves_fix2 _ _ _ _
    · exact leaves_ok _ _ _ _
  unfold fixMomCons fixMomConsLeft
  simp only [Bool.false_eq_true, and_false, if_false]
  split
  · exact go _ _
  · exact go _ _

end Lips

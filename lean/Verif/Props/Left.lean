import Verif.Lemmas.SetLeft
import Verif.Lemmas.SetMom
import Verif.Props.History

/-!
Property C124: what a setter leaves behind when it raises. The assignments made before the exception stay; the
particles stay on the mass shell all the same.
-/

namespace Lips

open Matrix

set_option linter.unusedSectionVars false
set_option linter.unusedVariables false

variable {K Γ : Type*} [Field K] [NeZero (2 : K)] [LinearOrder Γ] {n : ℕ}

/-! ### Which setter a text is given to, read off its first letters -/

theorem classify_fixes {t : List Char} (h : alwaysFixes (setClassify t) = true) :
    "Ω_".toList <+: t ∨ "Π_".toList <+: t := by
  have hr : setClassify t ≠ .nothing → SetReads t (setClassify t) := fun hn => (C93_reads hn).mp rfl
  rcases hf : setClassify t with _ | _ | _ | _ | _ | ds | ds | _ | _ | _ <;> rw [hf] at h <;> try cases h
  · have hs := hr (by rw [hf]; simp)
    rw [hf] at hs
    rcases hs with ⟨hg, hs⟩
    cases hg <;> simp only [settable, Option.some.injEq, reduceCtorEq] at hs
    exact .inl ⟨_, rfl⟩
  · have hs := hr (by rw [hf]; simp)
    rw [hf] at hs
    rcases hs with ⟨hg, hs⟩
    cases hg <;> simp only [settable, Option.some.injEq, reduceCtorEq] at hs
    exact .inr ⟨_, rfl⟩

theorem classify_reach {t : List Char} (h : ¬(n = 5 ∧ "tr5".toList <+: t)) (fix : Bool) :
    reach n fix (setClassify t) ≤ 3 ∧
      (fix = false → ¬ "Ω_".toList <+: t → ¬ "Π_".toList <+: t → reach n fix (setClassify t) ≤ 1) := by
  have hr : setClassify t ≠ .nothing → SetReads t (setClassify t) := fun hn => (C93_reads hn).mp rfl
  have hw : width fix ≤ 3 ∧ (fix = false → ¬ "Ω_".toList <+: t → ¬ "Π_".toList <+: t → width fix ≤ 1) :=
    ⟨width_le fix, by rintro rfl _ _; exact le_refl _⟩
  have hO : alwaysFixes (setClassify t) = true → ¬ "Ω_".toList <+: t → ¬ "Π_".toList <+: t → (3 : ℕ) ≤ 1 := by
    intro ha h1 h2
    rcases classify_fixes ha with h | h
    · exact absurd h h1
    · exact absurd h h2
  rcases hf : setClassify t with _ | _ | _ | _ | _ | _ | _ | m | _ | _ <;> simp only [reach] <;> try exact hw
  · exact ⟨le_refl _, fun _ => hO (by rw [hf]; rfl)⟩
  · exact ⟨le_refl _, fun _ => hO (by rw [hf]; rfl)⟩
  · split
    · rename_i h5
      refine absurd ⟨h5, ?_⟩ h
      have hs := hr (by rw [hf]; simp)
      rw [hf] at hs
      rcases hs with ⟨hg, hs⟩
      cases hg <;> simp only [settable, Option.some.injEq, reduceCtorEq] at hs
      · exact ⟨_, rfl⟩
      · exact ⟨_, rfl⟩
    · exact hw

theorem leavesText_some {c : Ctx K} {m : ℕ} {fix : Bool} {ps qs : Point K n} {r : Option (Except Err (Point K n))}
    {l : Option (Point K n)} (h : LeavesText c m fix ps r l) (hl : l = some qs) : ∃ r', r = some r' ∧ Leaves c m fix ps r' qs := by
  cases h with
  | none => cases hl
  | some h => injection hl with hl; subst hl; exact ⟨_, rfl, h⟩

theorem leavesText_of {c : Ctx K} {m : ℕ} {fix : Bool} {ps : Point K n} {r : Option (Except Err (Point K n))}
    {r' : Except Err (Point K n)} {l : Option (Point K n)} (h : LeavesText c m fix ps r l) (hr : r = some r') :
    ∃ qs, l = some qs ∧ Leaves c m fix ps r' qs := by
  cases h with
  | none => cases hr
  | some h => injection hr with hr; subst hr; exact ⟨_, rfl, h⟩

theorem leavesText_isSome {c : Ctx K} {m : ℕ} {fix : Bool} {ps : Point K n} {r : Option (Except Err (Point K n))}
    {l : Option (Point K n)} (h : LeavesText c m fix ps r l) : l.isSome = r.isSome := by cases h <;> rfl

/-! ### Single calls -/

/-- **C124**: a call that returns leaves the point it answers. -/
theorem C124_returns (c : Ctx K) (T : Tol K Γ) (ps qs : Point K n) (fuel : ℕ) (t : List Char) (X : K) (fix : Bool)
    (mode : ℕ) (h : setText T.abs T.tol c ps fuel t X fix mode = some (.ok qs)) :
    leftText c ps fuel t X fix mode = some qs := by
  have lt := leaves_text c ps fuel t X fix mode
  unfold setText at h
  rcases hi : setInner c ps fuel t X fix mode with _ | (e | ps')
  · rw [hi] at h; cases h
  · rw [hi] at h; cases h
  · rw [hi] at h
    have hq : ps' = qs := by
      simp only at h
      split at h
      · cases h
      · simp only [Option.some.injEq] at h
        unfold setChecks at h
        split at h
        · split at h
          · cases h
          · split at h
            · cases h
            · split at h
              · injection h
              · cases h
        · cases h
        · cases h
      · cases h
    subst hq
    obtain ⟨l, h1, h2⟩ := leavesText_of lt hi
    rw [h1, h2.ret _ rfl]

/-- **C124**: what is left is known whenever it is known whether `_set_inner` returns. -/
theorem C124_known (c : Ctx K) (ps : Point K n) (fuel : ℕ) (t : List Char) (X : K) (fix : Bool) (mode : ℕ) :
    (leftText c ps fuel t X fix mode).isSome = (setInner c ps fuel t X fix mode).isSome :=
  leavesText_isSome (leaves_text c ps fuel t X fix mode)

/-- **C124**: whatever text is set to whatever value, whether `_set` returns or raises, wherever the exception comes from: every
particle is massless, consistent and has spinors afterwards. -/
theorem C124_shell (c : Ctx K) (ps qs : Point K n) (hp : OnShell c ps) (fuel : ℕ) (t : List Char) (X : K) (fix : Bool)
    (mode : ℕ) (h : leftText c ps fuel t X fix mode = some qs) : OnShell c qs := by
  obtain ⟨r, -, l⟩ := leavesText_some (leaves_text c ps fuel t X fix mode) h
  exact l.shell hp

/-- **C124**: without momentum fixing, a setter other than those of Ω and Π that raises has changed nothing. -/
theorem C124_untouched (c : Ctx K) (ps : Point K n) (hp : OnShell c ps) (fuel : ℕ) (t : List Char)
    (hO : ¬ "Ω_".toList <+: t) (hP : ¬ "Π_".toList <+: t) (X : K) (mode : ℕ) (e : Err)
    (h : setInner c ps fuel t X false mode = some (.error e)) : leftText c ps fuel t X false mode = some ps := by
  have lt := leaves_text c ps fuel t X false mode
  have ha : alwaysFixes (setClassify t) = false := by
    by_contra hne
    rcases classify_fixes (by simpa using hne) with h | h
    · exact hO h
    · exact hP h
  rw [ha] at lt
  obtain ⟨l, h1, h2⟩ := leavesText_of lt h
  rw [h1, h2.same hp rfl e rfl]

/-- **C124**: a call changes at most three particles, whether it returns or raises, and at most one without momentum fixing unless it
sets Ω or Π; the exception are `tr5` of five particles. -/
theorem C124_frame (c : Ctx K) (ps qs : Point K n) (fuel : ℕ) (t : List Char) (ht : ¬(n = 5 ∧ "tr5".toList <+: t)) (X : K)
    (fix : Bool) (mode : ℕ) (h : leftText c ps fuel t X fix mode = some qs) :
    ∃ s : List (Fin n), s.length ≤ 3 ∧ (fix = false → ¬ "Ω_".toList <+: t → ¬ "Π_".toList <+: t → s.length ≤ 1) ∧
      ∀ i, i ∉ s → qs i = ps i := by
  obtain ⟨r, -, l⟩ := leavesText_some (leaves_text c ps fuel t X fix mode) h
  obtain ⟨s, h1, h2⟩ := l.frame
  exact ⟨s, h1.trans (classify_reach ht fix).1, fun hf hO hP => h1.trans ((classify_reach ht fix).2 hf hO hP), h2⟩

/-- **C124**: with momentum fixing, exceptions from the checks that follow the setter leave a point of conserved momentum. -/
theorem C124_momentum (c : Ctx K) (ps qs : Point K n) (hp : OnShell c ps) (hc : Conserves ps) (fuel : ℕ) (t : List Char) (X : K)
    (mode : ℕ) (h : setInner c ps fuel t X true mode = some (.ok qs)) :
    leftText c ps fuel t X true mode = some qs ∧ GoodPoint c qs := by
  obtain ⟨l, h1, h2⟩ := leavesText_of (leaves_text c ps fuel t X true mode) h
  have sh := h2.shell hp
  have e := h2.ret _ rfl
  subst e
  exact ⟨h1, fixes_inner hp _ _ _ _ h hc, sh⟩

/-! ### Brackets: the value is set although the call raises -/

theorem left_of {c : Ctx K} {ps : Point K n} {fuel : ℕ} {t : List Char} {X : K} {fix : Bool} {mode : ℕ} {f : SetForm}
    (hp : plainChars t = true) (hf : f ≠ .nothing) (hr : SetReads t f) :
    leftText c ps fuel t X fix mode = leftForm c ps fuel t X fix mode f := by
  unfold leftText
  rw [if_pos hp, C93_check_passes hr, (C93_reads hf).mpr hr]

/-- `_set_A2` when momentum cannot be fixed with the first two other particles, or there are none. -/
theorem left_A2_raises (c : Ctx K) (ps : Point K n) (r l : Fin n → V2 K) (h : ∀ k, IsMassless c (ps k) (r k) (l k)) (A B : Fin n)
    (hAB : A ≠ B) (X : K) (hA : r A 1 ≠ 0) (er : Err)
    (hz : (freeLabels [A, B]).length < 2 ∧ er = .indexError ∨
      ∃ p q, FirstTwoFree [A, B] p q ∧ SpecAngle (r p) (r q) = 0 ∧ er = .zeroDivision) :
    setA2 c ps A B X true = .error er ∧
      ∃ b, IsMassless c b ![(X + r A 0 * r B 1) / r A 1, r B 1] (l B) ∧ leftA2 c ps A B X true = Function.update ps B b := by
  obtain ⟨b, e1, hb⟩ := setRd_massless (h B) ![(X - (-r A 0) * r B 1) / r A 1, r B 1]
  have ex : X - -r A 0 * r B 1 = X + r A 0 * r B 1 := by ring
  have fx : fixFirstTwo c (Function.update ps B b) (freeLabels [A, B]) true = .error er ∧
      fixFirstTwoLeft c (Function.update ps B b) (freeLabels [A, B]) true = Function.update ps B b := by
    rcases hz with ⟨hs, rfl⟩ | ⟨p, q, hpq, hd, rfl⟩
    · rcases hf : freeLabels [A, B] with _ | ⟨p, _ | ⟨q, rest⟩⟩
      · exact ⟨rfl, rfl⟩
      · exact ⟨rfl, rfl⟩
      · rw [hf] at hs; simp at hs
    · have hB := firstTwoFree_ne hpq (k := B) (by simp)
      obtain ⟨rest, hf⟩ := freeLabels_firstTwo hpq
      have ep : Function.update ps B b p = ps p := Function.update_of_ne hB.1.symm _ _
      have eq : Function.update ps B b q = ps q := Function.update_of_ne hB.2.symm _ _
      have ha : angle (Function.update ps B b p) (Function.update ps B b q) = .ok 0 := by
        rw [ep, eq]
        simp only [angle, (h p).r_u, (h q).r_d, dot2, Matrix.cons_val_zero, Matrix.cons_val_one]
        rw [← hd]; congr 1; unfold SpecAngle; ring
      have hqd : (Function.update ps B b q).r_d = some (r q) := by rw [eq]; exact (h q).r_d
      rw [hf]
      constructor
      · simp only [fixFirstTwo, if_true, fixAxis2, ha, hqd, bind, Except.bind, pure, Except.pure, throw, throwThe, MonadExceptOf.throw]
      · simp only [fixFirstTwoLeft, if_true, fixAxis2Left, ha, hqd]
  refine ⟨?_, b, by rw [← ex]; exact hb, ?_⟩
  · simp only [setA2, (h A).r_u, (h B).r_d, need_some, Matrix.cons_val_zero, Matrix.cons_val_one, pyDiv_ok hA, fixIf, if_true, store, e1,
      Out.toExcept, fx.1]
  · simp only [leftA2, (h A).r_u, (h B).r_d, need_some, Matrix.cons_val_zero, Matrix.cons_val_one, pyDiv_ok hA, storeFixLeft, e1, if_true,
      storeLeft, fx.2]

/-- Another value of ⟨A|B⟩ takes another right spinor, hence another momentum of the second particle. -/
theorem not_conserves_update {c : Ctx K} {ps : Point K n} {r l : Fin n → V2 K} (h : ∀ k, IsMassless c (ps k) (r k) (l k)) {A B : Fin n}
    {X : K} (hA : r A 1 ≠ 0) {b : Particle K} (hb : IsMassless c b ![(X + r A 0 * r B 1) / r A 1, r B 1] (l B))
    (hX : SpecAngle (r A) (r B) ≠ X) (hlB : l B ≠ 0) (hc : Conserves ps) : ¬Conserves (Function.update ps B b) := by
  intro hc'
  have hr : ∀ i j, b.r2 i j = (ps B).r2 i j := by
    intro i j
    have h1 := hc i j
    have h2 := hc' i j
    rw [← Finset.add_sum_erase _ _ (Finset.mem_univ B)] at h1 h2
    rw [Function.update_self] at h2
    have h3 : ∑ k ∈ Finset.univ.erase B, (Function.update ps B b k).r2 i j = ∑ k ∈ Finset.univ.erase B, (ps k).r2 i j :=
      Finset.sum_congr rfl fun k hk => by rw [Function.update_of_ne (Finset.ne_of_mem_erase hk)]
    rw [h3] at h2
    linear_combination h2 - h1
  rw [hb.r2, (h B).r2] at hr
  have h00 := hr 0 1
  have h10 := hr 1 1
  simp only [outer_apply, Matrix.cons_val_zero, Matrix.cons_val_one] at h00 h10
  have hd : ∀ j, l B j * ((X + r A 0 * r B 1) / r A 1 - r B 0) = 0 := by
    intro j
    fin_cases j
    · show l B 0 * _ = 0; linear_combination h10
    · show l B 1 * _ = 0; linear_combination -h00
  have hx : (X + r A 0 * r B 1) / r A 1 - r B 0 = 0 := by
    by_contra hne
    exact hlB (funext fun j => (mul_eq_zero.mp (hd j)).resolve_right hne)
  apply hX
  rw [sub_eq_zero, div_eq_iff hA] at hx
  unfold SpecAngle
  linear_combination -hx

/-- **C124**, negation of atomicity: setting ⟨A|B⟩ with momentum fixing raises when there are fewer than two other particles, or
the angle bracket of the first two is zero; the value is set all the same, momentum is no longer conserved. -/
theorem C124_angle_raises (c : Ctx K) (T : Tol K Γ) (ps : Point K n) (r l : Fin n → V2 K)
    (h : ∀ k, IsMassless c (ps k) (r k) (l k)) (first last : Char) (hf : first ∈ ['⟨', '<']) (hl : last ∈ ['⟩', '>']) (A B : Fin n)
    (hAB : A ≠ B) (X : K) (hA : r A 1 ≠ 0) (er : Err)
    (hz : (freeLabels [A, B]).length < 2 ∧ er = .indexError ∨
      ∃ p q, FirstTwoFree [A, B] p q ∧ SpecAngle (r p) (r q) = 0 ∧ er = .zeroDivision) (fuel mode : ℕ) :
    setText T.abs T.tol c ps fuel (twoText first (A + 1) (B + 1) last) X true mode = some (.error er) ∧
    ∃ qs, leftText c ps fuel (twoText first (A + 1) (B + 1) last) X true mode = some qs ∧ angle (qs A) (qs B) = .ok X ∧
      (∀ k, k ≠ B → qs k = ps k) ∧ (Conserves ps → SpecAngle (r A) (r B) ≠ X → l B ≠ 0 → ¬Conserves qs) := by
  obtain ⟨e1, b, hb, e2⟩ := left_A2_raises c ps r l h A B hAB X hA er hz
  have hread : SetReads (twoText first (A + 1) (B + 1) last) (.angle (pyStr (A + 1)) (pyStr (B + 1))) := by
    refine .form (g := .angle (pyStr (A + 1)) (pyStr (B + 1))) ?_ rfl
    have := ReadsAs.angle hf hl (digits_pyStr (A + 1)) (digits_pyStr (B + 1))
    simpa [twoText] using this
  have hpl : plainChars (twoText first (A + 1) (B + 1) last) = true := by
    simp only [List.mem_cons, List.not_mem_nil, or_false] at hf hl
    rcases hf with rfl | rfl <;> rcases hl with rfl | rfl <;> exact plain_two (by decide) (by decide) _ _
  have an : angle (Function.update ps B b A) (Function.update ps B b B) = .ok X := by
    rw [Function.update_self, Function.update_of_ne hAB]
    simp only [angle, (h A).r_u, hb.r_d, dot2, Matrix.cons_val_zero, Matrix.cons_val_one]
    congr 1; field_simp; ring
  refine ⟨?_, Function.update ps B b, ?_, an, fun k hk => Function.update_of_ne hk _ _, ?_⟩
  · unfold setText
    rw [setInner_of hpl (by simp) hread]
    simp only [setForm, readLabel_ok, e1]
  · rw [left_of hpl (by simp) hread]
    simp only [leftForm, readLabel_ok, e2]
  · exact fun hc hX hlB => not_conserves_update h hA hb hX hlB hc

end Lips

import Verif.Lemmas.SetStays
import Verif.Props.LeftPair
import Verif.Props.PairTwo

/-!
Property C124, continued: if momentum cannot be fixed, what was set before stays. The point left behind is the one that
`fix_mom=False` gives.
-/

namespace Lips

open Matrix

set_option linter.unusedSectionVars false
set_option linter.unusedVariables false

variable {K Γ : Type*} [Field K] [NeZero (2 : K)] [LinearOrder Γ] {n : ℕ}

theorem stays_form {c : Ctx K} {ps : Point K n} (hp : OnShell c ps) {fuel : ℕ} {t : List Char} {X : K} {mode : ℕ} {f : SetForm}
    (hS : ∀ o a m d z, f ≠ .string o a m d z) (hM : ∀ ds, f ≠ .mandelstam ds) {er : Err} :
    setForm c ps fuel t X true mode f = some (.error er) →
      leftForm c ps fuel t X true mode f = leftForm c ps fuel t X false mode f := by
  rcases f with ⟨a, b⟩ | ⟨a, b⟩ | ⟨o, a, m, d, z⟩ | ds | cs | ds | ds | m | ⟨a, b, cd, e, f⟩ | _ <;> simp only [setForm, leftForm] <;>
    try first | exact fun _ => trivial | exact fun _ => rfl
  · rcases readLabel n a with er | a <;> rcases readLabel n b with er | b <;> dsimp only <;> try exact fun _ => rfl
    exact fun h => congrArg some (stays_A2 hp (Option.some.inj h))
  · rcases readLabel n a with er | a <;> rcases readLabel n b with er | b <;> dsimp only <;> try exact fun _ => rfl
    exact fun h => congrArg some (stays_S2 hp (Option.some.inj h))
  · exact absurd rfl (hS _ _ _ _ _)
  · exact absurd rfl (hM _)
  · unfold setDText leftDText
    split
    · exact fun _ => rfl
    rcases cs with _ | ⟨x, _ | ⟨y, _ | ⟨z, _ | ⟨w, cs⟩⟩⟩⟩ <;> dsimp only <;> try exact fun _ => rfl
    · rcases shortCorners n fuel x with _ | (e | ⟨A, B, C⟩) <;> dsimp only <;> try exact fun _ => rfl
      exact fun h => congrArg some (stays_D hp (Option.some.inj h))
    · rcases readDigits n x with e | A <;> rcases readDigits n y with e | B <;> rcases readDigits n z with e | C <;> dsimp only <;>
        try exact fun _ => rfl
      exact fun h => congrArg some (stays_D hp (Option.some.inj h))
  · unfold setTr5Text leftTr5Text
    rcases unpack4 m with e | ⟨w, x, y, z⟩ <;> dsimp only
    · exact fun _ => rfl
    rcases readSlot n w with e | w <;> rcases readSlot n x with e | x <;> rcases readSlot n y with e | y <;>
      rcases readSlot n z with e | z <;> dsimp only <;> try exact fun _ => rfl
    exact fun h => congrArg some (stays_tr5All hp (Option.some.inj h))
  · unfold set5BText left5BText
    generalize List.mapM pyInt (cd.splitOn '+') = z
    rcases z with er | _ | ⟨x, _ | ⟨y, _ | ⟨w, l⟩⟩⟩ <;> dsimp only <;> try exact fun _ => rfl
    rcases readLabel n a with er | a <;> rcases readLabel n b with er | b <;> rcases label n x with er | x <;>
      rcases label n y with er | y <;> rcases readLabel n e with er | e <;> rcases readLabel n f with er | f <;> dsimp only <;>
      try exact fun _ => rfl
    exact fun h => congrArg some (stays_5B hp (Option.some.inj h))

/-- **C124**: on massless particles, a setter that raises leaves with momentum fixing what it leaves without: the value is set and
stays if momentum cannot be fixed. Strings and Mandelstam invariants below. -/
theorem C124_stays (c : Ctx K) (ps : Point K n) (hp : OnShell c ps) (fuel : ℕ) (t : List Char)
    (hS : ∀ o a m d z, ¬SetReads t (.string o a m d z)) (hM : ∀ ds, ¬SetReads t (.mandelstam ds)) (X : K) (mode : ℕ) (e : Err)
    (h : setInner c ps fuel t X true mode = some (.error e)) :
    leftText c ps fuel t X true mode = leftText c ps fuel t X false mode := by
  unfold setInner at h
  unfold leftText
  by_cases hc : plainChars t = true
  · rw [if_pos hc] at h
    rw [if_pos hc, if_pos hc]
    rcases hk : checkConsistency t with e' | _ <;> rw [hk] at h
    dsimp only at h ⊢
    refine stays_form hp (fun o a m d z hf => hS o a m d z ?_) (fun ds hf => hM ds ?_) h
    · exact (C93_reads (by simp)).mp hf
    · exact (C93_reads (by simp)).mp hf
  · rw [if_neg hc] at h; cases h

/-- **C124**: strings, when at least two labels are free; with fewer another string may be set in its place. -/
theorem C124_stays_string (c : Ctx K) (ps : Point K n) (hp : OnShell c ps) (fuel : ℕ) (t : Str n)
    (ht : 2 ≤ (freeLabels t.labels).length) (X : K) (mode : ℕ) (e : Err) (h : setNB c fuel ps t X true mode = .error e) :
    leftNB c fuel ps t X true mode = leftNB c fuel ps t X false mode := stays_NB hp fuel t ht X mode h

/-- **C124**: Mandelstam invariants, when at least two labels are free. -/
theorem C124_stays_mandelstam (c : Ctx K) (ps : Point K n) (hp : OnShell c ps) (ls : List (Fin n)) (hl : 2 ≤ (freeLabels ls).length)
    (X : K) (mode : ℕ) (e : Err) (h : setS c ps ls X true mode = .error e) :
    leftS c ps ls X true mode = leftS c ps ls X false mode := stays_S hp ls hl X mode h

/-- **C124**: on massless particles `fix_mom_cons` that raises has changed nothing. -/
theorem C124_fix_atomic (c : Ctx K) (ps : Point K n) (hp : OnShell c ps) (A B axis : ℕ) (draw : ℕ × ℕ) (e : Err)
    (h : fixMomCons c ps A B false axis draw = .error e) : fixMomConsLeft c ps A B axis draw = ps := by
  have go : ∀ A B : ℕ,
      (if A ≠ 0 ∧ B ≠ 0 then
        match label n A, label n B with
        | .ok a, .ok b => if axis = 1 then fixAxis1 c ps a b else fixAxis2 c ps a b
        | _, _ => .error .indexError
      else .ok ps) = .error e →
      (if A ≠ 0 ∧ B ≠ 0 then
        match label n A, label n B with
        | .ok a, .ok b => if axis = 1 then fixAxis1Left c ps a b else fixAxis2Left c ps a b
        | _, _ => ps
      else ps) = ps := by
    intro A B
    split
    · rcases label n A with e | a <;> rcases label n B with e' | b <;> dsimp only <;> try exact fun _ => rfl
      split
      · exact fix1_atomic hp
      · exact fix2_atomic hp
    · exact fun _ => rfl
  unfold fixMomCons at h
  unfold fixMomConsLeft
  simp only [Bool.false_eq_true, and_false, if_false] at h ⊢
  by_cases h0 : A = 0 ∧ B = 0
  · rw [if_pos h0] at h; rw [if_pos h0]; exact go _ _ h
  · rw [if_neg h0] at h; rw [if_neg h0]; exact go _ _ h

/-! ### Pairs -/

/-- What a returning `_set` of a two-bracket says of the value. -/
theorem setTwo_near {c : Ctx K} {T : Tol K Γ} {ang : Bool} {a b : Fin n} {X : K} {ps qs : Point K n}
    (h : setTwo c T ang a b X ps = .ok qs) : ∃ x, twoVal ang a b qs = .ok x ∧ T.abs (x - X) ≤ T.tol := by
  unfold setTwo setThen at h
  split at h
  · cases h
  · split at h
    · cases h
    · rename_i x hx
      split at h
      · rename_i ht
        injection h with h
        subst h
        exact ⟨x, hx, ht⟩
      · cases h

/-- **C124**: two two-brackets with four different labels and another particle: if both calls of `_set` return and the pair raises, the
point left is the one with both brackets set. -/
theorem C124_pair_stays (E : PairEnv K Γ) (ps ps1 ps2 : Point K n) (hp : OnShell E.c ps) (x y : Bool) (a b d e : Fin n)
    (hnd : [a, b, d, e].Nodup) (hfree : freeLabels [a, b, d, e] ≠ []) (v w : K) (h1 : setTwo E.c E.T x a b v ps = .ok ps1)
    (h2 : setTwo E.c E.T y d e w ps1 = .ok ps2) (k : ℕ) (s₁ s₂ : String) (er : Err)
    (h : pairInner E ps (k + 1) s₁ s₂ (.two x a b, v) (.two y d e, w) = some (.error er)) :
    leftPair E ps (k + 1) s₁ s₂ (.two x a b, v) (.two y d e, w) = some ps2 ∧
      ∃ z, twoVal y d e ps2 = .ok z ∧ E.T.abs (z - w) ≤ E.T.tol := by
  refine ⟨?_, setTwo_near h2⟩
  simp only [List.nodup_cons, List.mem_cons, List.not_mem_nil, or_false, not_or] at hnd
  obtain ⟨⟨hab, had, hae⟩, ⟨hbd, hbe⟩, hde, -⟩ := hnd
  have hj : jobs22 x a b y d e = .ok (⟨a, b, false⟩, ⟨d, e, false⟩) := by
    unfold jobs22 overlap2
    simp [had, hae, hbd, hbe]
  have o1 : OnShell E.c ps1 := (leaves_two E.c E.T x a b v ps).ret _ h1 ▸ (leaves_two E.c E.T x a b v ps).shell hp
  have o2 : OnShell E.c ps2 := (leaves_two E.c E.T y d e w ps1).ret _ h2 ▸ (leaves_two E.c E.T y d e w ps1).shell o1
  simp only [pairInner, Inv.blank, Bool.or_self, Bool.false_eq_true, if_false, pair22, hj, Job.val, h1, andThen, h2,
    Option.some.injEq] at h
  simp only [leftPair, Inv.blank, Bool.or_self, Bool.false_eq_true, if_false, left22, hj, Job.val, h1, stepLeft, h2,
    Option.some.injEq]
  have hf : fixAfter E.c E.T x a b [a, b, d, e] ps2 = .error er := by
    rcases hr : fixAfter E.c E.T x a b [a, b, d, e] ps2 with er' | q
    · rw [hr] at h; injection h with h; rw [h]
    · rw [hr] at h; cases h
  unfold fixAfter at hf
  unfold fixAfterLeft
  rcases hl : freeLabels [a, b, d, e] with _ | ⟨p, _ | ⟨q, pl⟩⟩
  · exact absurd hl hfree
  · rw [hl] at hf
    cases x
    · exact fix1_atomic o2 hf
    · exact fix2_atomic o2 hf
  · rw [hl] at hf
    exact fix1_atomic o2 hf

/-- **C124**: two Mandelstam invariants that are set without another call of `_set_pair_inner`: if both calls of `_set` return and the
pair raises, the point left is the one with both set. -/
theorem C124_pair_stays_mandelstam (E : PairEnv K Γ) (ps ps1 ps2 : Point K n) (hp : OnShell E.c ps) (A B A' B' : List (Fin n))
    (hA : A ≠ []) (hB : B ≠ []) (v w v' w' : K) (p q : Fin n) (hs : stepSS A v B w = .set A' v' B' w' p q)
    (h1 : setMandel E.c E.T A' 1 v' ps = .ok ps1) (h2 : setMandel E.c E.T B' 2 w' ps1 = .ok ps2) (k : ℕ) (s₁ s₂ : String) (er : Err)
    (h : pairInner E ps (k + 1) s₁ s₂ (.mandel A, v) (.mandel B, w) = some (.error er)) :
    leftPair E ps (k + 1) s₁ s₂ (.mandel A, v) (.mandel B, w) = some ps2 := by
  have o1 : OnShell E.c ps1 := (leaves_mandel E.c E.T A' 1 v' ps).ret _ h1 ▸ (leaves_mandel E.c E.T A' 1 v' ps).shell hp
  have o2 : OnShell E.c ps2 := (leaves_mandel E.c E.T B' 2 w' ps1).ret _ h2 ▸ (leaves_mandel E.c E.T B' 2 w' ps1).shell o1
  have bA : (Inv.mandel A : Inv n).blank = false := by cases A <;> first | exact absurd rfl hA | rfl
  have bB : (Inv.mandel B : Inv n).blank = false := by cases B <;> first | exact absurd rfl hB | rfl
  simp only [pairInner, bA, bB, Bool.or_self, Bool.false_eq_true, if_false, hs, pairSS, andThen, h1, h2, Option.some.injEq] at h
  simp only [leftPair, bA, bB, Bool.or_self, Bool.false_eq_true, if_false, hs, leftSS, stepLeft, h1, h2, Option.some.injEq]
  have hf : fixAxis1 E.c ps2 p q = .error er := by
    rcases hr : fixAxis1 E.c ps2 p q with er' | z
    · rw [hr] at h; injection h with h; rw [h]
    · rw [hr] at h; cases h
  exact fix1_atomic o2 hf

/-- A vanishing square bracket is a ZeroDivisionError of `fix_mom_cons`. -/
theorem fix1_zero {c : Ctx K} {ps : Point K n} {r l : Fin n → V2 K} (h : ∀ k, IsMassless c (ps k) (r k) (l k)) {a b : Fin n}
    (hd : SpecSquare (l a) (l b) = 0) : fixAxis1 c ps a b = .error .zeroDivision := by
  have hs : square (ps a) (ps b) = .ok 0 := by
    simp only [square, (h a).l_d, (h b).l_u, dot2, Matrix.cons_val_zero, Matrix.cons_val_one]
    rw [← hd]; congr 1; unfold SpecSquare; ring
  simp only [fixAxis1, hs, (h b).l_d]
  exact if_pos rfl

/-- **C124**: two two-brackets with four different labels when the square bracket of the first two other particles is zero: a
ZeroDivisionError is raised, but both brackets have their values. -/
theorem C124_pair_unfixable (E : PairEnv K Γ) (hT : E.T.abs 0 ≤ E.T.tol) (ps : Point K n) (r l : Fin n → V2 K)
    (h : ∀ k, IsMassless E.c (ps k) (r k) (l k)) (x y : Bool) (a b d e p q : Fin n) (hnd : [a, b, d, e].Nodup)
    (hpq : FirstTwoFree [a, b, d, e] p q) (v w : K) (ha : HeadOk x (r a) (l a)) (hd : HeadOk y (r d) (l d))
    (h0 : SpecSquare (l p) (l q) = 0) (k : ℕ) (s₁ s₂ : String) :
    pairInner E ps (k + 1) s₁ s₂ (.two x a b, v) (.two y d e, w) = some (.error .zeroDivision) ∧
    ∃ qs, leftPair E ps (k + 1) s₁ s₂ (.two x a b, v) (.two y d e, w) = some qs ∧ twoVal x a b qs = .ok v ∧ twoVal y d e qs = .ok w ∧
      ∀ i, i ≠ b → i ≠ e → qs i = ps i := by
  have hnd' := hnd
  simp only [List.nodup_cons, List.mem_cons, List.not_mem_nil, or_false, not_or] at hnd'
  obtain ⟨⟨hab, had, hae⟩, ⟨hbd, hbe⟩, hde, -⟩ := hnd'
  obtain ⟨ps2, r2, l2, hs, s2, v1, v2, o⟩ := pair22_steps (T := E.T) hT h (x := x) (y := y) hab hde
    (.inr ⟨Ne.symm hae, Ne.symm hbe, Ne.symm hbd⟩) v w ha hd
  obtain ⟨ps1, e1, e2⟩ : ∃ ps1, setTwo E.c E.T x a b v ps = .ok ps1 ∧ setTwo E.c E.T y d e w ps1 = .ok ps2 := by
    rcases hr : setTwo E.c E.T x a b v ps with er | ps1
    · rw [hr] at hs; cases hs
    · rw [hr] at hs; exact ⟨ps1, rfl, hs⟩
  obtain ⟨rest, hfree⟩ := freeLabels_firstTwo hpq
  have hj : jobs22 x a b y d e = .ok (⟨a, b, false⟩, ⟨d, e, false⟩) := by
    unfold jobs22 overlap2
    simp [had, hae, hbd, hbe]
  obtain ⟨hp, hq⟩ : p ∉ [a, b, d, e] ∧ q ∉ [a, b, d, e] := ⟨hpq.1, hpq.2.1⟩
  simp only [List.mem_cons, List.not_mem_nil, or_false, not_or] at hp hq
  have hz : fixAxis1 E.c ps2 p q = .error .zeroDivision :=
    fix1_zero s2 (by rw [(o p hp.2.1 hp.2.2.2).2.2, (o q hq.2.1 hq.2.2.2).2.2]; exact h0)
  have hi : pairInner E ps (k + 1) s₁ s₂ (.two x a b, v) (.two y d e, w) = some (.error .zeroDivision) := by
    simp only [pairInner, Inv.blank, Bool.or_self, Bool.false_eq_true, if_false, pair22, hj, Job.val, e1, andThen, e2, fixAfter,
      hfree, hz]
    rfl
  refine ⟨hi, ps2, (C124_pair_stays E ps ps1 ps2 ⟨r, l, h⟩ x y a b d e hnd (by rw [hfree]; simp) v w e1 e2 k s₁ s₂ _ hi).1, v1, v2,
    fun i h1 h2 => (o i h1 h2).1⟩

/-- **C124**: a string as in `C62_head_linear` when the square bracket of the first two free labels is zero: a ZeroDivisionError is
raised, but the string has its value; the head is the only particle that has changed. -/
theorem C124_string_unfixable (c : Ctx K) (ps : Point K n) (r l : Fin n → V2 K) (h : ∀ k, IsMassless c (ps k) (r k) (l k)) (t : Str n)
    (w : t.Wf) (hs : t.s ∉ t.ms.flatten) (hne : t.ms.length % 2 = 1 ∨ t.s ≠ t.e) (p q : Fin n) (hpq : FirstTwoFree t.labels p q) (X : K)
    {v : V2 K} (hv : computeOpenBegin ps (t.ms.map plusOf) t.e t.last = .ok v) (hv0 : v 0 ≠ 0) (h0 : SpecSquare (l p) (l q) = 0)
    (fuel : ℕ) :
    setNB c (fuel + 1) ps t X true 1 = .error .zeroDivision ∧ t.value (leftNB c (fuel + 1) ps t X true 1) = .ok X ∧
      ∀ k, k ≠ t.s → leftNB c (fuel + 1) ps t X true 1 k = ps k := by
  rw [openBegin_eq h w] at hv
  injection hv with hv
  obtain ⟨ps1, r1, l1, e1, h1, v1, o1, -, -, o1'⟩ := setHead_linear (h : Spin c ps r l) w hs hne X (by rw [hv]; exact hv0)
  have hsl : t.s ∈ t.labels := by simp [Str.labels]
  obtain ⟨np, nq⟩ := firstTwoFree_ne hpq hsl
  have hu := uniqueEnd_head hs hne
  obtain ⟨rest, hr⟩ := freeLabels_firstTwo hpq
  have hz : fixAxis1 c ps1 p q = .error .zeroDivision :=
    fix1_zero h1 (by rw [(o1' p np.symm).2, (o1' q nq.symm).2]; exact h0)
  have hf : ∀ fix, setNB c (fuel + 1) ps t X fix 1 = if fix then .error .zeroDivision else .ok ps1 := by
    intro fix
    simp only [setNB, noFlip hpq, false_and, if_false, Option.getD_none, Option.isSome_none, Bool.false_eq_true]
    rw [if_pos (Or.inl ⟨.inl (by rw [hu]; rfl), trivial⟩), if_neg (by rw [hu]; simp)]
    simp only [e1, fixNB, hr, fixFirstTwo, List.length_cons, Bool.false_eq_true, if_false, hz, if_pos (show 2 ≤ rest.length + 1 + 1 by omega)]
  have he : leftNB c (fuel + 1) ps t X true 1 = ps1 := by
    rw [stays_NB ⟨r, l, h⟩ (fuel + 1) t (by rw [hr]; simp) X 1 (hf true)]
    exact (leaves_NB c (fuel + 1) ps t X false 1).ret _ (hf false)
  rw [he]
  exact ⟨hf true, v1, o1⟩

/-- **C124**: the same of a Mandelstam invariant with at least three labels, in the setting of `C64_set_mandelstam`. -/
theorem C124_mandelstam_unfixable (c : Ctx K) (ps : Point K n) (r l : Fin n → V2 K) (h : ∀ k, IsMassless c (ps k) (r k) (l k))
    (i : Fin n) (rest : List (Fin n)) (hi : i ∉ rest) (hlen : 2 ≤ rest.length) (mode : ℕ) (hmode : mode = 1 ∨ mode = 2) (p q : Fin n)
    (hpq : FirstTwoFree (i :: rest) p q) (X : K) {v : V2 K}
    (hv : computeOpenBegin ps [plusOf rest] i (if mode = 1 then ']' else '⟩') = .ok v) (hv0 : v 0 ≠ 0) (h0 : SpecSquare (l p) (l q) = 0) :
    setS c ps (i :: rest) X true mode = .error .zeroDivision ∧ computeS (leftS c ps (i :: rest) X true mode) (i :: rest) = X ∧
      ∀ k, k ≠ i → leftS c ps (i :: rest) X true mode k = ps k := by
  have lab : ∀ k, k ∈ i :: rest ↔ k ∈ (sString i rest mode).labels := by
    intro k; unfold sString Str.labels; split <;> simp <;> tauto
  have hms : (sString i rest mode).ms = [rest] := by unfold sString; split <;> rfl
  have hs : (sString i rest mode).s = i := by unfold sString; split <;> rfl
  have he : (sString i rest mode).e = i := by unfold sString; split <;> rfl
  have hl : (sString i rest mode).last = if mode = 1 then ']' else '⟩' := by unfold sString; split <;> rfl
  obtain ⟨e, hval, ho⟩ := C124_string_unfixable c ps r l h (sString i rest mode) (sString_wf i rest mode)
    (by rw [hms, hs]; simpa using hi) (Or.inl (by rw [hms]; rfl)) p q (firstTwoFree_congr lab hpq)
    (X - (computeS ps (i :: rest) - (computeS ps (i :: rest) - computeS ps rest)))
    (by rw [hms, he, hl]; exact hv) hv0 h0 2
  have hval' := sString_value (h : Spin c ps r l) i rest mode
  rw [hs] at ho
  obtain ⟨y, z, ys, rfl⟩ : ∃ y z ys, rest = y :: z :: ys := by
    rcases rest with _ | ⟨y, _ | ⟨z, ys⟩⟩
    · simp at hlen
    · simp at hlen
    · exact ⟨y, z, ys, rfl⟩
  have hm : ¬(mode ≠ 1 ∧ mode ≠ 2) := by rintro ⟨a, b⟩; rcases hmode with h | h <;> contradiction
  have hstr : (if mode = 1 then (⟨'⟨', i, [y :: z :: ys], i, ']'⟩ : Str n) else ⟨'[', i, [y :: z :: ys], i, '⟩'⟩) =
    sString i (y :: z :: ys) mode := rfl
  have run : setS c ps (i :: y :: z :: ys) X true mode = .error .zeroDivision := by
    rw [setS, if_neg hm]
    · simp only [hstr, hval']; exact e
    · simp
  have runL : leftS c ps (i :: y :: z :: ys) X true mode = leftNB c 3 ps (sString i (y :: z :: ys) mode)
      (X - (computeS ps (i :: y :: z :: ys) - (computeS ps (i :: y :: z :: ys) - computeS ps (y :: z :: ys)))) true 1 := by
    rw [leftS, if_neg hm]
    · simp only [hstr, hval']
    · simp
  rw [← runL] at hval ho
  obtain ⟨r', l', hr'⟩ := (leaves_S c ps (i :: y :: z :: ys) X true mode).shell ⟨r, l, h⟩
  have e1 := sString_value (hr' : Spin c _ r' l') i (y :: z :: ys) mode
  rw [hval] at e1
  injection e1 with e1
  have e2 : computeS (leftS c ps (i :: y :: z :: ys) X true mode) (y :: z :: ys) = computeS ps (y :: z :: ys) := by
    unfold computeS
    rw [sumR2_congr fun k hk => ho k fun e => hi (e ▸ hk)]
  rw [e2] at e1
  exact ⟨run, by linear_combination -e1, ho⟩

end Lips

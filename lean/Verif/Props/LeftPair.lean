import Verif.Lemmas.PairLeft
import Verif.Props.Left

/-!
Property C124 for pairs of invariants and for sequences of calls: what is left behind when `_set_pair` raises.
-/

namespace Lips

open Matrix

set_option linter.unusedSectionVars false
set_option linter.unusedVariables false

variable {K Γ : Type*} [Field K] [NeZero (2 : K)] [LinearOrder Γ] {n : ℕ}

/-! ### The tables of texts -/

/-- No text of the tables is that of Ω, Π or `tr5`. -/
def plainStep (h : HardStep) : Prop :=
  ¬ "tr5".toList <+: h.text.toList ∧ ¬ "Ω_".toList <+: h.text.toList ∧ ¬ "Π_".toList <+: h.text.toList

instance (h : HardStep) : Decidable (plainStep h) := by unfold plainStep; infer_instance

theorem plain_tables : ∀ h ∈ hardDelta ++ hardStrings, plainStep h.one ∧ plainStep h.two := by decide +kernel

theorem leaves_hardStep (abs : K → Γ) (tol : Γ) (c : Ctx K) (fuel : ℕ) {h : HardStep} (hp : plainStep h) (v w : K) (ps : Point K n) :
    (h.run abs tol c fuel v w ps = none) ∨
      ∃ r l, h.run abs tol c fuel v w ps = some r ∧ h.left c fuel v w ps = some l ∧ Leaves c 1 true ps r l := by
  unfold HardStep.run HardStep.left
  rcases hr : setText abs tol c ps fuel h.text.toList (if h.second then w else v) false h.mode with _ | r
  · exact .inl rfl
  refine .inr ?_
  have lt := leaves_text c ps fuel h.text.toList (if h.second then w else v) false h.mode
  have hi : ∃ r', setInner c ps fuel h.text.toList (if h.second then w else v) false h.mode = some r' ∧
      ∀ qs, r = .ok qs → r' = .ok qs := by
    unfold setText at hr
    rcases hi : setInner c ps fuel h.text.toList (if h.second then w else v) false h.mode with _ | (e | ps')
    · rw [hi] at hr; cases hr
    · exact ⟨_, rfl, fun qs e => by rw [hi] at hr; injection hr with hr; rw [e] at hr; cases hr⟩
    · refine ⟨_, rfl, ?_⟩
      rintro qs rfl
      have := C124_returns c ⟨abs, tol⟩ ps qs fuel h.text.toList (if h.second then w else v) false h.mode
        (by unfold setText; exact hr)
      obtain ⟨l, h1, h2⟩ := leavesText_of lt hi
      rw [h1] at this
      injection this with this
      rw [← this, ← h2.ret _ rfl]
  obtain ⟨r', h1, h2⟩ := hi
  obtain ⟨l, h3, h4⟩ := leavesText_of lt h1
  exact ⟨r, l, rfl, h3, leaves_check (leaves_weaken (fix' := true) h4
    ((classify_reach (fun h => hp.1 h.2) false).2 rfl hp.2.1 hp.2.2) (fun h => (nomatch h))) h2⟩

theorem leaves_hardPair (abs : K → Γ) (tol : Γ) (c : Ctx K) (fuel : ℕ) {h : HardPair} (h1 : plainStep h.one) (h2 : plainStep h.two)
    (v w : K) (ps : Point K n) : LeavesText c 4 true ps (h.run abs tol c fuel v w ps) (h.left abs tol c fuel v w ps) := by
  unfold HardPair.run HardPair.left
  rcases leaves_hardStep abs tol c fuel h1 v w ps with e1 | ⟨r1, l1, e1, f1, g1⟩
  · rw [e1]; exact .none
  rw [e1]
  rcases r1 with e | ps1 <;> dsimp only
  · rw [f1]; exact .some (leaves_weaken g1 (by decide) id)
  rcases leaves_hardStep abs tol c fuel h2 v w ps1 with e2 | ⟨r2, l2, e2, f2, g2⟩
  · rw [e2]; exact .none
  rw [e2]
  have g12 := leaves_then g1 rfl g2
  rcases r2 with e | ps2 <;> dsimp only
  · rw [f2]; exact .some (leaves_weaken g12 (by decide) id)
  have stop : ∀ e, Leaves c 4 true ps (.error e) ps2 := fun e => by
    have := g12.ret _ rfl
    subst this
    exact leaves_check (leaves_weaken (fix' := true) g12 (by decide) id) fun _ h => (nomatch h)
  unfold fixLabels
  rcases label n h.p with e | p <;> rcases label n h.q with e' | q <;> dsimp only
  · exact .some (stop _)
  · exact .some (stop _)
  · exact .some (stop _)
  · exact .some (leaves_then g12 rfl (leaves_fix1 c ps2 p q))

/-! ### `_set_pair_inner` -/

/-- The point after a call that returned. -/
def PairOut.point (ps : Point K n) : PairOut K n → Point K n
  | .set qs => qs
  | .notImplemented => ps
  | .replaced qs _ _ => qs

/-- How the outcome of a call on `ps` and the point it leaves behind are related. -/
structure LeavesOut (c : Ctx K) (ps : Point K n) (r : Except Err (PairOut K n)) (l : Point K n) : Prop where
  ret : ∀ z, r = .ok z → l = z.point ps
  shell : OnShell c ps → OnShell c l
  frame : ∃ s : List (Fin n), s.length ≤ 4 ∧ ∀ i, i ∉ s → l i = ps i

inductive LeavesPair (c : Ctx K) (ps : Point K n) : Option (Except Err (PairOut K n)) → Option (Point K n) → Prop
  | none : LeavesPair c ps none none
  | some {r : Except Err (PairOut K n)} {l : Point K n} (h : LeavesOut c ps r l) : LeavesPair c ps (some r) (some l)

theorem leavesPair_idle (c : Ctx K) (ps : Point K n) {r : Except Err (PairOut K n)} (h : ∀ z, r = .ok z → z.point ps = ps) :
    LeavesPair c ps (some r) (some ps) :=
  .some ⟨fun z e => (h z e).symm, id, [], Nat.zero_le _, fun _ _ => rfl⟩

theorem leavesPair_map {c : Ctx K} {ps : Point K n} {r : Except Err (Point K n)} {l : Point K n} (h : Leaves c 4 true ps r l)
    (f : Point K n → PairOut K n) (hf : ∀ qs, (f qs).point ps = qs) : LeavesPair c ps (some (r.map f)) (some l) := by
  refine .some ⟨?_, h.shell, h.frame⟩
  rcases r with e | qs
  · exact fun _ h => (nomatch h)
  · intro z hz
    injection hz with hz
    rw [← hz, hf, h.ret _ rfl]

theorem leavesPair_set {c : Ctx K} {ps : Point K n} {r : Except Err (Point K n)} {l : Point K n} (h : Leaves c 4 true ps r l) :
    LeavesPair c ps (some (r.map .set)) (some l) := leavesPair_map h _ fun _ => rfl

theorem leavesPair_error (c : Ctx K) (ps : Point K n) (e : Err) : LeavesPair c ps (some (.error e)) (some ps) :=
  leavesPair_idle c ps fun _ h => (nomatch h)

theorem leavesPair_not (c : Ctx K) (ps : Point K n) : LeavesPair c ps (some (.ok .notImplemented)) (some ps) :=
  leavesPair_idle c ps fun z h => by injection h with h; subst h; rfl

theorem leavesPair_same (c : Ctx K) (ps : Point K n) : LeavesPair c ps (some (.ok (.set ps))) (some ps) :=
  leavesPair_idle c ps fun z h => by injection h with h; subst h; rfl

theorem leavesPair_hard (table : List HardPair) (ht : ∀ h ∈ table, plainStep h.one ∧ plainStep h.two) (T : Tol K Γ) (c : Ctx K)
    (fuel : ℕ) (ps : Point K n) (s₁ s₂ : String) (v w : K) :
    LeavesPair c ps (tableSet (pairHard table T.abs T.tol c fuel ps s₁ v s₂ w)) (leftHard table T.abs T.tol c fuel ps s₁ v s₂ w) := by
  unfold pairHard leftHard
  generalize hf : List.find? _ table = z
  rcases z with _ | h <;> dsimp only
  · exact leavesPair_not c ps
  · obtain ⟨h1, h2⟩ := ht h (List.mem_of_find?_eq_some hf)
    have lt := leaves_hardPair T.abs T.tol c fuel h1 h2 v w ps
    rcases hr : h.run T.abs T.tol c fuel v w ps with _ | r
    · rw [hr] at lt
      have := leavesText_isSome lt
      rcases hl : h.left T.abs T.tol c fuel v w ps with _ | l
      · exact .none
      · rw [hl] at this; cases this
    · obtain ⟨l, hl, hle⟩ := leavesText_of lt hr
      rw [hl]
      refine .some ⟨?_, hle.shell, hle.frame⟩
      rcases r with e | qs
      · exact fun _ h => (nomatch h)
      · intro z hz
        injection hz with hz
        subst hz
        exact hle.ret _ rfl

theorem plain_delta : ∀ h ∈ hardDelta, plainStep h.one ∧ plainStep h.two := fun h hh => plain_tables h (by simp [hh])

theorem plain_strings : ∀ h ∈ hardStrings, plainStep h.one ∧ plainStep h.two := fun h hh => plain_tables h (by simp [hh])

theorem leaves_3D (c : Ctx K) (T : Tol K Γ) (ps : Point K n) (t : T3 n) (v : K) (L : Corners n) (w : K) :
    LeavesPair c ps (some (optSet (pair3D c T ps t v L w))) (some (left3D c T ps t v L w)) := by
  unfold pair3D left3D
  generalize order3D t [L 0, L 1, L 2] = z
  rcases z with e | _ | ⟨t', _ | ⟨A, _ | ⟨B, _ | ⟨C, _ | ⟨D, M⟩⟩⟩⟩⟩ <;> dsimp only
  · exact leavesPair_error c ps _
  · exact leavesPair_not c ps
  · exact leavesPair_error c ps _
  · exact leavesPair_error c ps _
  · exact leavesPair_error c ps _
  · exact leavesPair_set (leaves_run3D c T ps t' v A B C w)
  · exact leavesPair_error c ps _

theorem leaves_SD (c : Ctx K) (root : K → Option K) (ps : Point K n) (S : List (Fin n)) (v : K) (L : Corners n) (w : K) :
    LeavesPair c ps (some (optSet (pairSD c root ps S v L w))) (some (leftSD c root ps S v L w)) := by
  unfold pairSD leftSD
  rcases chooseCorners S L with _ | ⟨i, j⟩ <;> dsimp only
  · exact leavesPair_not c ps
  · rcases L i with _ | ⟨A, _ | ⟨B, M⟩⟩ <;> rcases L j with _ | ⟨C, _ | ⟨D, M'⟩⟩ <;>
      rcases L (-(i + j)) with _ | ⟨E, _ | ⟨F, M''⟩⟩ <;> dsimp only <;> try exact leavesPair_error c ps _
    exact leavesPair_set (leaves_runSD c root ps A B C D E F v w)

theorem leaves_pairInner (E : PairEnv K Γ) (ps : Point K n) : ∀ (k : ℕ) (s₁ s₂ : String) (x y : Req n K),
    LeavesPair E.c ps (pairInner E ps k s₁ s₂ x y) (leftPair E ps k s₁ s₂ x y) := by
  intro k
  induction k with
  | zero => intro s₁ s₂ x y; exact .none
  | succ k ih =>
    intro s₁ s₂ ⟨x, v⟩ ⟨y, w⟩
    unfold pairInner leftPair
    by_cases hb : (x.blank || y.blank) = true
    · rw [if_pos hb, if_pos hb]; exact leavesPair_same _ _
    rw [if_neg hb, if_neg hb]
    rcases x with ⟨p, a, b⟩ | t | t | A | d | _ <;> rcases y with ⟨q, a', b'⟩ | u | u | B | d' | _ <;> simp only <;>
      first
      | exact leavesPair_same _ _
      | exact leavesPair_not _ _
      | exact ih _ _ _ _
      | exact leavesPair_set (leaves_22 _ _ _ _ _ _ _ _ _ _ _)
      | exact leavesPair_set (leaves_2N _ _ _ _ _ _ _ _ _)
      | exact leavesPair_set (leaves_2S _ _ _ _ _ _ _ _ _)
      | exact leavesPair_hard _ plain_delta _ _ _ _ _ _ _ _
      | exact leavesPair_hard _ plain_strings _ _ _ _ _ _ _ _
      | (rcases cornersOf _ with _ | L
         · exact leavesPair_error _ _ _
         · exact leavesPair_set (leaves_2D _ _ _ _ _ _ _ _ _))
      | (rcases cornersOf _ with _ | L
         · exact leavesPair_error _ _ _
         · exact leaves_3D _ _ _ _ _ _ _)
      | (rcases cornersOf _ with _ | L
         · exact leavesPair_error _ _ _
         · exact leaves_SD _ _ _ _ _ _ _)
      | skip
    · have l33 := leaves_33 E.c E.T E.longer ps t v u w
      rcases hr : pair33 E.c E.T E.longer ps t v u w with _ | r
      · have := leavesText_isSome l33
        rw [hr] at this
        rcases hl : left33 E.c E.T E.longer ps t v u w with _ | l
        · exact ih _ _ _ _
        · rw [hl] at this; cases this
      · obtain ⟨l, hl, hle⟩ := leavesText_of l33 hr
        rw [hl]
        exact leavesPair_set hle
    · refine leavesPair_map (leaves_3S E.c E.T ps t v B w) _ fun qs => ?_
      rcases replaced3S t B with _ | ⟨i, j⟩ <;> rfl
    · have lss := leaves_SS E.c E.T ps A v B w
      rcases hs : stepSS A v B w with ⟨A', v', B', w', p, q⟩ | ⟨C, v', D, w'⟩ <;> dsimp only
      · rcases hr : pairSS E.c E.T ps A v B w with _ | r
        · have := leavesText_isSome lss
          rw [hr] at this
          rcases hl : leftSS E.c E.T ps A v B w with _ | l
          · exact .none
          · rw [hl] at this; cases this
        · obtain ⟨l, hl, hle⟩ := leavesText_of lss hr
          rw [hl]
          exact leavesPair_set hle
      · exact ih _ _ _ _

theorem leavesPair_some {c : Ctx K} {ps l' : Point K n} {r : Option (Except Err (PairOut K n))} {l : Option (Point K n)}
    (h : LeavesPair c ps r l) (hl : l = some l') : ∃ r', r = some r' ∧ LeavesOut c ps r' l' := by
  cases h with
  | none => cases hl
  | some h => injection hl with hl; subst hl; exact ⟨_, rfl, h⟩

theorem leavesPair_of {c : Ctx K} {ps : Point K n} {r : Option (Except Err (PairOut K n))} {r' : Except Err (PairOut K n)}
    {l : Option (Point K n)} (h : LeavesPair c ps r l) (hr : r = some r') : ∃ l', l = some l' ∧ LeavesOut c ps r' l' := by
  cases h with
  | none => cases hr
  | some h => injection hr with hr; subst hr; exact ⟨_, rfl, h⟩

/-! ### Single calls -/

/-- **C124**: a call of `_set_pair` that returns leaves the point it answers. -/
theorem C124_pair_returns (E : PairEnv K Γ) (rest : Point K n → Except Err K) (ps qs : Point K n) (k : ℕ) (s₁ s₂ : String)
    (x y : Req n K) (h : setPair E rest k s₁ s₂ x y ps = some (.ok qs)) : leftPair E ps k s₁ s₂ x y = some qs := by
  unfold setPair at h
  rcases hi : pairInner E ps k s₁ s₂ x y with _ | r
  · rw [hi] at h; cases h
  · rw [hi] at h
    injection h with h
    obtain ⟨l, h1, h2⟩ := leavesPair_of (leaves_pairInner E ps k s₁ s₂ x y) hi
    obtain ⟨hr, -⟩ := setPair_ok h
    rw [h1]
    rcases hr with hr | ⟨i, j, hr⟩
    · rw [h2.ret _ hr]; rfl
    · rw [h2.ret _ hr]; rfl

/-- **C124**: what is left is known whenever it is known whether `_set_pair_inner` returns. -/
theorem C124_pair_known (E : PairEnv K Γ) (ps : Point K n) (k : ℕ) (s₁ s₂ : String) (x y : Req n K) :
    (leftPair E ps k s₁ s₂ x y).isSome = (pairInner E ps k s₁ s₂ x y).isSome := by
  have h := leaves_pairInner E ps k s₁ s₂ x y
  generalize pairInner E ps k s₁ s₂ x y = r at h
  generalize leftPair E ps k s₁ s₂ x y = l at h
  cases h <;> rfl

/-- **C124**: whatever two invariants are set to whatever values, whether `_set_pair` returns or raises: every particle is massless,
consistent and has spinors afterwards. -/
theorem C124_pair_shell (E : PairEnv K Γ) (ps qs : Point K n) (hp : OnShell E.c ps) (k : ℕ) (s₁ s₂ : String) (x y : Req n K)
    (h : leftPair E ps k s₁ s₂ x y = some qs) : OnShell E.c qs := by
  obtain ⟨r, -, l⟩ := leavesPair_some (leaves_pairInner E ps k s₁ s₂ x y) h
  exact l.shell hp

/-- **C124**: a call of `_set_pair` changes at most four particles, whether it returns or raises. -/
theorem C124_pair_frame (E : PairEnv K Γ) (ps qs : Point K n) (k : ℕ) (s₁ s₂ : String) (x y : Req n K)
    (h : leftPair E ps k s₁ s₂ x y = some qs) : ∃ s : List (Fin n), s.length ≤ 4 ∧ ∀ i, i ∉ s → qs i = ps i := by
  obtain ⟨r, -, l⟩ := leavesPair_some (leaves_pairInner E ps k s₁ s₂ x y) h
  exact l.frame

/-- **C124**: a pair that is not implemented changes nothing, although the call raises. -/
theorem C124_pair_not (E : PairEnv K Γ) (rest : Point K n → Except Err K) (ps : Point K n) (k : ℕ) (s₁ s₂ : String) (x y : Req n K)
    (h : pairInner E ps k s₁ s₂ x y = some (.ok .notImplemented)) :
    setPair E rest k s₁ s₂ x y ps = some (.error .exception) ∧ leftPair E ps k s₁ s₂ x y = some ps := by
  obtain ⟨l, h1, h2⟩ := leavesPair_of (leaves_pairInner E ps k s₁ s₂ x y) h
  refine ⟨by unfold setPair; rw [h]; rfl, ?_⟩
  rw [h1, h2.ret _ rfl]; rfl

/-- **C124**, negation of atomicity for pairs: setting ⟨a|b⟩ and ⟨d|e⟩ with four different labels raises when the second component of
the right spinor of `d` is zero; ⟨a|b⟩ is set all the same, nothing else is changed, momentum is no longer conserved. -/
theorem C124_pair_raises (E : PairEnv K Γ) (hT : E.T.abs 0 ≤ E.T.tol) (rest : Point K n → Except Err K) (ps : Point K n)
    (r l : Fin n → V2 K) (h : ∀ k, IsMassless E.c (ps k) (r k) (l k)) (a b d e : Fin n) (hnd : [a, b, d, e].Nodup) (v w : K)
    (ha : r a 1 ≠ 0) (hd : r d 1 = 0) (k : ℕ) (s₁ s₂ : String) :
    setPair E rest (k + 1) s₁ s₂ (.two true a b, v) (.two true d e, w) ps = some (.error .zeroDivision) ∧
    ∃ qs, leftPair E ps (k + 1) s₁ s₂ (.two true a b, v) (.two true d e, w) = some qs ∧ angle (qs a) (qs b) = .ok v ∧
      (∀ i, i ≠ b → qs i = ps i) ∧ (Conserves ps → SpecAngle (r a) (r b) ≠ v → l b ≠ 0 → ¬Conserves qs) := by
  simp only [List.nodup_cons, List.mem_cons, List.not_mem_nil, or_false, not_or] at hnd
  obtain ⟨⟨hab, had, hae⟩, ⟨hbd, hbe⟩, hde, -⟩ := hnd
  obtain ⟨q, e1, hq⟩ := setRd_massless (h b) ![(v - (-r a 0) * r b 1) / r a 1, r b 1]
  have ex : v - -r a 0 * r b 1 = v + r a 0 * r b 1 := by ring
  have hj : jobs22 true a b true d e = .ok (⟨a, b, false⟩, ⟨d, e, false⟩) := by
    unfold jobs22 overlap2
    simp [had, hae, hbd, hbe]
  have sA : setA2 E.c ps a b v false = .ok (Function.update ps b q) := by
    simp only [setA2, (h a).r_u, (h b).r_d, need_some, Matrix.cons_val_zero, Matrix.cons_val_one, pyDiv_ok ha, fixIf, store, e1,
      Out.toExcept]
    rfl
  have an : angle (Function.update ps b q a) (Function.update ps b q b) = .ok v := by
    rw [Function.update_self, Function.update_of_ne hab]
    simp only [angle, (h a).r_u, hq.r_d, dot2, Matrix.cons_val_zero, Matrix.cons_val_one]
    congr 1; field_simp; ring
  have s1 : setTwo E.c E.T true a b v ps = .ok (Function.update ps b q) := by
    simp only [setTwo, setThen, if_true, sA, twoVal, an, sub_self, if_pos hT]
  have ed : Function.update ps b q d = ps d := Function.update_of_ne (Ne.symm hbd) _ _
  have ee : Function.update ps b q e = ps e := Function.update_of_ne (Ne.symm hbe) _ _
  have sB : setA2 E.c (Function.update ps b q) d e w false = .error .zeroDivision := by
    simp only [setA2, ed, ee, (h d).r_u, (h e).r_d, need_some, Matrix.cons_val_zero, Matrix.cons_val_one, hd, pyDiv, if_true]
  have lB : leftA2 E.c (Function.update ps b q) d e w false = Function.update ps b q := by
    simp only [leftA2, ed, ee, (h d).r_u, (h e).r_d, need_some, Matrix.cons_val_zero, Matrix.cons_val_one, hd, pyDiv, if_true]
  have s2 : setTwo E.c E.T true d e w (Function.update ps b q) = .error .zeroDivision := by
    simp only [setTwo, setThen, if_true, sB]
  refine ⟨?_, Function.update ps b q, ?_, an, fun i hi => Function.update_of_ne hi _ _, fun hc hX hl =>
    not_conserves_update h ha (by rw [← ex]; exact hq) hX hl hc⟩
  · simp only [setPair, pairInner, Inv.blank, Bool.or_self, Bool.false_eq_true, if_false, pair22, hj, Job.val, s1, andThen, s2,
      Option.map_some, Except.map, setPairOut]
  · simp only [leftPair, Inv.blank, Bool.or_self, Bool.false_eq_true, if_false, left22, hj, Job.val, s1, stepLeft, s2, leftTwo,
      if_true, lB]

/-! ### Histories with exceptions -/

/-- After one call, whether it returned or raised. -/
noncomputable def Command.after (E : PairEnv K Γ) (rest : Point K n → Except Err K) (k : ℕ) (eq : Particle K → Particle K → Bool)
    (ps : Point K n) : Command K n → Option (Point K n)
  | .set t X fixing mode => leftText E.c ps E.fuel t X fixing mode
  | .pair s₁ s₂ x y => leftPair E ps k s₁ s₂ x y
  | .fix A B axis draw => some (fixMomConsLeft E.c ps A B axis draw)
  | .image r => some (match imageRule eq (anglesForSquares E.c) (List.ofFn ps) r with
    | .ok l => match ofList l with
      | .ok qs => qs
      | .error _ => ps
    | .error _ => ps)
  | .swap => some fun i => anglesForSquares E.c (ps i)

/-- A sequence of calls whose exceptions are caught. -/
noncomputable def afterAll (E : PairEnv K Γ) (rest : Point K n → Except Err K) (k : ℕ) (eq : Particle K → Particle K → Bool) :
    List (Command K n) → Point K n → Option (Point K n)
  | [], ps => some ps
  | a :: as, ps =>
    match a.after E rest k eq ps with
    | some qs => afterAll E rest k eq as qs
    | none => none

theorem C124_step (E : PairEnv K Γ) (rest : Point K n → Except Err K) (k : ℕ) (eq : Particle K → Particle K → Bool)
    (a : Command K n) (ps qs : Point K n) (hp : OnShell E.c ps) (h : a.after E rest k eq ps = some qs) : OnShell E.c qs := by
  cases a with
  | set t X fix mode => exact C124_shell E.c ps qs hp E.fuel t X fix mode h
  | pair s₁ s₂ x y =>
    exact C124_pair_shell E ps qs hp k s₁ s₂ x y h
  | fix A B axis draw =>
    simp only [Command.after, Option.some.injEq] at h
    subst h
    exact (leaves_fixMomCons E.c ps A B axis draw).shell hp
  | image r =>
    simp only [Command.after, Option.some.injEq] at h
    split at h
    · rename_i l hl
      split at h
      · rename_i zs hz
        subst h
        exact (image_keeps hp hl hz).1
      · exact h ▸ hp
    · exact h ▸ hp
  | swap =>
    simp only [Command.after, Option.some.injEq] at h
    subst h
    obtain ⟨r, l, hs⟩ := hp
    exact ⟨l, r, fun k => massless_swap (hs k)⟩

/-- **C124**: a call that returns leaves what it answers. -/
theorem C124_run (E : PairEnv K Γ) (rest : Point K n → Except Err K) (k : ℕ) (eq : Particle K → Particle K → Bool)
    (a : Command K n) (ps qs : Point K n) (h : a.run E rest k eq ps = some (.ok qs)) : a.after E rest k eq ps = some qs := by
  cases a with
  | set t X fix mode => exact C124_returns E.c E.T ps qs E.fuel t X fix mode h
  | pair s₁ s₂ x y => exact C124_pair_returns E rest ps qs k s₁ s₂ x y h
  | fix A B axis draw =>
    simp only [Command.run, Option.some.injEq] at h
    simp only [Command.after, (leaves_fixMomCons E.c ps A B axis draw).ret _ h]
  | image r =>
    simp only [Command.run, Option.some.injEq] at h
    split at h
    · rename_i l hl
      simp only [Command.after, hl, h]
    · cases h
  | swap =>
    simp only [Command.run, Option.some.injEq, Except.ok.injEq] at h
    simp only [Command.after, h]

/-- **C124**: what a call leaves is known whenever it is known what it answers. -/
theorem C124_run_known (E : PairEnv K Γ) (rest : Point K n → Except Err K) (k : ℕ) (eq : Particle K → Particle K → Bool)
    (a : Command K n) (ps : Point K n) (h : (a.run E rest k eq ps).isSome = true) : (a.after E rest k eq ps).isSome = true := by
  cases a with
  | set t X fix mode =>
    simp only [Command.after, C124_known]
    simp only [Command.run, setText] at h
    rcases hi : setInner E.c ps E.fuel t X fix mode with _ | r
    · rw [hi] at h; cases h
    · rfl
  | pair s₁ s₂ x y =>
    simp only [Command.after, C124_pair_known]
    simp only [Command.run, setPair, Option.isSome_map] at h
    exact h
  | fix A B axis draw => rfl
  | image r => rfl
  | swap => rfl

/-- **C124**: after any sequence of calls, exceptions caught or not, every particle is massless, consistent and has spinors. -/
theorem C124_history (E : PairEnv K Γ) (rest : Point K n → Except Err K) (k : ℕ) (eq : Particle K → Particle K → Bool)
    (as : List (Command K n)) (ps qs : Point K n) (hp : OnShell E.c ps) (h : afterAll E rest k eq as ps = some qs) :
    OnShell E.c qs := by
  induction as generalizing ps with
  | nil => injection h with h; exact h ▸ hp
  | cons a as ih =>
    rw [afterAll] at h
    split at h
    · rename_i zs hz
      exact ih zs (C124_step E rest k eq a ps zs hp hz) h
    · cases h

/-- **C124**: whatever was raised before, a call of `fix_mom_cons(A, B)` that returns repairs the point. -/
theorem C124_recover (E : PairEnv K Γ) (rest : Point K n → Except Err K) (k : ℕ) (eq : Particle K → Particle K → Bool)
    (as : List (Command K n)) (ps zs qs : Point K n) (hp : OnShell E.c ps) (h : afterAll E rest k eq as ps = some zs)
    (A B axis : ℕ) (hA : A ≠ 0) (hB : B ≠ 0) (draw : ℕ × ℕ) (hf : fixMomCons E.c zs A B false axis draw = .ok qs) :
    GoodPoint E.c qs := by
  have hz := C124_history E rest k eq as ps zs hp h
  let Z : Tol K ℕ := ⟨fun x => by classical exact if x = 0 then 0 else 1, 0⟩
  obtain ⟨h1, h2⟩ := fixMomCons_keeps (T := Z) (by simp [Z]) hz hf
  refine ⟨fun i j => ?_, h1⟩
  have := h2 (.inl ⟨hA, hB⟩) i j
  by_contra hne
  simp [Z, hne] at this

end Lips

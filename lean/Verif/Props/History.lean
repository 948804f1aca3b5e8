import Verif.Lemmas.SetKeeps
import Verif.Model.Image
import Verif.Props.PairAll
import Verif.Props.SetText
import Verif.Props.Relabel
import Verif.Lemmas.Heap

/-! Property C123: no setter leaves the mass shell, and any history of calls keeps a point good. -/

namespace Lips

open Matrix

set_option linter.unusedSectionVars false
set_option linter.unusedTactic false
set_option linter.unusedVariables false

variable {K Γ : Type*} [Field K] [NeZero (2 : K)] [LinearOrder Γ] {n : ℕ}

/-- The total momentum is within tolerance of zero. -/
def Nearly (T : Tol K Γ) (ps : Point K n) : Prop := ∀ i j, T.abs (∑ k, (ps k).r2 i j) ≤ T.tol

/-! ### Pairs -/

/-- The same for what `_set_pair_inner` answers. -/
def KeepsPair (c : Ctx K) (r : Option (Except Err (PairOut K n))) : Prop :=
  ∀ o, r = some (.ok o) → match o with
    | .set ps => OnShell c ps
    | .notImplemented => True
    | .replaced ps _ _ => OnShell c ps

theorem keepsPair_set {c : Ctx K} {r : Except Err (Point K n)} (h : Keeps c r) : KeepsPair c (some (r.map .set)) := by
  rcases r with e | ps
  · intro o e; cases e
  · intro o e; injection e with e; injection e with e; subst e; exact h _ rfl

theorem keepsPair_replaced {c : Ctx K} {r : Except Err (Point K n)} (h : Keeps c r) (i j : Inv n) :
    KeepsPair c (some (r.map fun qs => .replaced qs i j)) := by
  rcases r with e | ps
  · intro o e; cases e
  · intro o e; injection e with e; injection e with e; subst e; exact h _ rfl

theorem keepsPair_not (c : Ctx K) : KeepsPair c (some (.ok .notImplemented) : Option (Except Err (PairOut K n))) := by
  intro o e; injection e with e; injection e with e; subst e; trivial

theorem keepsPair_error (c : Ctx K) (e : Err) : KeepsPair c (some (.error e) : Option (Except Err (PairOut K n))) := by
  intro o e; cases e

theorem keepsPair_opt {c : Ctx K} {r : Option (Except Err (Point K n))} (h : KeepsText c r) : KeepsPair c (some (optSet r)) := by
  rcases r with _ | r
  · exact keepsPair_not c
  · exact keepsPair_set (h _ rfl)

theorem keepsPair_hard {c : Ctx K} {ps : Point K n} (h : OnShell c ps) (table : List HardPair) (T : Tol K Γ) (fuel : ℕ)
    (s₁ s₂ : String) (v w : K) : KeepsPair c (tableSet (pairHard table T.abs T.tol c fuel ps s₁ v s₂ w)) := by
  unfold pairHard
  split
  · exact keepsPair_not c
  · rename_i z _
    have k := keeps_hardPair h T.abs T.tol fuel z v w
    rcases hz : z.run T.abs T.tol c fuel v w ps with _ | (e | qs)
    · intro o e; cases e
    · intro o e; cases e
    · intro o e
      injection e with e; injection e with e; subst e
      exact k _ hz _ rfl

theorem keeps_pairInner {E : PairEnv K Γ} {ps : Point K n} (h : OnShell E.c ps) : ∀ (k : ℕ) (s₁ s₂ : String) (x y : Req n K),
    KeepsPair E.c (pairInner E ps k s₁ s₂ x y) := by
  intro k
  induction k with
  | zero => intro s₁ s₂ x y o e; cases e
  | succ k ih =>
    intro s₁ s₂ ⟨x, v⟩ ⟨y, w⟩
    have same : KeepsPair E.c (some (.ok (.set ps))) := by
      intro o e; injection e with e; injection e with e; subst e; exact h
    unfold pairInner
    by_cases hb : (x.blank || y.blank) = true
    · rw [if_pos hb]; exact same
    rw [if_neg hb]
    rcases x with ⟨p, a, b⟩ | t | t | A | d | _ <;> rcases y with ⟨q, a', b'⟩ | u | u | B | d' | _ <;> simp only <;>
      first
      | exact same
      | exact keepsPair_not _
      | exact ih _ _ _ _
      | exact keepsPair_set (keeps_pair22 h _ _ _ _ _ _ _ _ _)
      | exact keepsPair_set (keeps_pair2N h _ _ _ _ _ _ _)
      | exact keepsPair_set (keeps_pair2S h _ _ _ _ _ _ _)
      | exact keepsPair_hard h _ _ _ _ _ _ _
      | (split
         · exact keepsPair_set (keeps_pair2D h _ _ _ _ _ _ _)
         · exact keepsPair_error _ _)
      | (split
         · exact keepsPair_opt (keeps_pair3D h _ _ _ _ _)
         · exact keepsPair_error _ _)
      | (split
         · exact keepsPair_opt (keeps_pairSD h _ _ _ _ _)
         · exact keepsPair_error _ _)
      | skip
    · have k33 := keeps_pair33 h E.T E.longer t v u w
      split
      · rename_i r e
        exact keepsPair_set (k33 _ e)
      · exact ih _ _ _ _
    · rcases replaced3S t B with _ | ⟨i, j⟩
      · exact keepsPair_set (keeps_pair3S h _ _ _ _ _)
      · exact keepsPair_replaced (keeps_pair3S h _ _ _ _ _) _ _
    · have kss := keeps_pairSS h E.T A v B w
      split
      · exact ih _ _ _ _
      · split
        · rename_i r e
          exact keepsPair_set (kss _ e)
        · intro o e; cases e

/-- What `_set_pair` returns passed the checks. -/
theorem setPair_ok {E : PairEnv K Γ} {rest : Point K n → Except Err K} {x y : Req n K} {r : Except Err (PairOut K n)}
    {qs : Point K n} (h : setPairOut E rest x y r = .ok qs) :
    (r = .ok (.set qs) ∨ ∃ i j, r = .ok (.replaced qs i j)) ∧ pointCheck E.T qs = none := by
  have fin : ∀ (i j : Inv n) (ps : Point K n), setPairOut.finish E rest x y i j ps = .ok qs → ps = qs ∧ pointCheck E.T ps = none := by
    intro i j ps h
    unfold setPairOut.finish at h
    split at h
    · cases h
    · cases h
    · split at h
      · cases h
      · rename_i e
        split at h
        · injection h with h; exact ⟨h, e⟩
        · cases h
  rcases r with e | (ps | _ | ⟨ps, i, j⟩)
  · cases h
  · obtain ⟨rfl, h2⟩ := fin _ _ _ h; exact ⟨.inl rfl, h2⟩
  · cases h
  · obtain ⟨rfl, h2⟩ := fin _ _ _ h; exact ⟨.inr ⟨i, j, rfl⟩, h2⟩

/-! ### Single calls -/

/-- **C123**: whatever text is set to whatever value, in whatever mode, with or without momentum fixing: if `_set`
returns, every particle is still massless, consistent and has spinors. -/
theorem C123_set (c : Ctx K) (T : Tol K Γ) (ps qs : Point K n) (hp : OnShell c ps) (fuel : ℕ) (t : List Char) (X : K)
    (fix : Bool) (mode : ℕ) (h : setText T.abs T.tol c ps fuel t X fix mode = some (.ok qs)) :
    OnShell c qs ∧ (fix = true → Nearly T qs) := by
  refine ⟨keeps_setText hp T.abs T.tol fuel t X fix mode _ h _ rfl, fun hf => ?_⟩
  obtain ⟨v, -, -, h3⟩ := C93_returns T.abs T.tol c ps fuel t X fix mode qs h
  exact (h3 hf).1

/-- **C123**: likewise for `_set_pair`, for all pairs of invariants; the total momentum is within tolerance of zero. -/
theorem C123_pair (E : PairEnv K Γ) (rest : Point K n → Except Err K) (k : ℕ) (s₁ s₂ : String) (x y : Req n K)
    (ps qs : Point K n) (hp : OnShell E.c ps) (h : setPair E rest k s₁ s₂ x y ps = some (.ok qs)) :
    OnShell E.c qs ∧ Nearly E.T qs := by
  unfold setPair at h
  rcases hi : pairInner E ps k s₁ s₂ x y with _ | r
  · rw [hi] at h; cases h
  · rw [hi] at h
    simp only [Option.map_some, Option.some.injEq] at h
    have kp := keeps_pairInner hp k s₁ s₂ x y
    obtain ⟨hr, hc⟩ := setPair_ok h
    refine ⟨?_, (checkPoint_spec hc).1⟩
    rcases hr with hr | ⟨i, j, hr⟩
    · subst hr; exact kp _ hi
    · subst hr; exact kp _ hi

/-- **C123**: without the checks of `_set_pair` the point is on the mass shell already. -/
theorem C123_pair_inner (E : PairEnv K Γ) (k : ℕ) (s₁ s₂ : String) (x y : Req n K) (ps qs : Point K n)
    (hp : OnShell E.c ps) (h : pairInner E ps k s₁ s₂ x y = some (.ok (.set qs))) : OnShell E.c qs :=
  keeps_pairInner hp k s₁ s₂ x y _ h

/-! ### Histories -/

/-- A list of particles as a point. -/
def ofList (l : List (Particle K)) : Except Err (Point K n) :=
  if h : l.length = n then .ok fun i => l[i] else .error .exception

/-- Calls of public methods that change a point or replace it. -/
inductive Command (K : Type*) (n : ℕ) where
  /-- `_set(t, X, fix_mom=fixing, mode=mode)` -/
  | set (t : List Char) (X : K) (fixing : Bool) (mode : ℕ)
  /-- `_set_pair(s₁, v, s₂, w)` -/
  | pair (s₁ s₂ : String) (x y : Req n K)
  /-- `fix_mom_cons(A, B, axis=axis)` -/
  | fix (A B axis : ℕ) (draw : ℕ × ℕ)
  /-- `oParticles = oParticles.image(rule)` -/
  | image (rule : List Char × Bool)
  /-- `angles_for_squares()` of the point -/
  | swap

/-- One call. -/
noncomputable def Command.run (E : PairEnv K Γ) (rest : Point K n → Except Err K) (k : ℕ) (eq : Particle K → Particle K → Bool)
    (ps : Point K n) : Command K n → Option (Except Err (Point K n))
  | .set t X fixing mode => setText E.T.abs E.T.tol E.c ps E.fuel t X fixing mode
  | .pair s₁ s₂ x y => setPair E rest k s₁ s₂ x y ps
  | .fix A B axis draw => some (fixMomCons E.c ps A B false axis draw)
  | .image r => some (match imageRule eq (anglesForSquares E.c) (List.ofFn ps) r with
    | .ok l => ofList l
    | .error e => .error e)
  | .swap => some (.ok fun i => anglesForSquares E.c (ps i))

/-- A sequence of calls, up to the first that does not return. -/
noncomputable def runAll (E : PairEnv K Γ) (rest : Point K n → Except Err K) (k : ℕ) (eq : Particle K → Particle K → Bool) :
    List (Command K n) → Point K n → Option (Except Err (Point K n))
  | [], ps => some (.ok ps)
  | a :: as, ps =>
    match a.run E rest k eq ps with
    | some (.ok qs) => runAll E rest k eq as qs
    | z => z

/-- Whether momentum is conserved after a call, given whether it was before: setting with momentum fixing and fixing of two
particles restore it, setting without fixing may break it. -/
def Command.conserved (before : Prop) : Command K n → Prop
  | .set _ _ fixing _ => fixing = true
  | .pair .. => True
  | .fix A B _ draw => (A ≠ 0 ∧ B ≠ 0) ∨ (A = 0 ∧ B = 0 ∧ draw.1 ≠ 0 ∧ draw.2 ≠ 0) ∨ before
  | .image _ => before
  | .swap => before

theorem onShell_iff (c : Ctx K) (ps : Point K n) : OnShell c ps ↔ ∀ k, ∃ r l, IsMassless c (ps k) r l := by
  constructor
  · rintro ⟨r, l, h⟩ k; exact ⟨_, _, h k⟩
  · intro h
    choose r l h using h
    exact ⟨r, l, h⟩

theorem massless_swap {c : Ctx K} {p : Particle K} {r l : V2 K} (h : IsMassless c p r l) :
    IsMassless c (anglesForSquares c p) l r := by
  have ca := C01_op_consistent c p .swap h.cons rfl
  have e := swap_spinors c p
  rw [h.r_d, h.l_d] at e
  injection e with e1 e2
  refine ⟨⟨ca, e1, e2⟩, ?_⟩
  have hm := h.massless
  unfold Massless at hm ⊢
  rw [(swapped_r2 c p).1]
  simp only [transpose_apply]
  rw [mul_comm (p.r2 1 0)]
  exact hm

theorem imageKeys_snd {α : Type*} (eq : α → α → Bool) (l : List α) (p : List Char) : ∀ (xs : List α) (ks : List (Char × α)),
    imageKeys eq l p xs = some ks → ks.map Prod.snd = xs := by
  intro xs
  induction xs with
  | nil => intro ks h; cases h; rfl
  | cons x xs ih =>
    intro ks h
    rw [imageKeys] at h
    split at h
    · rename_i ch r _ hr
      injection h with h; subst h
      simp [ih _ hr]
    · cases h

/-- Whatever the string, the image is the same particles in some order. -/
theorem imageStr_perm {α : Type*} {eq : α → α → Bool} {l m : List α} {p : List Char} (h : imageStr eq l p = .ok m) : m.Perm l := by
  unfold imageStr at h
  split at h
  · split at h
    · rename_i ks hk
      injection h with h; subst h
      have := (List.mergeSort_perm ks (fun a b => decide (a.1 ≤ b.1))).map Prod.snd
      rwa [imageKeys_snd _ _ _ _ _ hk] at this
    · cases h
  · cases h

theorem sum_ofFn (ps : Point K n) (i j : Fin 2) : ∑ k, (ps k).r2 i j = ((List.ofFn ps).map fun p => p.r2 i j).sum := by
  rw [List.map_ofFn, List.sum_ofFn]; rfl

theorem onShell_list (c : Ctx K) (ps : Point K n) : OnShell c ps ↔ ∀ p ∈ List.ofFn ps, ∃ r l, IsMassless c p r l := by
  rw [onShell_iff]
  constructor
  · intro h p hp
    obtain ⟨k, rfl⟩ := List.mem_ofFn.mp hp
    exact h k
  · intro h k; exact h _ (List.mem_ofFn.mpr ⟨k, rfl⟩)

theorem ofList_ofFn {l : List (Particle K)} {qs : Point K n} (h : ofList l = .ok qs) : List.ofFn qs = l := by
  unfold ofList at h
  split at h
  · rename_i hl
    injection h with h; subst h
    subst hl
    exact List.ofFn_getElem
  · cases h

theorem swap_sum (c : Ctx K) (l : List (Particle K)) (i j : Fin 2) :
    ((l.map (anglesForSquares c)).map fun p => p.r2 i j).sum = (l.map fun p => p.r2 j i).sum := by
  rw [List.map_map]
  congr 1
  apply List.map_congr_left
  intro p _
  simp [(swapped_r2 c p).1]

theorem image_keeps {E : PairEnv K Γ} {ps qs : Point K n} {eq : Particle K → Particle K → Bool} {r : List Char × Bool}
    (hp : OnShell E.c ps) {l : List (Particle K)} (hl : imageRule eq (anglesForSquares E.c) (List.ofFn ps) r = .ok l)
    (h : ofList l = .ok qs) : OnShell E.c qs ∧ (Nearly E.T ps → Nearly E.T qs) := by
  have e := ofList_ofFn h
  unfold imageRule at hl
  split at hl
  · rename_i m hm
    have pm := imageStr_perm hm
    rw [onShell_list] at hp
    have hm' : ∀ p ∈ m, ∃ r l, IsMassless E.c p r l := fun p h => hp p (pm.mem_iff.mp h)
    injection hl with hl
    rw [onShell_list, e, ← hl]
    refine ⟨?_, ?_⟩
    · split
      · intro p hq
        obtain ⟨p', h1, rfl⟩ := List.mem_map.mp hq
        obtain ⟨r, l, h2⟩ := hm' p' h1
        exact ⟨l, r, massless_swap h2⟩
      · exact hm'
    · intro hn i j
      rw [sum_ofFn, e, ← hl]
      split
      · rw [swap_sum, (pm.map _).sum_eq, ← sum_ofFn]
        exact hn j i
      · rw [(pm.map _).sum_eq, ← sum_ofFn]
        exact hn i j
  · cases hl

theorem fixMomCons_keeps {c : Ctx K} {T : Tol K Γ} (hT : T.abs 0 ≤ T.tol) {ps qs : Point K n} (hp : OnShell c ps) {A B axis : ℕ} {draw : ℕ × ℕ}
    (h : fixMomCons c ps A B false axis draw = .ok qs) :
    OnShell c qs ∧ (((A ≠ 0 ∧ B ≠ 0) ∨ (A = 0 ∧ B = 0 ∧ draw.1 ≠ 0 ∧ draw.2 ≠ 0) ∨ Nearly T ps) → Nearly T qs) := by
  have near : ∀ {z : Point K n}, Conserves z → Nearly T z := fun hc i j => by rw [hc i j]; exact hT
  have pick : ∀ {a b : Fin n}, (if axis = 1 then fixAxis1 c ps a b else fixAxis2 c ps a b) = .ok qs → OnShell c qs ∧ Nearly T qs := by
    intro a b h
    split at h
    · exact ⟨(fix1_good hp h).1, near (fix1_good hp h).2⟩
    · exact ⟨(fix2_good hp h).1, near (fix2_good hp h).2⟩
  unfold fixMomCons at h
  simp only [Bool.false_eq_true, and_false, if_false] at h
  split at h
  · rename_i h0
    split at h
    · split at h
      · exact ⟨(pick h).1, fun _ => (pick h).2⟩
      · cases h
    · rename_i h1
      injection h with h; subst h
      refine ⟨hp, ?_⟩
      rintro (h2 | h2 | h2)
      · exact absurd h0.1 h2.1
      · exact absurd h2.2.2 h1
      · exact h2
  · rename_i h0
    split at h
    · split at h
      · exact ⟨(pick h).1, fun _ => (pick h).2⟩
      · cases h
    · rename_i h1
      injection h with h; subst h
      refine ⟨hp, ?_⟩
      rintro (h2 | h2 | h2)
      · exact absurd h2 h1
      · exact absurd ⟨h2.1, h2.2.1⟩ h0
      · exact h2

/-- One call. -/
theorem C123_step (E : PairEnv K Γ) (hT : E.T.abs 0 ≤ E.T.tol) (rest : Point K n → Except Err K) (k : ℕ)
    (eq : Particle K → Particle K → Bool) (a : Command K n) (ps qs : Point K n) (hp : OnShell E.c ps)
    (h : a.run E rest k eq ps = some (.ok qs)) :
    OnShell E.c qs ∧ (a.conserved (Nearly E.T ps) → Nearly E.T qs) := by
  cases a with
  | set t X fix mode => exact C123_set E.c E.T ps qs hp E.fuel t X fix mode h
  | pair s₁ s₂ x y =>
    have := C123_pair E rest k s₁ s₂ x y ps qs hp h
    exact ⟨this.1, fun _ => this.2⟩
  | fix A B axis draw =>
    rw [Command.run] at h
    injection h with h
    exact fixMomCons_keeps hT hp h
  | image r =>
    rw [Command.run] at h
    injection h with h
    rcases hl : imageRule eq (anglesForSquares E.c) (List.ofFn ps) r with e | l
    · rw [hl] at h; cases h
    · rw [hl] at h
      exact image_keeps hp hl h
  | swap =>
    rw [Command.run] at h
    injection h with h; injection h with h; subst h
    obtain ⟨r, l, hs⟩ := hp
    refine ⟨⟨l, r, fun k => massless_swap (hs k)⟩, fun hn i j => ?_⟩
    simp only [(swapped_r2 E.c _).1, transpose_apply]
    exact hn j i

/-- Whether momentum is conserved after a history. -/
def conservedAfter : List (Command K n) → Prop → Prop
  | [], b => b
  | a :: as, b => conservedAfter as (a.conserved b)

/-- **C123**: after any history of calls that all return, every particle is massless, consistent and has spinors; momentum is
conserved within tolerance unless a value was set without momentum fixing and momentum was not fixed since. -/
theorem C123_history (E : PairEnv K Γ) (hT : E.T.abs 0 ≤ E.T.tol) (rest : Point K n → Except Err K) (k : ℕ)
    (eq : Particle K → Particle K → Bool) (as : List (Command K n)) (ps qs : Point K n) (hp : OnShell E.c ps)
    (h : runAll E rest k eq as ps = some (.ok qs)) :
    OnShell E.c qs ∧ (conservedAfter as (Nearly E.T ps) → Nearly E.T qs) := by
  have mono : ∀ (a : Command K n) (b b' : Prop), (b → b') → a.conserved b → a.conserved b' := by
    intro a b b' hb
    cases a <;> simp only [Command.conserved]
    · exact id
    · exact id
    · exact fun h => h.imp_right fun h => h.imp_right hb
    · exact hb
    · exact hb
  have monoAll : ∀ (as : List (Command K n)) (b b' : Prop), (b → b') → conservedAfter as b → conservedAfter as b' := by
    intro as
    induction as with
    | nil => exact fun b b' h => h
    | cons a as ih => exact fun b b' h => ih _ _ (mono a b b' h)
  induction as generalizing ps with
  | nil =>
    rw [runAll] at h
    injection h with h; injection h with h; subst h
    exact ⟨hp, id⟩
  | cons a as ih =>
    rw [runAll] at h
    split at h
    · rename_i zs hz
      obtain ⟨h1, h2⟩ := C123_step E hT rest k eq a ps zs hp hz
      obtain ⟨h3, h4⟩ := ih zs h1 h
      exact ⟨h3, fun hc => h4 (monoAll as _ _ h2 hc)⟩
    · rename_i hne
      exact absurd h (hne _)

/-- **C123**: over exact fields (only zero is within tolerance) a history of calls with momentum fixing leads from good points
to good points. -/
theorem C123_good (E : PairEnv K Γ) (hT : ∀ x, E.T.abs x ≤ E.T.tol ↔ x = 0) (rest : Point K n → Except Err K) (k : ℕ)
    (eq : Particle K → Particle K → Bool) (as : List (Command K n)) (ps qs : Point K n) (hp : GoodPoint E.c ps)
    (hc : conservedAfter as True) (h : runAll E rest k eq as ps = some (.ok qs)) : GoodPoint E.c qs := by
  have hps : Nearly E.T ps := fun i j => (hT _).mpr (hp.1 i j)
  obtain ⟨h1, h2⟩ := C123_history E ((hT 0).mpr rfl) rest k eq as ps qs hp.2 h
  refine ⟨fun i j => (hT _).mp (h2 ?_ i j), h1⟩
  rwa [eq_true hps]

end Lips

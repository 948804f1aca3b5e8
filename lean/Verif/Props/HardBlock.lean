import Verif.Model.HardBlock
import Verif.Props.Check
import Verif.Props.Solve
import Verif.Props.InvariantsUsable

/-!
C117: which hard-coded strings are added at six points.
-/

namespace Lips

variable {K Γ I : Type*} [Field K] [LinearOrder Γ] {n : ℕ}

/-- A point at which `t` has the value asked for, momentum is conserved and all particles are on shell, within the tolerance. -/
def Limit (E : Env K Γ I n) (v : K) (t : I) (ps : Point K n) : Prop :=
  (∃ x, E.compute ps t = .ok x ∧ E.abs (x - v) ≤ E.tol) ∧ SpecPoint E.abs E.tol ps

/-- `u` vanishes there, up to the threshold of the check. -/
def SmallAt (E : Env K Γ I n) (thr : Γ) (ps : Point K n) (u : I) : Prop := ∃ y, E.compute ps u = .ok y ∧ E.abs y ≤ thr

omit [LinearOrder Γ] in
/-- The texts without value make the check raise. -/
theorem valuesOf_all {val : I → Except Err Γ} {bad : Γ → Bool} : ∀ {l : List I} {vs : List (Γ × I)},
    valuesOf val bad true l = .ok vs → ∀ i ∈ l, ∃ v, val i = .ok v := by
  intro l
  induction l with
  | nil => simp
  | cons i is ih =>
    intro vs h
    unfold valuesOf at h
    rcases hv : val i with e | v
    · rw [hv] at h; simp at h
    rw [hv] at h
    simp only [Bool.not_true, Bool.and_false, Bool.false_eq_true, if_false] at h
    rcases hr : valuesOf val bad true is with l | _ | e
    · rw [List.forall_mem_cons]; exact ⟨⟨v, hv⟩, ih hr⟩
    · rw [hr] at h; simp at h
    · rw [hr] at h; simp at h

omit [LinearOrder Γ] in
theorem valuesOf_silent {val : I → Except Err Γ} {bad : Γ → Bool} {l : List I} : valuesOf val bad true l ≠ .stop := by
  induction l with
  | nil => simp [valuesOf]
  | cons i is ih =>
    unfold valuesOf
    rcases val i with e | v
    · simp
    simp only [Bool.not_true, Bool.and_false, Bool.false_eq_true, if_false]
    rcases hr : valuesOf val bad true is with l | _ | e
    · simp
    · exact absurd hr ih
    · simp

theorem consistencyCheck_mono {V : Type*} {le gt : V → V → Bool} {thr invThr : V} {val : I → Except Err V} {bad : V → Bool} {silent mc os : Bool}
    {dflt caller : List I} {k : ℕ} {o : List I × Except Err (CheckResult I)} (j : ℕ)
    (h : consistencyCheck le gt thr invThr val bad silent mc os dflt k caller = some o) :
    consistencyCheck le gt thr invThr val bad silent mc os dflt (k + j) caller = some o := by
  unfold consistencyCheck at h ⊢
  dsimp only at h ⊢
  generalize valuesOf val bad silent (if caller.isEmpty then dflt else caller) = w at h ⊢
  rcases w with vs | _ | e
  · dsimp only at h ⊢
    rcases hb : bubbleSort gt k vs with _ | ws
    · rw [hb] at h; cases h
    · rw [hb] at h
      rw [bubbleSort_mono gt _ _ _ j hb]
      exact h
  · exact h
  · exact h

/-- One round: `_set` reached the limit at some point, and the string is added exactly if nothing listed is small there. -/
theorem hardTry_ok {E : Env K Γ I n} {thr invThr : Γ} {v : K} {inner : I → Solver K n Unit} {dflt full : List I} (hne : full ≠ [])
    {fuel : ℕ} {t : I} {ps : Point K n} {b : Bool} (h : hardTry E thr invThr v inner dflt full fuel t ps = some (.ok b)) :
    ∃ ps', (setChecked E (inner t) t v true ps = (.ok (), ps')) ∧ Limit E v t ps' ∧ (∀ u ∈ full, ∃ y, E.compute ps' u = .ok y) ∧
      (b = true ↔ ∀ u ∈ full, ¬ SmallAt E thr ps' u) := by
  unfold hardTry at h
  rcases hs : setChecked E (inner t) t v true ps with ⟨_ | _, p⟩ <;> rw [hs] at h <;> simp only at h
  · cases h
  obtain ⟨hv, hp⟩ := C68_set E (inner t) t v true ps p hs
  have hp := hp rfl
  refine ⟨p, rfl, ⟨hv, hp⟩, ?_⟩
  have hn : n ≠ 0 := by
    rintro rfl
    rw [(C49_momentum_conservation_check E.abs E.tol p).1.2 hp.1] at h
    simp [onshellRelationCheck, withinTol, pyMax] at h
  have hm := (C49_momentum_conservation_check E.abs E.tol p).1.2 hp.1
  have ho : onshellRelationCheck E.abs E.tol p = .ok true :=
    (withinTol_iff E.abs E.tol _ (by simp [hn])).1.2 (by simpa [List.mem_ofFn] using hp.2)
  rw [hm, ho] at h
  simp only at h
  set val : I → Except Err Γ := fun u => (E.compute p u).map E.abs with hval
  rcases hc : consistencyCheck (fun a b : Γ => decide (a ≤ b)) (fun a b => decide (b < a)) thr invThr val (fun _ => false) true true true dflt fuel full
    with _ | ⟨l, e | r⟩
  · rw [hc] at h; cases h
  · rw [hc] at h; cases h
  rw [hc] at h
  have hall : ∀ i ∈ full, ∃ w, val i = .ok w := by
    unfold consistencyCheck at hc
    rw [if_neg (by simpa using hne)] at hc
    dsimp only at hc
    rcases hw : valuesOf val (fun _ => false) true full with vs | _ | e
    · exact valuesOf_all hw
    · exact absurd hw valuesOf_silent
    · rw [hw] at hc; cases hc
  have : Nonempty Γ := ⟨thr⟩
  choose! w hw using hall
  obtain ⟨k, r', hr, h1, h2, h3, -⟩ := C48_outliers (fun a b : Γ => decide (a ≤ b)) (fun a b => decide (b < a)) (fun a b c => by simpa using le_trans)
    (fun a b => by simp [le_total]) (fun a b => by rw [← decide_not]; exact decide_eq_decide.2 not_le.symm) thr invThr val w (fun _ => false) true true true dflt full hne hw (by simp)
  have e := consistencyCheck_mono k hc
  rw [Nat.add_comm, hr fuel] at e
  obtain rfl : r' = r := by cases e; rfl
  have hy : ∀ u ∈ full, ∃ y, E.compute p u = .ok y ∧ E.abs y = w u := by
    intro u hu
    have := hw u hu
    rw [hval] at this
    dsimp only at this
    rcases hx : E.compute p u with e | y
    · rw [hx] at this; cases this
    · rw [hx] at this; exact ⟨y, rfl, Except.ok.inj this⟩
  refine ⟨fun u hu => (hy u hu).imp fun _ h => h.1, ?_⟩
  obtain rfl : (r'.mom_cons && r'.on_shell && r'.small.isEmpty) = b := by
    injection h with h
    injection h
  rw [h1, h2, Bool.true_and, Bool.true_and, List.isEmpty_iff, ← List.length_eq_zero_iff, h3.length_eq, List.length_eq_zero_iff, List.filter_eq_nil_iff]
  refine forall₂_congr fun u hu => not_congr ?_
  obtain ⟨y, e1, e2⟩ := hy u hu
  rw [decide_eq_true_iff, ← e2]
  exact ⟨fun h => ⟨y, e1, h⟩, fun ⟨y', h1, h2⟩ => by rw [e1] at h1; cases h1; exact h2⟩

/-- C117: whatever the random points, the strings that are added are some of those tried, in their order. Each string has a random point of its own. It is added if and
only if, at the point at which `_set` gave it the value asked for, no listed invariant is small; this point conserves momentum, and the particles are on shell. -/
theorem C117_added {E : Env K Γ I n} {thr invThr : Γ} {v : K} {draw : ℕ → Except Err (Point K n)} {inner : I → Solver K n Unit} {dflt full : List I}
    (hne : full ≠ []) {fuel : ℕ} : ∀ {ts : List I} {i : ℕ} {l : List I}, hardBlock E thr invThr v draw inner dflt full fuel i ts = some (.ok l) →
    l.Sublist ts ∧ (ts.Nodup → ∀ t ∈ ts, ∃ ps ps', (∃ j, ts[j]? = some t ∧ draw (i + j) = .ok ps) ∧ setChecked E (inner t) t v true ps = (.ok (), ps') ∧ Limit E v t ps' ∧
      (∀ u ∈ full, ∃ y, E.compute ps' u = .ok y) ∧ (t ∈ l ↔ ∀ u ∈ full, ¬ SmallAt E thr ps' u)) := by
  intro ts
  induction ts with
  | nil =>
    intro i l h
    obtain rfl : [] = l := Except.ok.inj (Option.some.inj h)
    exact ⟨.refl _, by simp⟩
  | cons t ts ih =>
    intro i l h
    unfold hardBlock at h
    rcases hd : draw i with e | ps
    · rw [hd] at h; cases h
    rw [hd] at h
    dsimp only at h
    rcases ht : hardTry E thr invThr v inner dflt full fuel t ps with _ | e | b
    · rw [ht] at h; cases h
    · rw [ht] at h; cases h
    rw [ht] at h
    dsimp only at h
    rcases hb : hardBlock E thr invThr v draw inner dflt full fuel (i + 1) ts with _ | e | l'
    · rw [hb] at h; cases h
    · rw [hb] at h; cases h
    rw [hb] at h
    obtain ⟨hs, hm⟩ := ih hb
    obtain rfl : (if b = true then t :: l' else l') = l := Except.ok.inj (Option.some.inj h)
    refine ⟨?_, fun hn => ?_⟩
    · split
      · exact hs.cons_cons t
      · exact hs.cons t
    rw [List.nodup_cons] at hn
    rw [List.forall_mem_cons]
    refine ⟨?_, fun u hu => ?_⟩
    · obtain ⟨ps', h1, h2, h3, h4⟩ := hardTry_ok hne ht
      refine ⟨ps, ps', ⟨0, rfl, hd⟩, h1, h2, h3, ?_⟩
      rw [← h4]
      have : t ∉ l' := fun h => hn.1 (hs.subset h)
      cases b <;> simp [this]
    · obtain ⟨q, q', ⟨j, h0, h1⟩, h2, h3, h4, h5⟩ := hm hn.2 u hu
      refine ⟨q, q', ⟨j + 1, h0, by rw [← h1, Nat.add_right_comm, Nat.add_assoc]⟩, h2, h3, h4, ?_⟩
      rw [← h5]
      have : u ≠ t := fun e => hn.1 (e ▸ hu)
      split <;> simp [this]

/-- C117: the loop ends: there is a number of passes from which on more passes make no difference. -/
theorem C117_ends (E : Env K Γ I n) (thr invThr : Γ) (v : K) (draw : ℕ → Except Err (Point K n)) (inner : I → Solver K n Unit) (dflt full : List I)
    (ts : List I) (i : ℕ) : ∃ o k, ∀ j, hardBlock E thr invThr v draw inner dflt full (k + j) i ts = some o := by
  have try_ends : ∀ t ps, ∃ o k, ∀ j, hardTry E thr invThr v inner dflt full (k + j) t ps = some o := by
    intro t ps
    unfold hardTry
    rcases setChecked E (inner t) t v true ps with ⟨e | _, p⟩
    · exact ⟨.error e, 0, fun _ => rfl⟩
    dsimp only
    rcases momentumConservationCheck E.abs E.tol p with e | mc
    · exact ⟨.error e, 0, fun _ => rfl⟩
    rcases onshellRelationCheck E.abs E.tol p with e | os
    · exact ⟨.error e, 0, fun _ => rfl⟩
    dsimp only
    obtain ⟨k, hk⟩ := C48_terminates (fun a b : Γ => decide (a ≤ b)) (fun a b => decide (b < a)) (fun a b h => by
      simp only [decide_eq_true_eq, decide_eq_false_iff_not, not_lt] at h ⊢; exact h.le) thr invThr
      (fun u => (E.compute p u).map E.abs) (fun _ => false) true mc os dflt full
    obtain ⟨⟨l, o⟩, ho⟩ := Option.isSome_iff_exists.1 (hk 0)
    have hj := fun j => consistencyCheck_mono j ho
    rcases o with e | r
    · exact ⟨.error e, k, fun j => by rw [show k + j = k + 0 + j by omega, hj j]⟩
    · exact ⟨.ok (r.mom_cons && r.on_shell && r.small.isEmpty), k, fun j => by rw [show k + j = k + 0 + j by omega, hj j]⟩
  induction ts generalizing i with
  | nil => exact ⟨.ok [], 0, fun _ => rfl⟩
  | cons t ts ih =>
    obtain ⟨o, k, hk⟩ := ih (i + 1)
    unfold hardBlock
    rcases draw i with e | ps
    · exact ⟨.error e, 0, fun _ => rfl⟩
    dsimp only
    obtain ⟨o', k', hk'⟩ := try_ends t ps
    have h1 : ∀ j, hardTry E thr invThr v inner dflt full (k + k' + j) t ps = some o' := fun j => by
      rw [show k + k' + j = k' + (k + j) by omega, hk']
    have h2 : ∀ j, hardBlock E thr invThr v draw inner dflt full (k + k' + j) (i + 1) ts = some o := fun j => by
      rw [show k + k' + j = k + (k' + j) by omega, hk]
    rcases o' with e | b
    · exact ⟨.error e, k + k', fun j => by rw [h1]⟩
    rcases o with e | l
    · exact ⟨.error e, k + k', fun j => by rw [h1, h2]⟩
    · exact ⟨.ok (if b then t :: l else l), k + k', fun j => by rw [h1, h2]⟩

/-- C117: the block raises only if `randomise_all`, `_set` or the evaluation of a listed invariant raises. -/
theorem C117_returns {E : Env K Γ I n} {thr invThr : Γ} {v : K} {draw : ℕ → Except Err (Point K n)} {inner : I → Solver K n Unit} {dflt full : List I}
    (hn : n ≠ 0) (hne : full ≠ []) (hd : ∀ j, ∃ ps, draw j = .ok ps) (ts : List I)
    (hs : ∀ t ∈ ts, ∀ j ps, draw j = .ok ps → ∃ ps', setChecked E (inner t) t v true ps = (.ok (), ps') ∧ ∀ u ∈ full, ∃ y, E.compute ps' u = .ok y)
    (i : ℕ) : ∃ l k, ∀ j, hardBlock E thr invThr v draw inner dflt full (k + j) i ts = some (.ok l) := by
  obtain ⟨o, k, hk⟩ := C117_ends E thr invThr v draw inner dflt full ts i
  rcases o with e | l
  swap
  · exact ⟨l, k, hk⟩
  exfalso
  have one : ∀ t ∈ ts, ∀ j ps, draw j = .ok ps → hardTry E thr invThr v inner dflt full k t ps ≠ some (.error e) := by
    intro t ht j ps hps h
    obtain ⟨p, hp, hy⟩ := hs t ht j ps hps
    have hq := (C68_set E (inner t) t v true ps p hp).2 rfl
    unfold hardTry at h
    rw [hp] at h
    dsimp only at h
    have ho : onshellRelationCheck E.abs E.tol p = .ok true :=
      (withinTol_iff E.abs E.tol _ (by simp [hn])).1.2 (by simpa [List.mem_ofFn] using hq.2)
    rw [(C49_momentum_conservation_check E.abs E.tol p).1.2 hq.1, ho] at h
    dsimp only at h
    have hv : ∀ u ∈ full, ∃ w, (E.compute p u).map E.abs = .ok w := fun u hu => by
      obtain ⟨y, hy⟩ := hy u hu
      exact ⟨E.abs y, by rw [hy]; rfl⟩
    have : Nonempty Γ := ⟨thr⟩
    choose! w hw using hv
    have he := valuesOf_ok (fun u => (E.compute p u).map E.abs) (fun _ => false) true w full hw (by simp)
    unfold consistencyCheck at h
    rw [if_neg (by simpa using hne)] at h
    dsimp only at h
    rw [he] at h
    dsimp only at h
    split at h
    · cases h
    next hc => split at hc <;> cases hc
    · cases h
  have all : ∀ (us : List I), us ⊆ ts → ∀ i, hardBlock E thr invThr v draw inner dflt full k i us ≠ some (.error e) := by
    intro us
    induction us with
    | nil => intro _ _ h; cases h
    | cons t us ih =>
      intro hus i h
      obtain ⟨ps, hps⟩ := hd i
      unfold hardBlock at h
      rw [hps] at h
      dsimp only at h
      rcases ht : hardTry E thr invThr v inner dflt full k t ps with _ | e' | b
      · rw [ht] at h; cases h
      · rw [ht] at h
        cases h
        exact one t (hus (by simp)) i ps hps ht
      · rw [ht] at h
        dsimp only at h
        rcases hb : hardBlock E thr invThr v draw inner dflt full k (i + 1) us with _ | e' | l
        · rw [hb] at h; cases h
        · rw [hb] at h
          cases h
          exact ih (fun x hx => hus (List.mem_cons_of_mem _ hx)) _ hb
        · rw [hb] at h; cases h
  exact all ts (fun _ h => h) i (hk 0)

/-- C117: if values close to the one asked for count as small, a string that is added was not listed, and differs from every listed invariant even
up to sign: there is a point of phase space at which it is smaller. -/
theorem C117_new {E : Env K Γ I n} {thr invThr : Γ} {v : K} {draw : ℕ → Except Err (Point K n)} {inner : I → Solver K n Unit} {dflt full : List I}
    (hne : full ≠ []) (hs : ∀ x, E.abs (x - v) ≤ E.tol → E.abs x ≤ thr) {fuel : ℕ} {ts : List I} (hts : ts.Nodup) {i : ℕ} {l : List I}
    (h : hardBlock E thr invThr v draw inner dflt full fuel i ts = some (.ok l)) {t : I} (ht : t ∈ l) :
    t ∉ full ∧ ∀ u ∈ full, ∃ ps x y, SpecPoint E.abs E.tol ps ∧ E.compute ps t = .ok x ∧ E.compute ps u = .ok y ∧ E.abs x < E.abs y := by
  obtain ⟨hsub, hall⟩ := C117_added hne h
  obtain ⟨-, p, -, -, ⟨⟨x, hx, hv⟩, hp⟩, hy, hi⟩ := hall hts t (hsub.subset ht)
  have no := hi.1 ht
  refine ⟨fun hf => no t hf ⟨x, hx, hs x hv⟩, fun u hu => ?_⟩
  obtain ⟨y, hy⟩ := hy u hu
  refine ⟨p, x, y, hp, hx, hy, lt_of_le_of_lt (hs x hv) ?_⟩
  by_contra hc
  exact no u hu ⟨y, hy, not_lt.1 hc⟩

/-! ### Six points -/

/-- The values of texts that `compute` returns as numbers. -/
def textEnv (abs : K → Γ) (tol : Γ) (fuel : ℕ) : Env K Γ PStr n where
  abs := abs
  tol := tol
  compute := fun ps t => match computeText ps fuel t with
    | some (.ok (.num x)) => .ok x
    | some (.error e) => .error e
    | _ => .error .typeError

instance (n : ℕ) (S : Finset ℕ) : Decidable (IsCyclicInterval n S) :=
  decidable_of_iff (∃ (a : Fin n) (len : Fin (n + 1)), S = arcSet n ((a : ℕ) + 1) len)
    ⟨fun ⟨a, len, e⟩ => ⟨a + 1, len, by omega, by omega, by omega, e⟩,
      fun ⟨a, len, h1, h2, h3, e⟩ => ⟨⟨a - 1, by omega⟩, ⟨len, by omega⟩, by rw [e]; congr 1; simp only; omega⟩⟩

theorem nine_labels : ∀ x ∈ nineLabels, ({x.2.2.1, x.2.2.2} : Finset (Fin 6)) ⊆ others x.1 x.2.1 ∧ (({x.2.2.1, x.2.2.2} : Finset (Fin 6))).card = 2 ∧
    (others x.1 x.2.1 \ {x.2.2.1, x.2.2.2}).card = 2 ∧ ¬ IsCyclicInterval 6 (labelsOf ({x.1, x.2.1} ∪ {x.2.2.1, x.2.2.2})) ∧
    ¬ IsCyclicInterval 6 (labelsOf ({x.1, x.2.1} ∪ (others x.1 x.2.1 \ {x.2.2.1, x.2.2.2}))) := by
  decide +kernel

theorem nine_nodup : nineStrings.Nodup := by decide +kernel

/-- C117: with the restriction, neither the nine strings nor their complements are listed before the block runs. -/
theorem C117_not_listed {ord : SetOrder} {hard : Except Err (List PStr)} {f : Flags} (hf : f.restrict3 = true) (hh : f.noHard = true) {inv : Key → List PStr}
    (h : generate 6 ord hard f = .ok inv) : ∀ x ∈ nineLabels, threeText x.1 x.2.1 {x.2.2.1, x.2.2.2} ∉ inv 1 ∧
      threeText x.1 x.2.1 (others x.1 x.2.1 \ {x.2.2.1, x.2.2.2}) ∉ inv 1 := by
  intro x hx
  obtain ⟨h1, h2, h3, h4, h5⟩ := nine_labels x hx
  have ne1 : ({x.2.2.1, x.2.2.2} : Finset (Fin 6)).Nonempty := Finset.card_pos.1 (by omega)
  have ne2 : (others x.1 x.2.1 \ {x.2.2.1, x.2.2.2}).Nonempty := Finset.card_pos.1 (by omega)
  constructor <;> intro hm
  · rcases (C114_one_slot h _).1 hm with ⟨a, d, P, hP, e, hr⟩ | ⟨-, e, -⟩
    · obtain ⟨rfl, rfl, rfl⟩ := threeText_inj ne1 hP.ne e
      rcases hr hf with h | h
      · exact h4 h
      · exact h5 h
    · rw [hh] at e; cases e
  · rcases (C114_one_slot h _).1 hm with ⟨a, d, P, hP, e, hr⟩ | ⟨-, e, -⟩
    · obtain ⟨rfl, rfl, rfl⟩ := threeText_inj ne2 hP.ne e
      rw [Finset.sdiff_sdiff_eq_self h1] at hr
      rcases hr hf with h | h
      · exact h5 h
      · exact h4 h
    · rw [hh] at e; cases e

theorem full_ne {ord : SetOrder} {hard : Except Err (List PStr)} {f : Flags} {inv : Key → List PStr} (h : generate 6 ord hard f = .ok inv) :
    invFull inv ≠ [] := by
  intro e
  have : twoText '⟨' 1 2 '⟩' ∈ invFull inv :=
    (C114_joined inv _).1.2 ⟨0, (C114_others (by decide) h _).1.2 ⟨1, 2, by decide, by decide, by decide, .inl rfl⟩⟩
  rw [e] at this
  cases this

theorem generate_extra {n : ℕ} {ord : SetOrder} {f : Flags} {inv0 : Key → List PStr} {l : List PStr}
    (h0 : generate n ord (.ok []) { f with noCached := true, noHard := true } = .ok inv0) : ∃ inv, generate n ord (.ok l) f = .ok inv := by
  obtain ⟨r3, r4, p3, p4, x3, e3, e4, ep3, ep4, -⟩ := generate_parts h0
  dsimp only at ep3 ep4
  unfold generate
  simp only [e3, e4, ep3, ep4]
  split
  next e he => split at he <;> cases he
  next => exact ⟨_, rfl⟩

/-- C117: the whole of `Invariants(6)`. When the block returns, the lists exist except for the flags that raise TypeError, the strings with one
slot are those listed without the block followed by the added ones, no string is repeated, and all added ones are among the nine. -/
theorem C117_six {abs : K → Γ} {tol thr invThr : Γ} {v : K} (hs : ∀ x, abs (x - v) ≤ tol → abs x ≤ thr) {k fuel : ℕ} {draw : ℕ → Except Err (Point K 6)}
    {inner : PStr → Solver K 6 Unit} {dflt : List PStr} {ord : SetOrder} {f : Flags} (hf : f.noHard = false)
    {inv0 : Key → List PStr} (h0 : generate 6 ord (.ok []) { f with noCached := true, noHard := true } = .ok inv0) {l : List PStr}
    (h : hardBlock (textEnv abs tol k) thr invThr v draw inner dflt (invFull inv0) fuel 0 nineStrings = some (.ok l)) :
    ∃ inv, generate 6 ord (.ok l) f = .ok inv ∧ inv 1 = inv0 1 ++ l ∧ (∀ key, key ≠ 1 → inv key = inv0 key) ∧ (inv 1).Nodup ∧ l ⊆ nineStrings := by
  obtain ⟨r3, r4, p3, p4, x3, e3, e4, ep3, ep4, ex, q0, q1, q2, q3, q4, q5, q6, q7, q8⟩ := generate_parts h0
  obtain rfl : [] = x3 := Except.ok.inj ex
  dsimp only at ep3 ep4
  have hne := full_ne h0
  have hsub := (C117_added hne h).1
  have hnew := fun t ht => (C117_new (E := textEnv abs tol k) hne hs nine_nodup h (t := t) ht).1
  have hg := generate_extra h0 (l := l)
  obtain ⟨inv, hi⟩ := hg
  obtain ⟨r3', r4', p3', p4', x3', e3', e4', ep3', ep4', ex', q0', q1', q2', q3', q4', q5', q6', q7', q8'⟩ := generate_parts hi
  obtain rfl : r3 = r3' := Except.ok.inj (e3.symm.trans e3')
  obtain rfl : r4 = r4' := Except.ok.inj (e4.symm.trans e4')
  obtain rfl : p3 = p3' := Except.ok.inj (ep3.symm.trans ep3')
  obtain rfl : p4 = p4' := Except.ok.inj (ep4.symm.trans ep4')
  rw [if_pos ⟨rfl, hf⟩] at ex'
  obtain rfl : l = x3' := Except.ok.inj ex'
  rw [List.append_nil] at q1
  refine ⟨inv, hi, by rw [q1', q1], fun key hk => ?_, ?_, hsub.subset⟩
  · have cases : ∀ key : Key, key ≠ 1 → key = 0 ∨ key = 2 ∨ key = 3 ∨ key = 4 ∨ key = 5 ∨ key = 6 ∨ key = 7 ∨ key = 8 := by decide
    rcases cases key hk with e | e | e | e | e | e | e | e <;> rw [e]
    · rw [q0, q0']
    · rw [q2, q2']
    · rw [q3, q3']
    · rw [q4, q4']
    · rw [q5, q5']
    · rw [q6, q6']
    · rw [q7, q7']
    · rw [q8, q8']
  · rw [q1', List.nodup_append']
    refine ⟨?_, nine_nodup.sublist hsub, fun t ht hl => hnew t hl ?_⟩
    · obtain ⟨L, eL, hn, -⟩ := C110_list (n := 6) (by decide)
      obtain rfl : L = r3 := Except.ok.inj (eL.symm.trans e3)
      cases hr : f.restrict3
      · rw [hr] at ep3
        obtain rfl : L = p3 := Except.ok.inj ep3
        exact hn
      · rw [hr] at ep3
        obtain ⟨L', eL', hL', -⟩ := C110_restricted (n := 6) (by decide) eL
        obtain rfl : L' = p3 := Except.ok.inj (eL'.symm.trans ep3)
        exact hn.sublist (hL'.map _)
    · rw [invFull, q1]
      simp [ht]

/-- C117: without the restriction, in exact arithmetic the block adds nothing: each of the nine strings, or the one with the complement of the slot, is
listed. Here every point that `_set` accepts is massless and conserves momentum. -/
theorem C117_unrestricted {abs : K → Γ} (habs : ∀ x, abs (-x) = abs x) {tol thr invThr : Γ} {v : K} (hs : ∀ x, abs (x - v) ≤ tol → abs x ≤ thr) {k fuel : ℕ}
    {draw : ℕ → Except Err (Point K 6)} {inner : PStr → Solver K 6 Unit}
    (hx : ∀ (t : PStr) (j : ℕ) (ps ps' : Point K 6), draw j = .ok ps → setChecked (textEnv abs tol k) (inner t) t v true ps = (.ok (), ps') →
      Conserves ps' ∧ ∃ (c : Ctx K) (r l : Fin 6 → V2 K), Spin c ps' r l)
    {dflt : List PStr} {ord : SetOrder} {f : Flags} (hf : f.restrict3 = false)
    {inv0 : Key → List PStr} (h0 : generate 6 ord (.ok []) { f with noCached := true, noHard := true } = .ok inv0) {l : List PStr}
    (h : hardBlock (textEnv abs tol k) thr invThr v draw inner dflt (invFull inv0) fuel 0 nineStrings = some (.ok l)) : l = [] := by
  rw [List.eq_nil_iff_forall_not_mem]
  intro t ht
  have hne := full_ne h0
  obtain ⟨hsub, hall⟩ := C117_added hne h
  have h9 := hsub.subset ht
  obtain ⟨ps, p, ⟨j, -, hj⟩, hset, ⟨⟨x, hcx, hv⟩, -⟩, -, hi⟩ := hall nine_nodup t h9
  have no := hi.1 ht
  obtain ⟨hc, c, r, lam, hsp⟩ := hx t _ ps p hj hset
  rw [nine_texts] at h9
  obtain ⟨y, hy, rfl⟩ := List.mem_map.1 h9
  obtain ⟨h1, h2, h3, -, -⟩ := nine_labels y hy
  obtain ⟨T, ⟨hT, hL⟩, -⟩ := C110_one_of_two h1 h2.ge h3.ge
  have hm : threeText y.1 y.2.1 T ∈ invFull inv0 := by
    exact (C114_joined inv0 _).1.2 ⟨1, (C114_one_slot h0 _).2 (.inl ⟨_, _, T, hL, rfl, by simp [hf]⟩)⟩
  have val : ∀ {P : Finset (Fin 6)}, P.Nonempty → (textEnv abs tol k).compute p (threeText y.1 y.2.1 P) = .ok (threeVal r lam y.1 y.2.1 P) := by
    intro P hP
    simp only [textEnv, C110_value hsp k _ _ hP]
  have ne1 : ({y.2.2.1, y.2.2.2} : Finset (Fin 6)).Nonempty := Finset.card_pos.1 (by omega)
  rw [val ne1] at hcx
  obtain rfl := Except.ok.inj hcx
  refine no _ hm ⟨_, val hL.ne, ?_⟩
  have small := hs _ hv
  rcases hT with rfl | rfl
  · exact small
  · rw [three_compl (hsp.conserves_iff.1 hc)] at small
    exact (habs _).symm.le.trans small

end Lips

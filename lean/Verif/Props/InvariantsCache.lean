import Verif.Model.InvariantsCache
import Mathlib.Data.Fin.VecNotation

/-!
Property C59: what the cache of `Invariants` guarantees, and where it is not transparent.
-/

namespace Lips

variable {α : Type*}

/-- The file holds nothing but (some of) the right lists. -/
def CacheOk (L : Key → α) : Cache α → Prop
  | none => True
  | some db => ∀ k, db k = none ∨ db k = some (L k)

/-- A construction is on its way to, or has returned, the right lists, or has raised the exception of
an incomplete file. -/
def ProcOk (gen : Flags → Except Err (Key → α)) (L : Key → α) (f : Flags) : Proc α → Prop
  | .start => True
  | .absent => f.useCache
  | .writing l _ => f.useCache ∧ l = L
  | .done r => r = gen f ∨ (f.useCache ∧ r = .error .exception)

theorem allThere_eq {L : Key → α} {db : Key → Option α} (h : ∀ k, db k = none ∨ db k = some (L k)) :
    allThere db = some L ∨ allThere db = none := by
  unfold allThere
  split_ifs with hs
  · left
    congr 1
    funext k
    rcases h k with h | h
    · have := hs k; rw [h] at this; simp at this
    · simp [h]
  · right; rfl

theorem procStep_ok {gen : Flags → Except Err (Key → α)} {L : Key → α} {f : Flags}
    (hg : f.useCache = true → gen f = .ok L) {c : Cache α} (hc : CacheOk L c) {p : Proc α} (hp : ProcOk gen L f p) :
    CacheOk L (procStep gen f c p).1 ∧ ProcOk gen L f (procStep gen f c p).2 := by
  cases p with
  | start =>
    simp only [procStep]
    by_cases hu : f.useCache = true
    · rw [if_pos hu]
      cases c with
      | none => exact ⟨trivial, hu⟩
      | some db =>
        rcases allThere_eq hc with h | h
        · simp only [h]; exact ⟨hc, .inl (hg hu).symm⟩
        · simp only [h]; exact ⟨hc, .inr ⟨hu, rfl⟩⟩
    · rw [if_neg hu]; exact ⟨hc, .inl rfl⟩
  | absent =>
    have hu : f.useCache = true := hp
    simp only [procStep, hg hu]
    refine ⟨?_, hu, rfl⟩
    cases c with
    | none => exact fun k => .inl rfl
    | some db => exact hc
  | writing l k =>
    obtain ⟨hu, rfl⟩ := hp
    simp only [procStep]
    split_ifs with hk
    · refine ⟨?_, hu, rfl⟩
      cases c with
      | none => trivial
      | some db =>
        intro j
        by_cases hj : j = ⟨k, hk⟩
        · subst hj; right; simp
        · rw [Function.update_of_ne hj]; exact hc j
    · exact ⟨hc, .inl (hg hu).symm⟩
  | done r => exact ⟨hc, hp⟩

/-- C59, safety: whatever the interleaving of constructions and crashes, if all constructions that use
the cache would generate the same lists and the file initially holds nothing else, then every
construction that returns returns what generation from scratch gives, and one that raises although
generation does not raises the exception of an incomplete file. What is missing: that it never raises,
and independence of the flags; both are false. -/
theorem C59_returned_lists_partial (gen : Flags → Except Err (Key → α)) (L : Key → α)
    (hg : ∀ f : Flags, f.useCache = true → gen f = .ok L) {w w' : World α} (hc : CacheOk L w.cache)
    (hw : w.procs = []) (h : WReach gen w w') :
    CacheOk L w'.cache ∧ ∀ f r, (f, Proc.done r) ∈ w'.procs →
      r = gen f ∨ (f.useCache ∧ r = .error .exception) := by
  have key : CacheOk L w'.cache ∧ ∀ q ∈ w'.procs, ProcOk gen L q.1 q.2 := by
    induction h with
    | refl => exact ⟨hc, by simp [hw]⟩
    | tail _ hs ih =>
      obtain ⟨h1, h2⟩ := ih
      cases hs with
      | begin f =>
        refine ⟨h1, fun q hq => ?_⟩
        rcases List.mem_append.1 hq with hq | hq
        · exact h2 q hq
        · rw [List.mem_singleton.1 hq]; trivial
      | move c pre post f p =>
        have hp := h2 (f, p) (by simp)
        obtain ⟨g1, g2⟩ := procStep_ok (hg f) h1 hp
        refine ⟨g1, fun q hq => ?_⟩
        rcases List.mem_append.1 hq with hq | hq
        · exact h2 q (by simp [hq])
        · rcases List.mem_cons.1 hq with rfl | hq
          · exact g2
          · exact h2 q (by simp [hq])
  exact ⟨key.1, fun f r hr => key.2 _ hr⟩

/-- C59: without crashes and one after the other, constructions with the same cached lists return
them: from no file, and from the complete file this leaves behind. -/
theorem C59_sequential (gen : Flags → Except Err (Key → α)) (L : Key → α) (f : Flags) (hu : f.useCache = true)
    (hg : gen f = .ok L) :
    runAlone gen f none = (some fun k => some (L k), .done (.ok L)) ∧
    runAlone gen f (some fun k => some (L k)) = (some fun k => some (L k), .done (.ok L)) := by
  constructor
  · simp only [runAlone, Function.iterate_succ_apply', Function.iterate_zero, id, procStep, hu, if_true, hg,
      Nat.lt_irrefl, Nat.reduceLT, Nat.reduceAdd, dite_true, dite_false]
    congr 2
    funext k
    fin_cases k <;> simp [Function.update]
  · have : allThere (fun k => some (L k)) = some L := by
      unfold allThere; rw [dif_pos (by simp)]; rfl
    have h1 : procStep gen f (some fun k => some (L k)) .start = (some fun k => some (L k), .done (.ok L)) := by
      simp only [procStep, hu, if_true, this]
    have h2 : ∀ k, (fun s : Cache α × Proc α => procStep gen f s.1 s.2)^[k] (some fun k => some (L k), .done (.ok L)) =
        (some fun k => some (L k), .done (.ok L)) := by
      intro k
      exact Function.iterate_fixed rfl k
    rw [runAlone, Function.iterate_succ_apply, h1, h2]

/-- C59 is false after a crash: once a writer has stopped before its last key was written, every later
construction that uses the cache raises, and none of them repairs the file, whatever else happens. -/
theorem C59_incomplete_file_is_permanent (gen : Flags → Except Err (Key → α)) (db : Key → Option α) (k : Key)
    (hk : db k = none) {w' : World α} (h : WReach gen ⟨some db, []⟩ w') :
    w'.cache = some db ∧ ∀ f r, (f, Proc.done r) ∈ w'.procs → f.useCache = true → r = .error .exception := by
  have hno : allThere db = none := by
    unfold allThere
    rw [dif_neg]
    intro hs
    have := hs k
    rw [hk] at this
    simp at this
  have key : w'.cache = some db ∧ ∀ q ∈ w'.procs, q.2 = .start ∨
      ∃ r, q.2 = .done r ∧ (q.1.useCache = true → r = .error .exception) := by
    induction h with
    | refl => exact ⟨rfl, by simp⟩
    | tail _ hs ih =>
      obtain ⟨h1, h2⟩ := ih
      cases hs with
      | begin f =>
        refine ⟨h1, fun q hq => ?_⟩
        rcases List.mem_append.1 hq with hq | hq
        · exact h2 q hq
        · rw [List.mem_singleton.1 hq]; exact .inl rfl
      | move c pre post f p =>
        simp only at h1
        subst h1
        have g : (procStep gen f (some db) p).1 = some db ∧
            ((procStep gen f (some db) p).2 = .start ∨ ∃ r, (procStep gen f (some db) p).2 = .done r ∧
              (f.useCache = true → r = .error .exception)) := by
          rcases h2 (f, p) (by simp) with h | ⟨r, h, hr⟩
          · simp only at h
            subst h
            simp only [procStep, hno]
            by_cases hu : f.useCache = true
            · rw [if_pos hu]; exact ⟨rfl, .inr ⟨_, rfl, fun _ => rfl⟩⟩
            · rw [if_neg hu]; exact ⟨rfl, .inr ⟨_, rfl, fun h => absurd h hu⟩⟩
          · simp only at h
            subst h
            exact ⟨rfl, .inr ⟨r, rfl, hr⟩⟩
        refine ⟨g.1, fun q hq => ?_⟩
        rcases List.mem_append.1 hq with hq | hq
        · exact h2 q (by simp [hq])
        · rcases List.mem_cons.1 hq with rfl | hq
          · exact g.2
          · exact h2 q (by simp [hq])
  refine ⟨key.1, fun f r hr hu => ?_⟩
  rcases key.2 _ hr with h | ⟨r', h, h'⟩
  · cases h
  · simp only [Proc.done.injEq] at h
    rw [h]; exact h' hu

/-- C59: such files are reachable: a crash before any of the nine keys is written leaves one. -/
theorem C59_crash_leaves_incomplete_file (gen : Flags → Except Err (Key → α)) (L : Key → α) (f : Flags)
    (hu : f.useCache = true) (hg : gen f = .ok L) (k : Key) :
    ∃ db, (∀ j : Key, j < k → db j = some (L j)) ∧ (∀ j : Key, k ≤ j → db j = none) ∧
      WReach gen ⟨none, []⟩ ⟨some db, [(f, .writing L k)]⟩ := by
  have h0 : WReach gen ⟨none, []⟩ ⟨some fun _ => none, [(f, .writing L 0)]⟩ := by
    have s1 : WReach gen ⟨none, []⟩ ⟨none, [(f, .start)]⟩ := .tail (.refl _) (.begin _ f)
    have s2 : WReach gen ⟨none, []⟩ ⟨none, [(f, .absent)]⟩ := by
      have := WStep.move (gen := gen) none [] [] f .start
      simp only [procStep, hu, if_true, List.nil_append] at this
      exact .tail s1 this
    have := WStep.move (gen := gen) none [] [] f .absent
    simp only [procStep, hg, List.nil_append] at this
    exact .tail s2 this
  have hstep : ∀ m, m ≤ 8 → ∃ db : Key → Option α, (∀ j : Key, (j : ℕ) < m → db j = some (L j)) ∧
      (∀ j : Key, m ≤ (j : ℕ) → db j = none) ∧ WReach gen ⟨none, []⟩ ⟨some db, [(f, .writing L m)]⟩ := by
    intro m
    induction m with
    | zero => exact fun _ => ⟨_, fun j hj => absurd hj (Nat.not_lt_zero _), fun _ _ => rfl, h0⟩
    | succ m ih =>
      intro hm
      obtain ⟨db, h1, h2, h3⟩ := ih (by omega)
      have hm9 : m < 9 := by omega
      refine ⟨Function.update db ⟨m, hm9⟩ (some (L ⟨m, hm9⟩)), ?_, ?_, ?_⟩
      · intro j hj
        by_cases hjm : j = ⟨m, hm9⟩
        · rw [hjm]; simp
        · rw [Function.update_of_ne hjm]
          exact h1 j (by
            have : (j : ℕ) ≠ m := fun h => hjm (Fin.ext h)
            omega)
      · intro j hj
        rw [Function.update_of_ne (by rintro rfl; simp at hj)]
        exact h2 j (by omega)
      · have := WStep.move (gen := gen) (some db) [] [] f (.writing L m)
        simp only [procStep, List.nil_append, dif_pos (show m < 9 by omega)] at this
        exact .tail h3 this
  obtain ⟨db, h1, h2, h3⟩ := hstep k (by omega)
  exact ⟨db, fun j hj => h1 j hj, fun j hj => h2 j hj, h3⟩

/-- C59: no crash is needed: a construction whose generation raises also leaves an empty file behind. -/
theorem C59_failed_generation_leaves_empty_file (gen : Flags → Except Err (Key → α)) (f : Flags)
    (hu : f.useCache = true) (e : Err) (hg : gen f = .error e) :
    runAlone gen f none = (some fun _ => none, .done (.error e)) := by
  simp only [runAlone, Function.iterate_succ_apply', Function.iterate_zero, id, procStep, hu, if_true, hg]

/-- C59 is false across flags: the lists that were generated with other values of
`no_hard_coded_ones` and `FurtherRestrict4Brackets` are returned. -/
theorem C59_flags_ignored (gen : Flags → Except Err (Key → α)) (f g : Flags) (hf : f.useCache = true)
    (hg : g.useCache = true) (L : Key → α) (hL : gen f = .ok L) :
    (runAlone gen g (runAlone gen f none).1).2 = .done (.ok L) := by
  rw [(C59_sequential gen L f hf hL).1]
  have : allThere (fun k => some (L k)) = some L := by
    unfold allThere; rw [dif_pos (by simp)]; rfl
  have h1 : procStep gen g (some fun k => some (L k)) .start = (some fun k => some (L k), .done (.ok L)) := by
    simp only [procStep, hg, if_true, this]
  rw [runAlone, Function.iterate_succ_apply, h1]
  have h2 : ∀ k, (fun s : Cache α × Proc α => procStep gen g s.1 s.2)^[k] (some fun k => some (L k), .done (.ok L)) =
      (some fun k => some (L k), .done (.ok L)) := fun k => Function.iterate_fixed rfl k
  rw [h2]

/-- C59: a construction that asks for no caching, or for three- or four-brackets without the restriction, does not
depend on the file and does not change it: it returns, or raises, what generation from scratch does. -/
theorem C59_unrestricted_bypasses (gen : Flags → Except Err (Key → α)) (f : Flags)
    (hf : f.noCached = true ∨ f.restrict3 = false ∨ f.restrict4 = false) (c : Cache α) :
    runAlone gen f c = (c, .done (gen f)) := by
  have hu : f.useCache = false := by unfold Flags.useCache; rcases hf with h | h | h <;> simp [h]
  have h1 : procStep gen f c .start = (c, .done (gen f)) := by simp [procStep, hu]
  have h2 : ∀ k, (fun s : Cache α × Proc α => procStep gen f s.1 s.2)^[k] (c, .done (gen f)) = (c, .done (gen f)) :=
    fun k => Function.iterate_fixed rfl k
  rw [runAlone, Function.iterate_succ_apply, h1, h2]

/-- C59: all other constructions read the file when it is complete, whatever is in it. -/
theorem C59_complete_file_is_returned (gen : Flags → Except Err (Key → α)) (f : Flags)
    (hf : f.noCached = false ∧ f.restrict3 = true ∧ f.restrict4 = true) (L : Key → α) :
    runAlone gen f (some fun k => some (L k)) = (some fun k => some (L k), .done (.ok L)) := by
  have hu : f.useCache = true := by unfold Flags.useCache; simp [hf]
  have : allThere (fun k => some (L k)) = some L := by
    unfold allThere; rw [dif_pos (by simp)]; rfl
  have h1 : procStep gen f (some fun k => some (L k)) .start = (some fun k => some (L k), .done (.ok L)) := by
    simp only [procStep, hu, if_true, this]
  have h2 : ∀ k, (fun s : Cache α × Proc α => procStep gen f s.1 s.2)^[k] (some fun k => some (L k), .done (.ok L)) =
      (some fun k => some (L k), .done (.ok L)) := fun k => Function.iterate_fixed rfl k
  rw [runAlone, Function.iterate_succ_apply, h1, h2]

/-- Two flag combinations that use the cache. -/
example : (⟨false, true, true, true, true⟩ : Flags).useCache = true ∧
    (⟨false, false, true, true, true⟩ : Flags).useCache = true := by decide

end Lips

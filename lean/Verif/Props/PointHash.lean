import Verif.Model.PointHash
import Verif.Props.ParticleArith
import Verif.Props.Indexing

/-! C07 for phase-space points. -/

namespace Lips

variable {K : Type*} [Field K]

/-- C07, what holds for points: two points with the same number of particles that compare equal have the same hash if each particle is
massive or has the same spinors in both. Missing for the full claim: points of different length, and massless particles whose spinors differ
by a little-group factor. -/
theorem C07_points_partial [NeZero (2 : K)] (c : Ctx K) : ∀ (ps qs : List (Particle K)), ps.length = qs.length →
    (∀ p ∈ ps, MomConsistent c p) → (∀ q ∈ qs, MomConsistent c q) → pointsEq pEqb ps qs = .ok true →
    (∀ pq ∈ ps.zip qs, c.small pq.1.m2 = false ∨ (pq.1.r_d = pq.2.r_d ∧ pq.1.l_d = pq.2.l_d)) →
    pointHashKey c ps = pointHashKey c qs
  | [], [], _, _, _, _, _ => rfl
  | p :: ps, q :: qs, hl, hp, hq, h, hs => by
    rw [List.forall_mem_cons] at hp hq
    rw [List.zip_cons_cons, List.forall_mem_cons] at hs
    unfold pointsEq at h
    split at h
    next he =>
      have e : pEq p q := by simpa [pEqb] using he
      obtain ⟨k1, k2, -⟩ := C07_hash_partial c p q hp.1 hq.1 e
      have hk : hashKey c p = hashKey c q := by
        rcases hs.1 with h | h
        · exact k1 h
        · exact k2 h.1 h.2
      have ih := C07_points_partial c ps qs (by simpa using hl) hp.2 hq.2 h hs.2
      unfold pointHashKey at ih ⊢
      rw [List.mapM_cons, List.mapM_cons, hk, ih]
    next => cases h
  | [], _ :: _, hl, _, _, _, _ => by simp at hl
  | _ :: _, [], hl, _, _, _, _ => by simp at hl

/-- C07 (finding): a point compares equal to every point that continues it, and never has the same hash. -/
theorem C07_points_prefix (c : Ctx K) (ps qs : List (Particle K)) (hq : qs ≠ []) {k k' : List (HashKey K)}
    (hk : pointHashKey c ps = some k) (hk' : pointHashKey c (ps ++ qs) = some k') : pointsEq pEqb ps (ps ++ qs) = .ok true ∧ k ≠ k' := by
  have len : ∀ (l : List (Particle K)) {k}, pointHashKey c l = some k → k.length = l.length := by
    intro l
    unfold pointHashKey
    induction l with
    | nil => intro k h; cases h; rfl
    | cons p l ih =>
      intro k h
      rw [List.mapM_cons] at h
      rcases ha : hashKey c p with _ | a
      · rw [ha] at h; cases h
      rcases hb : l.mapM (hashKey c) with _ | b
      · rw [ha, hb] at h; cases h
      rw [ha, hb] at h
      cases h
      simp [ih hb]
  refine ⟨(C41_not_symmetric _ (fun p => by simp [pEqb, pEq]) ps qs hq).1, fun e => hq ?_⟩
  have h1 := len _ hk
  have h2 := len _ hk'
  rw [List.length_append, ← e, h1] at h2
  exact List.length_eq_zero_iff.1 (by omega)

/-- C07: a point can be hashed exactly if each of its particles can. -/
theorem C07_points_hashable (c : Ctx K) (ps : List (Particle K)) :
    (∃ k, pointHashKey c ps = some k) ↔ ∀ p ∈ ps, ∃ k, hashKey c p = some k := by
  unfold pointHashKey
  induction ps with
  | nil => simp
  | cons p l ih =>
    rw [List.mapM_cons, List.forall_mem_cons, ← ih]
    rcases hashKey c p with _ | a
    · simp
    rcases l.mapM (hashKey c) with _ | b <;> simp

/-- A massive particle at rest. -/
private def restP : Particle ℚ := ⟨none, none, none, none, !![1, 0; 0, 1], !![1, 0; 0, 1], some ![1, 0, 0, 0], some ![1, 0, 0, 0]⟩

private theorem rest_hash : hashKey (ratCtx .symmetric) restP = some (.bispinor 1 0 0 1) := by
  have hm : restP.m2 = 1 := by simp [Particle.m2, restP, Matrix.trace_fin_two]
  unfold hashKey
  rw [hm]
  simp [ratCtx, restP]

/-- One and two massive particles at rest: both points can be hashed, they compare equal and their hashes differ. -/
example : ∃ k k', pointHashKey (ratCtx .symmetric) [restP] = some k ∧ pointHashKey (ratCtx .symmetric) ([restP] ++ [restP]) = some k' ∧
    pointsEq pEqb [restP] ([restP] ++ [restP]) = .ok true ∧ k ≠ k' := by
  have h1 : ∃ k, pointHashKey (ratCtx .symmetric) [restP] = some k :=
    (C07_points_hashable _ _).2 (by simp [rest_hash])
  have h2 : ∃ k, pointHashKey (ratCtx .symmetric) ([restP] ++ [restP]) = some k :=
    (C07_points_hashable _ _).2 (by simp [rest_hash])
  obtain ⟨k, hk⟩ := h1
  obtain ⟨k', hk'⟩ := h2
  exact ⟨k, k', hk, hk', C07_points_prefix _ _ _ (by simp) hk hk'⟩

end Lips

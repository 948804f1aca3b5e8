import Verif.Model.BuildFrom
import Verif.Props.Construct

/-!
C132: a phase-space point made of particles of another point.
-/

namespace Lips

variable {K : Type*} [Field K] {n m : ℕ}

omit [Field K] in
theorem giveBack_pick (ps : Point K n) {pick : Fin m → Fin n} (hp : Function.Injective pick) (qs : Point K m) (j : Fin m) :
    giveBack ps pick qs (pick j) = qs j := by
  unfold giveBack
  rcases h : (List.finRange m).find? (fun k => decide (pick k = pick j)) with _ | k
  · rw [List.find?_eq_none] at h
    exact absurd (h j (List.mem_finRange j)) (by simp)
  · have := List.find?_some h
    simp only [decide_eq_true_eq] at this
    simp only [hp this]

omit [Field K] in
theorem giveBack_other (ps : Point K n) (pick : Fin m → Fin n) (qs : Point K m) (i : Fin n) (hi : ∀ j, pick j ≠ i) : giveBack ps pick qs i = ps i := by
  unfold giveBack
  rcases h : (List.finRange m).find? (fun k => decide (pick k = i)) with _ | k
  · rfl
  · have := List.find?_some h
    simp only [decide_eq_true_eq] at this
    exact absurd this (hi k)

omit [Field K] in
theorem giveBack_same (ps : Point K n) {pick : Fin m → Fin n} (hp : Function.Injective pick) : giveBack ps pick (fun j => ps (pick j)) = ps := by
  funext i
  by_cases h : ∃ j, pick j = i
  · obtain ⟨j, rfl⟩ := h
    exact giveBack_pick ps hp _ j
  · push Not at h
    exact giveBack_other ps pick _ i h

/-- C132: the particles of the other point that were not listed stay as they were, the listed ones are those of the new point. -/
theorem C132_shared {Γ : Type*} [LinearOrder Γ] (c : Ctx K) (abs : K → Γ) (tol : Γ) (fix real : Bool) (ps : Point K n) {pick : Fin m → Fin n}
    (hp : Function.Injective pick) (draw : ℕ × ℕ) {qs : Point K m} {ps' : Point K n} (h : buildFrom c abs tol fix real ps pick draw = .ok (qs, ps')) :
    construct c abs tol fix real (fun j => ps (pick j)) draw = .ok qs ∧ (∀ j, ps' (pick j) = qs j) ∧ ∀ i, (∀ j, pick j ≠ i) → ps' i = ps i := by
  unfold buildFrom at h
  rcases hc : construct c abs tol fix real (fun j => ps (pick j)) draw with e | q
  · rw [hc] at h; cases h
  · rw [hc] at h
    simp only [Except.ok.injEq, Prod.mk.injEq] at h
    obtain ⟨rfl, rfl⟩ := h
    exact ⟨rfl, giveBack_pick ps hp q, giveBack_other ps pick q⟩

/-- C132, where it holds: with `fix_mom_cons=False`, as slices are made, or if the listed particles conserve momentum, the other point stays as
it was. Missing: listed particles that do not conserve momentum, for which the claim is false (`C132_breaks`). -/
theorem C132_unchanged_partial {Γ : Type*} [LinearOrder Γ] (c : Ctx K) {abs : K → Γ} {tol : Γ} (hx : ∀ x, abs x ≤ tol ↔ x = 0) (fix real : Bool)
    (ps : Point K n) {pick : Fin m → Fin n} (hp : Function.Injective pick) (draw : ℕ × ℕ)
    (h : fix = false ∨ Conserves fun j => ps (pick j)) :
    buildFrom c abs tol fix real ps pick draw = .ok (fun j => ps (pick j), ps) := by
  have : construct c abs tol fix real (fun j => ps (pick j)) draw = .ok fun j => ps (pick j) := by
    cases fix with
    | false => rfl
    | true => exact (construct_total c hx real _ draw).1 (h.resolve_left (by simp))
  unfold buildFrom
  rw [this]
  simp only [giveBack_same ps hp]

/-- C132: the total momentum of the other one changes by what the listed particles gained. -/
theorem C132_total {Γ : Type*} [LinearOrder Γ] (c : Ctx K) (abs : K → Γ) (tol : Γ) (fix real : Bool) (ps : Point K n) {pick : Fin m → Fin n}
    (hp : Function.Injective pick) (draw : ℕ × ℕ) {qs : Point K m} {ps' : Point K n} (h : buildFrom c abs tol fix real ps pick draw = .ok (qs, ps')) :
    totalMom ps' = totalMom ps - totalMom (fun j => ps (pick j)) + totalMom qs := by
  obtain ⟨-, h1, h2⟩ := C132_shared c abs tol fix real ps hp draw h
  have split : ∀ r : Point K n, totalMom r = (∑ i with ∀ j, pick j ≠ i, (r i).r2) + ∑ j, (r (pick j)).r2 := by
    intro r
    unfold totalMom
    rw [← Finset.sum_filter_add_sum_filter_not Finset.univ (fun i => ∀ j, pick j ≠ i)]
    congr 1
    rw [← Finset.sum_image (s := Finset.univ) (g := pick) (f := fun i => (r i).r2) (fun a _ b _ h => hp h)]
    congr 1
    ext i
    simp
  rw [split ps', split ps]
  have e1 : ∀ i ∈ Finset.univ.filter (fun i => ∀ j, pick j ≠ i), (ps' i).r2 = (ps i).r2 := fun i hi => by rw [h2 i (Finset.mem_filter.1 hi).2]
  rw [Finset.sum_congr rfl e1]
  have e2 : ∑ j, (ps' (pick j)).r2 = totalMom qs := Finset.sum_congr rfl fun j _ => by rw [h1 j]
  rw [e2]
  unfold totalMom
  abel

theorem conserves_total (ps : Point K n) : Conserves ps ↔ totalMom ps = 0 := by
  unfold Conserves totalMom
  rw [← Matrix.ext_iff]
  simp [Matrix.sum_apply]

/-- C132 (finding): if the listed particles of a point that conserves momentum do not conserve it among themselves, making the new point changes
the two particles drawn, in the other point too, which then no longer conserves momentum. -/
theorem C132_breaks [NeZero (2 : K)] {Γ : Type*} [LinearOrder Γ] {c : Ctx K} {abs : K → Γ} {tol : Γ} (hx : ∀ x, abs x ≤ tol ↔ x = 0) {ps : Point K n}
    {r l : Fin n → V2 K} (hs : Spin c ps r l) {pick : Fin m → Fin n} (hp : Function.Injective pick) (hc : Conserves ps)
    (hq : ¬ Conserves fun j => ps (pick j)) (draw : ℕ × ℕ) (h1 : 1 ≤ draw.1 ∧ draw.1 ≤ m) (h2 : 1 ≤ draw.2 ∧ draw.2 ≤ m) (hne : draw.1 ≠ draw.2)
    (hd : SpecSquare (l (pick (pos _ h1))) (l (pick (pos _ h2))) ≠ 0) :
    ∃ qs ps', buildFrom c abs tol true false ps pick draw = .ok (qs, ps') ∧ Conserves qs ∧ ¬ Conserves ps' ∧
      ∀ i, i ≠ pick (pos _ h1) → i ≠ pick (pos _ h2) → ps' i = ps i := by
  have hs' : Spin c (fun j => ps (pick j)) (fun j => r (pick j)) (fun j => l (pick j)) := fun j => hs (pick j)
  obtain ⟨qs, r', e1, e2, e3, e4⟩ := (C109_fix hs' draw h1 h2 hne).1 hd
  have e5 := ((construct_total c hx false (fun j => ps (pick j)) draw).2 hq).trans e1
  have hb : buildFrom c abs tol true false ps pick draw = .ok (qs, giveBack ps pick qs) := by unfold buildFrom; rw [e5]
  have hqs : Conserves qs := e2.conserves_iff.mpr e3.zero
  refine ⟨qs, giveBack ps pick qs, hb, hqs, fun hc' => hq ?_, fun i i1 i2 => ?_⟩
  · have := C132_total c abs tol true false ps hp draw hb
    rw [conserves_total] at hc hqs hc' ⊢
    rw [hc', hc, hqs] at this
    simpa using this
  · by_cases h : ∃ j, pick j = i
    · obtain ⟨j, rfl⟩ := h
      rw [giveBack_pick ps hp]
      exact e4 j (fun e => i1 (by rw [e])) (fun e => i2 (by rw [e]))
    · push Not at h
      exact giveBack_other ps pick qs i h

end Lips

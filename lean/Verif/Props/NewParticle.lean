import Verif.Model.NewParticle
import Verif.Props.Particle
import Verif.Props.ParticleArith

/-!
C133: what `Particle(kinematics)` makes of its argument.
-/

namespace Lips

open Matrix

variable {K : Type*} [Field K]

/-- The arguments that are understood, with the representation that they give. -/
inductive Understood (K : Type*) where
  | mom (p0 p1 p2 p3 : K)
  | bispinor (a b c d : K)
  | spinors (r0 r1 l0 l1 : K)

/-- How they are passed. -/
def Understood.kin : Understood K → Kin K
  | .mom p0 p1 p2 p3 => .arr ⟨[4], [p0, p1, p2, p3]⟩
  | .bispinor a b c d => .arr ⟨[2, 2], [a, b, c, d]⟩
  | .spinors r0 r1 l0 l1 => .tup [some ⟨[2, 1], [r0, r1]⟩, some ⟨[1, 2], [l0, l1]⟩]

/-- The particle has the representation that was passed. -/
def Understood.Is (p : Particle K) : Understood K → Prop
  | .mom p0 p1 p2 p3 => p.mom = some ![p0, p1, p2, p3]
  | .bispinor a b c d => p.r2 = !![a, b; c, d]
  | .spinors r0 r1 l0 l1 => p.r_d = some ![r0, r1] ∧ p.l_d = some ![l0, l1] ∧ p.r2b = !![r0 * l0, r0 * l1; r1 * l0, r1 * l1]

omit [Field K] in
theorem result_ok {o : Out K} {p : Particle K} (h : o.result = .ok p) : o.err = none ∧ o.st = p := by
  unfold Out.result at h
  rcases he : o.err with _ | e
  · rw [he] at h
    exact ⟨rfl, by injection h⟩
  · rw [he] at h; cases h

theorem newParticle_mom (c : Ctx K) (known : Bool) (rnd : Particle K) (p0 p1 p2 p3 : K) :
    newParticle c known rnd (Understood.mom p0 p1 p2 p3).kin = (ofMom c ![p0, p1, p2, p3]).result := by
  have : (fun k : Fin 4 => [p0, p1, p2, p3].getD k 0) = ![p0, p1, p2, p3] := by
    funext k
    fin_cases k <;> rfl
  simp only [Understood.kin, newParticle, if_true, this]

theorem newParticle_bispinor (c : Ctx K) (known : Bool) (rnd : Particle K) (x y z w : K) :
    newParticle c known rnd (Understood.bispinor x y z w).kin = (ofR2 c !![x, y; z, w]).result := by
  have : (Matrix.of fun i j : Fin 2 => [x, y, z, w].getD (2 * (i : ℕ) + (j : ℕ)) 0) = !![x, y; z, w] := by
    ext i j
    fin_cases i <;> fin_cases j <;> rfl
  simp only [Understood.kin, newParticle, this]
  rfl

theorem newParticle_spinors (c : Ctx K) (known : Bool) (rnd : Particle K) (r0 r1 l0 l1 : K) :
    newParticle c known rnd (Understood.spinors r0 r1 l0 l1).kin = .ok (ofSpinors c ![r0, r1] ![l0, l1]).st := by
  have h : ∀ a b : K, (fun k : Fin 2 => [a, b].getD k 0) = ![a, b] := by
    intro a b
    funext k
    fin_cases k <;> rfl
  simp only [Understood.kin, newParticle, if_true, h]
  rfl

/-- C133: a particle made of a momentum, a bispinor or a pair of spinors has what was passed, and all its other representations agree with it. -/
theorem C133_has [NeZero (2 : K)] (c : Ctx K) (known : Bool) (rnd : Particle K) (u : Understood K) {p : Particle K}
    (h : newParticle c known rnd u.kin = .ok p) : u.Is p ∧ Consistent c p := by
  cases u with
  | mom p0 p1 p2 p3 =>
    rw [newParticle_mom] at h
    obtain ⟨he, rfl⟩ := result_ok h
    exact ⟨(C02_assign_then_read c blank).2.2.2.2.2.2.1 _, (C01_constructors_consistent c).2.1 _ he⟩
  | bispinor x y z w =>
    rw [newParticle_bispinor] at h
    obtain ⟨he, rfl⟩ := result_ok h
    exact ⟨(C02_assign_then_read c blank).2.2.2.2.1 _, (C01_constructors_consistent c).1 _ he⟩
  | spinors r0 r1 l0 l1 =>
    rw [newParticle_spinors] at h
    injection h with h
    subst h
    refine ⟨⟨?_, ?_, ?_⟩, ((C01_constructors_consistent c).2.2 _ _).2⟩
    all_goals
      unfold ofSpinors setLd rebuildFromSpinors momFromR2b
      simp only
      cases c.imag
    all_goals first
      | rfl
      | (ext i j; fin_cases i <;> fin_cases j <;> simp [outer, vecMulVec_apply])

/-- C133: bispinors and spinors are accepted in every field with the default convention, momenta in those with `1j`; elsewhere a momentum raises
TypeError. -/
theorem C133_accepted (c : Ctx K) (hc : c.conv = .symmetric) (known : Bool) (rnd : Particle K) (u : Understood K) :
    match u with
    | .mom .. => if c.imag = none then newParticle c known rnd u.kin = .error .typeError else ∃ p, newParticle c known rnd u.kin = .ok p
    | _ => ∃ p, newParticle c known rnd u.kin = .ok p := by
  have ok : ∀ o : Out K, o.err = none → ∃ p, o.result = .ok p := fun o h => ⟨o.st, by unfold Out.result; rw [h]⟩
  cases u with
  | mom p0 p1 p2 p3 =>
    simp only [newParticle_mom, ofMom, setMom, fromMom]
    rcases hi : c.imag with _ | i
    · rfl
    · rw [if_neg (by simp)]
      exact ok _ (deriveSpinors_symmetric_ok c hc _ _ _ _)
  | bispinor x y z w =>
    simp only [newParticle_bispinor]
    exact ok _ (setR2_symmetric_ok c hc _ _)
  | spinors r0 r1 l0 l1 =>
    simp only [newParticle_spinors]
    exact ⟨_, rfl⟩

/-- C133: nothing else is understood: without argument the particle is random, and every other argument, made of arrays that have as many entries as
their shape says, is refused. -/
theorem C133_refused (c : Ctx K) (known : Bool) (rnd : Particle K) (k : Kin K)
    (hk : ∀ a : Nd K, (k = .arr a ∨ ∃ l, k = .tup l ∧ some a ∈ l) → a.Ok) (h : ∀ u : Understood K, k ≠ u.kin) :
    (k = .none ∧ known = true ∧ newParticle c known rnd k = .ok rnd) ∨ newParticle c known rnd k = .error .exception ∨
      (∃ l, k = .tup l ∧ l.length = 2 ∧ none ∈ l) ∧ newParticle c known rnd k = .error .attributeError := by
  cases k with
  | none =>
    cases known with
    | true => exact .inl ⟨rfl, rfl, rfl⟩
    | false => exact .inr (.inl rfl)
  | other => exact .inr (.inl rfl)
  | arr a =>
    obtain ⟨shape, data⟩ := a
    have ha := hk _ (.inl rfl)
    unfold Nd.Ok at ha
    refine .inr (.inl ?_)
    unfold newParticle
    simp only at ha ⊢
    rw [if_neg, if_neg]
    · rintro rfl
      rcases data with _ | ⟨x, _ | ⟨y, _ | ⟨z, _ | ⟨w, _ | _⟩⟩⟩⟩ <;> simp at ha
      exact h (.bispinor x y z w) rfl
    · rintro rfl
      rcases data with _ | ⟨x, _ | ⟨y, _ | ⟨z, _ | ⟨w, _ | _⟩⟩⟩⟩ <;> simp at ha
      exact h (.mom x y z w) rfl
  | tup l =>
    rcases l with _ | ⟨x, _ | ⟨y, _ | ⟨z, l⟩⟩⟩
    · exact .inr (.inl rfl)
    · exact .inr (.inl rfl)
    · rcases x with _ | ⟨sr, dr⟩
      · exact .inr (.inr ⟨⟨_, rfl, rfl, by simp⟩, rfl⟩)
      · by_cases hr : sr = [2, 1]
        · subst hr
          rcases y with _ | ⟨sl, dl⟩
          · exact .inr (.inr ⟨⟨_, rfl, rfl, by simp⟩, by simp [newParticle]⟩)
          · refine .inr (.inl ?_)
            simp only [newParticle, if_true]
            rw [if_neg]
            rintro rfl
            have h1 := hk ⟨[2, 1], dr⟩ (.inr ⟨_, rfl, by simp⟩)
            have h2 := hk ⟨[1, 2], dl⟩ (.inr ⟨_, rfl, by simp⟩)
            unfold Nd.Ok at h1 h2
            rcases dr with _ | ⟨a, _ | ⟨b, _ | _⟩⟩ <;> simp at h1
            rcases dl with _ | ⟨d, _ | ⟨e, _ | _⟩⟩ <;> simp at h2
            exact h (.spinors a b d e) rfl
        · exact .inr (.inl (by simp [newParticle, hr]))
    · exact .inr (.inl rfl)

omit [Field K] in
/-- C133: `p[0]` to `p[3]` are the components of the momentum, and `p[-4]` to `p[-1]` the same; other keys raise IndexError. -/
theorem C133_component (p : Particle K) {p0 p1 p2 p3 : K} (h : p.mom = some ![p0, p1, p2, p3]) :
    getComponent p 0 = .ok p0 ∧ getComponent p 1 = .ok p1 ∧ getComponent p 2 = .ok p2 ∧ getComponent p 3 = .ok p3 ∧ getComponent p (-4) = .ok p0 ∧
      getComponent p (-3) = .ok p1 ∧ getComponent p (-2) = .ok p2 ∧ getComponent p (-1) = .ok p3 ∧
      ∀ k : ℤ, getComponent p k = .error .indexError ↔ k < -4 ∨ 3 < k := by
  unfold getComponent
  rw [h]
  refine ⟨rfl, rfl, rfl, rfl, rfl, rfl, rfl, rfl, fun k => ?_⟩
  simp only
  split_ifs with h1 h2
  · simp; omega
  · simp; omega
  · simp; omega

/-- A momentum and spinors over the rationals, where there is no `1j`. -/
example : newParticle (ratCtx .symmetric) true blank (Understood.mom 1 0 0 1).kin = .error .typeError ∧
    ∃ p, newParticle (ratCtx .symmetric) true blank (Understood.spinors 1 2 3 4).kin = .ok p ∧ p.r2b = !![3, 4; 6, 8] := by
  constructor
  · exact C133_accepted (ratCtx .symmetric) rfl true blank (.mom 1 0 0 1)
  · obtain ⟨p, hp⟩ := C133_accepted (ratCtx .symmetric) rfl true blank (.spinors 1 2 3 4)
    refine ⟨p, hp, ?_⟩
    have := (C133_has _ _ _ _ hp).1.2.2
    rw [this]
    norm_num

/-- A list of numbers in an array of shape `(2,)`. -/
example (x y : ℚ) : newParticle (ratCtx .symmetric) true blank (.arr ⟨[2], [x, y]⟩) = .error .exception := by
  rcases C133_refused (ratCtx .symmetric) true blank (.arr ⟨[2], [x, y]⟩) (by rintro a (h | ⟨l, h, -⟩) <;> cases h; rfl)
    (by intro u h; cases u <;> simp [Understood.kin] at h) with ⟨h, -⟩ | h | ⟨⟨l, h, -⟩, -⟩
  · cases h
  · exact h
  · cases h

end Lips

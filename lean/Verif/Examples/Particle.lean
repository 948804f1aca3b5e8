import Verif.Props.ParticleArith
import Verif.Examples.Ctx

/-! Concrete cases meeting the hypotheses of the theorems on single particles. -/

namespace Lips

open Matrix

/-- A massless momentum (light-like, away from the degenerate direction) over `F13`. -/
def exMom : V4 F13 := ![5, 4, 0, 3]

example : exMom 0 ^ 2 - exMom 1 ^ 2 - exMom 2 ^ 2 - exMom 3 ^ 2 = 0 := by decide

/-- The spinor derivation succeeds on it in the asymmetric convention, so `C01` and `C04`
apply to it. -/
example : (ofMom (f13 .asymmetric) exMom).err = none := by
  simp [ofMom, setMom, fromMom, f13, deriveSpinors, deriveR, deriveL, exMom]
  decide

example : Consistent (f13 .asymmetric) (ofMom (f13 .asymmetric) exMom).st :=
  (C01_constructors_consistent (f13 .asymmetric)).2.1 exMom (by
    simp [ofMom, setMom, fromMom, f13, deriveSpinors, deriveR, deriveL, exMom]
    decide)

/-- A history mixing six kinds of operations that runs to the end. -/
example : ∃ p, runOps (f13 .symmetric) (ofSpinors (f13 .symmetric) ![1, 2] ![3, 4]).st
    [.rd ![5, 6], .lu ![7, 8], .swap, .r2 !![1, 2; 3, 4], .r2b !![1, 2; 2, 4],
     .mom ![5, 4, 0, 3], .momd ![1, 2, 3, 4]] = some p := by
  have ok : ∀ o (p : Particle F13), (∃ m, o = .r2 m) ∨ (∃ m, o = .r2b m) ∨ (∃ m, o = .mom m) ∨
      (∃ m, o = .momd m) ∨ o = .swap → (applyOp (f13 .symmetric) p o).err = none := by
    have h : ∀ (p : Particle F13) a b d, (deriveSpinors (f13 .symmetric) p a b d).err = none := by
      intro p a b d
      exact deriveSpinors_symmetric_ok _ rfl _ _ _ _
    rintro o p (⟨m, rfl⟩ | ⟨m, rfl⟩ | ⟨m, rfl⟩ | ⟨m, rfl⟩ | rfl)
    · exact h _ _ _ _
    · exact h _ _ _ _
    · exact h _ _ _ _
    · exact h _ _ _ _
    · rfl
  have step : ∀ o os (p : Particle F13), (applyOp (f13 .symmetric) p o).err = none →
      (∀ q, ∃ r, runOps (f13 .symmetric) q os = some r) →
      ∃ r, runOps (f13 .symmetric) p (o :: os) = some r := by
    intro o os p h hq
    unfold runOps
    rcases ho : applyOp (f13 .symmetric) p o with ⟨q, _ | e⟩
    · exact hq q
    · rw [ho] at h; cases h
  have tail : ∀ q, ∃ r, runOps (f13 .symmetric) q
      [.swap, .r2 !![1, 2; 3, 4], .r2b !![1, 2; 2, 4], .mom ![5, 4, 0, 3], .momd ![1, 2, 3, 4]] =
      some r := by
    intro q
    refine step _ _ _ (ok _ _ (by simp)) fun q => step _ _ _ (ok _ _ (by simp)) fun q =>
      step _ _ _ (ok _ _ (by simp)) fun q => step _ _ _ (ok _ _ (by simp)) fun q =>
      step _ _ _ (ok _ _ (by simp)) fun q => ⟨q, rfl⟩
  have h1 : (applyOp (f13 .symmetric) (ofSpinors (f13 .symmetric) ![1, 2] ![3, 4]).st
      (.rd ![5, 6])).err = none := rfl
  have h2 : (applyOp (f13 .symmetric) (applyOp (f13 .symmetric)
      (ofSpinors (f13 .symmetric) ![1, 2] ![3, 4]).st (.rd ![5, 6])).st (.lu ![7, 8])).err = none :=
    rfl
  rw [runOps]
  rcases ho : applyOp (f13 .symmetric) (ofSpinors (f13 .symmetric) ![1, 2] ![3, 4]).st
    (.rd ![5, 6]) with ⟨q, _ | e⟩
  · rw [ho] at h2
    exact step _ _ _ h2 tail
  · rw [ho] at h1; cases h1

/-- `C04`: a massless bispinor with a square lower right entry. -/
example : (!![1, 2; 2, 4] : M2 F13).det = 0 ∧
    (f13 .symmetric).small ((!![1, 2; 2, 4] : M2 F13) 1 1) = false ∧
    ∃ s, (f13 .symmetric).sqrt ((!![1, 2; 2, 4] : M2 F13) 1 1) = some s := by
  refine ⟨by decide, by decide, 2, by decide⟩

/-- `C05`: a massless momentum in the degenerate direction. -/
example : (!![3, 0; 0, 0] : M2 F13).det = 0 ∧
    (f13 .symmetric).small ((!![3, 0; 0, 0] : M2 F13) 1 1) = true := by
  constructor <;> decide

/-- `C06`: a sum of three particles. -/
example : ∃ s, pSum (f13 .symmetric) [(ofSpinors (f13 .symmetric) ![1, 2] ![3, 4]).st,
    (ofSpinors (f13 .symmetric) ![1, 1] ![0, 4]).st, (ofSpinors (f13 .symmetric) ![5, 2] ![3, 7]).st] =
      some (some s) :=
  C06_sum_total _ rfl _ (by simp)

/-- `C07_hash_partial`: a massive particle. -/
example : (f13 .symmetric).small (ofR2 (f13 .symmetric) !![1, 0; 0, 1]).st.m2 = false := by
  rw [(C03_m2_minkowski (f13 .symmetric) _ ((C01_constructors_consistent _).1 _
    (setR2_symmetric_ok _ rfl _ _)).mom).1, ofR2, setR2_r2]
  decide

end Lips

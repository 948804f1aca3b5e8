import Verif.Props.FixMom
import Verif.Examples.Ctx

/-! Concrete cases meeting the hypotheses of the theorems on `fix_mom_cons`. -/

namespace Lips

open Matrix

/-- Four particles over `F13` built from spinors; momentum is not conserved. -/
def exSpin : Fin 4 → V2 F13 × V2 F13 :=
  ![(![1, 2], ![3, 4]), (![1, 1], ![0, 4]), (![5, 2], ![3, 7]), (![1, 9], ![2, 2])]

/-- See `exSpin`. -/
def exPoint (c : Ctx F13) : Point F13 4 := fun k => (ofSpinors c (exSpin k).1 (exSpin k).2).st

theorem exPoint_consistent (c : Ctx F13) (k : Fin 4) : Consistent c (exPoint c k) :=
  ((C01_constructors_consistent c).2.2 _ _).2

theorem exPoint_l (c : Ctx F13) (k : Fin 4) : (exPoint c k).l_d = some (exSpin k).2 :=
  (C02_assign_then_read c _).2.1 _

theorem exPoint_r (c : Ctx F13) (k : Fin 4) : (exPoint c k).r_d = some (exSpin k).1 := by
  unfold exPoint ofSpinors setLd rebuildFromSpinors
  simp only
  exact (momFromR2b_fields c _).1

theorem exPoint_r2 (c : Ctx F13) (k : Fin 4) :
    (exPoint c k).r2 = outer (lDownUp (exSpin k).2) (rDownUp (exSpin k).1) := by
  unfold exPoint ofSpinors setLd rebuildFromSpinors
  simp only
  exact (momFromR2b_fields c _).2.2.2.2.1

/-- The point does not conserve momentum, so `C09` says something about it. -/
example (c : Ctx F13) : ¬ Conserves (exPoint c) := by
  intro h
  have := h 0 0
  simp only [exPoint_r2] at this
  revert this; decide

/-- `C09` applies to labels 1 and 2. -/
example : ∃ ps', fixMomCons (f13 .symmetric) (exPoint (f13 .symmetric)) 1 2 false 1 (3, 4) = .ok ps' ∧
    Conserves ps' := by
  obtain ⟨ps', h, hc, -⟩ := C09_fix_mom_cons_axis1 (f13 .symmetric) (exPoint (f13 .symmetric)) 1 2 (3, 4)
    (by decide) (by decide) (by decide) (exPoint_consistent _ _) (exPoint_consistent _ _)
    (exPoint_l _ _) (exPoint_l _ _) (by decide)
  exact ⟨ps', h, hc⟩

/-- `C10` applies to labels 1 and 2. -/
example : ∃ ps', fixMomCons (f13 .symmetric) (exPoint (f13 .symmetric)) 1 2 false 2 (3, 4) = .ok ps' ∧
    Conserves ps' := by
  obtain ⟨ps', h, hc, -⟩ := C10_fix_mom_cons_axis2 (f13 .symmetric) (exPoint (f13 .symmetric)) 1 2 (3, 4)
    (by decide) (by decide) (by decide) (exPoint_consistent _ _) (exPoint_consistent _ _)
    (exPoint_r _ _) (exPoint_r _ _) (by decide)
  exact ⟨ps', h, hc⟩

/-- `C12` applies to the draw (3, 4), and `C13` to the result. -/
example : ∃ ps', fixMomCons (f13 .symmetric) (exPoint (f13 .symmetric)) 0 0 false 1 (3, 4) = .ok ps' ∧
    Conserves ps' := by
  obtain ⟨ps', h, hc, -⟩ := C12_any_draw (f13 .symmetric) (exPoint (f13 .symmetric))
    (exPoint_consistent _) (3, 4) (by decide) (by decide) (by decide)
    (exPoint_l _ _) (exPoint_l _ _) (by decide)
  exact ⟨ps', h, hc⟩

/-- `C13_idempotent`. -/
example : ∃ ps', fixAxis1 (f13 .symmetric) (exPoint (f13 .symmetric)) 0 1 = .ok ps' ∧
    fixAxis1 (f13 .symmetric) ps' 0 1 = .ok ps' := by
  obtain ⟨ps', h, -⟩ := fixAxis1_spec (f13 .symmetric) (exPoint (f13 .symmetric))
    (a := 0) (b := 1) (by decide) (exPoint_consistent _ _) (exPoint_consistent _ _)
    (exPoint_l _ _) (exPoint_l _ _) (by decide)
  exact ⟨ps', h, C13_idempotent (f13 .symmetric) (exPoint (f13 .symmetric)) ps'
    (a := 0) (b := 1) (by decide) (exPoint_consistent _ _) (exPoint_consistent _ _)
    (exPoint_l _ _) (exPoint_l _ _) (by decide) h⟩

/-- `C11`: three particles with four momenta given directly. -/
noncomputable def exMomPoint (c : Ctx F13) : Point F13 3 := fun _ => (ofMom c ![5, 4, 0, 3]).st

example : ∃ ps', fixReal (f13 .symmetric) (exMomPoint (f13 .symmetric)) 0 1 1 = .ok ps' :=
  C11_real_momenta_returns (f13 .symmetric) rfl rfl (exMomPoint (f13 .symmetric)) (by decide)
    (fun _ => ![5, 4, 0, 3]) (fun _ _ _ => setMom_mom _ _ _) ⟨2, by decide⟩ 1 (by decide)

example : ∀ k, Consistent (f13 .symmetric) (exMomPoint (f13 .symmetric) k) := fun _ =>
  (C01_constructors_consistent (f13 .symmetric)).2.1 _
    (setMom_symmetric_ok (f13 .symmetric) rfl rfl _ _)

end Lips

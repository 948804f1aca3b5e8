import Verif.Props.HardBlock
import Verif.Examples.Compute
import Mathlib.Data.Rat.Defs
import Mathlib.Algebra.Order.Ring.Rat

/-! Concrete cases for C117. -/

namespace Lips

/-- A particle at rest at zero whose right spinor marks the point. -/
def markPoint (x : ℚ) : Point ℚ 1 := fun _ => ⟨some ![x, 0], none, none, none, 0, 0, none, none⟩

/-- Invariants 1 and 2 are always zero, all others have the value of the mark. -/
def markEnv : Env ℚ ℚ ℕ 1 where
  abs := fun x => if x < 0 then -x else x
  tol := 0
  compute := fun ps t => if t = 1 ∨ t = 2 then .ok 0 else
    match (ps 0).r_d with
    | some r => .ok (r 0)
    | none => .error .typeError

/-- Setting 1 leaves the mark 7, setting 2 the mark 0. -/
def markSet (t : ℕ) : Solver ℚ 1 Unit := fun _ => (.ok (), markPoint (if t = 1 then 7 else 0))

/-- The limit of 1 is new, that of 2 is one in which the listed invariant 5 vanishes. -/
theorem mark_block : hardBlock markEnv 1 1 0 (fun _ => .ok (markPoint 3)) markSet [] [5] 9 0 [1, 2] = some (.ok [1]) := by
  decide +kernel

example : [1].Sublist [1, 2] ∧ 1 ∉ [5] :=
  ⟨(C117_added (by simp) mark_block).1,
    (C117_new (by simp) (fun x h => by rw [sub_zero] at h; exact le_trans h (by decide)) (by simp) mark_block (t := 1) (by simp)).1⟩

/-- An exception in `_set` ends the block. -/
example : hardBlock markEnv 1 1 0 (fun _ => .ok (markPoint 3)) (fun _ ps => (.error .exception, ps)) [] [5] 9 0 [1, 2] = some (.error .exception) := by
  decide +kernel

/-- A solver that leaves the point alone and a size that is always zero: everything is small, so that the block runs through and adds nothing. -/
example : ∃ inv0 fuel inv, generate 6 (fun _ l => l) (.ok []) ⟨true, true, false, false, true⟩ = .ok inv0 ∧
    hardBlock (textEnv (fun _ : F13 => 0) 0 6) 0 0 0 (fun _ => .ok pt6) (fun _ ps => (.ok (), ps)) [] (invFull inv0) fuel 0 nineStrings = some (.ok []) ∧
    generate 6 (fun _ l => l) (.ok []) ⟨true, false, false, false, true⟩ = .ok inv ∧ (inv 1).Nodup := by
  have g := C60_six_seven (n := 6) (.inl rfl) (ord := fun _ l => l) (fun _ _ => .refl _) (.ok []) ⟨true, true, false, false, true⟩
  rw [if_neg (by decide), if_neg (by decide)] at g
  obtain ⟨inv0, h0⟩ := g
  have sp : Spin (f13 .symmetric) pt6 (fun k => (spin6 k).1) fun k => (spin6 k).2 := pt6_massless
  have val : ∀ t ∈ nineStrings, ∃ x, (textEnv (fun _ : F13 => 0) 0 6).compute pt6 t = .ok x := by
    intro t ht
    rw [nine_texts] at ht
    obtain ⟨y, -, rfl⟩ := List.mem_map.1 ht
    refine ⟨threeVal (fun k => (spin6 k).1) (fun k => (spin6 k).2) y.1 y.2.1 {y.2.2.1, y.2.2.2}, ?_⟩
    simp only [textEnv, C110_value sp 6 _ _ (Finset.insert_nonempty _ _)]
  have set : ∀ t ∈ nineStrings, setChecked (textEnv (fun _ : F13 => 0) 0 6) (fun ps => (.ok (), ps)) t 0 true pt6 = (.ok (), pt6) := by
    intro t ht
    obtain ⟨x, hx⟩ := val t ht
    have hk : checkPoint (textEnv (fun _ : F13 => 0) 0 6) pt6 = none := checkPoint_none (by decide) ⟨fun _ _ => le_refl _, fun _ => le_refl _⟩
    simp only [setChecked, hx, hk, if_true]
    exact if_pos (le_refl _)
  obtain ⟨l, k, hk⟩ := C117_returns (E := textEnv (fun _ : F13 => 0) 0 6) (thr := 0) (invThr := 0) (v := 0) (draw := fun _ => .ok pt6)
    (inner := fun _ ps => (.ok (), ps)) (dflt := []) (full := invFull inv0) (by decide) (full_ne h0) (fun _ => ⟨_, rfl⟩) nineStrings
    (fun t ht j ps e => by
      obtain rfl := Except.ok.inj e
      refine ⟨_, set t ht, fun u hu => ?_⟩
      obtain ⟨y, hy⟩ := (C116_usable (K := F13) (n := 6) (by decide) (fun _ _ => .refl _) (by rintro l e; obtain rfl := Except.ok.inj e; simp) h0 hu).2 sp
      exact ⟨y, by simp only [textEnv, hy 6 (le_refl _)]⟩) 0
  have hl : l = [] := C117_unrestricted (K := F13) (fun _ => rfl) (fun _ _ => le_refl _) (f := ⟨true, false, false, false, true⟩)
    (fun t j ps ps' e h => by
      obtain rfl := Except.ok.inj e
      obtain rfl : pt6 = ps' := by
        unfold setChecked at h
        dsimp only at h
        split at h
        · cases h
        split at h
        · cases h
        split at h <;> cases h
        rfl
      exact ⟨pt6_conserves, _, _, _, sp⟩) rfl h0 (hk 0)
  subst hl
  obtain ⟨inv, h1, -, -, h2, -⟩ := C117_six (K := F13) (fun _ _ => le_refl _) (f := ⟨true, false, false, false, true⟩) rfl h0 (hk 0)
  exact ⟨inv0, k + 0, inv, h0, hk 0, h1, h2⟩

end Lips

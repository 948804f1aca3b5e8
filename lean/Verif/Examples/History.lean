import Verif.Props.History
import Verif.Examples.PairAll

/-! Concrete cases meeting the hypotheses of the theorems on histories of calls. -/

namespace Lips

theorem abs13_exact (x : F13) : env13.T.abs x ≤ env13.T.tol ↔ x = 0 :=
  ⟨fun h => (ZMod.val_eq_zero x).mp (Nat.le_zero.mp h), fun h => by subst h; exact T13_zero⟩

theorem pt6_good : GoodPoint env13.c pt6 := ⟨pt6_conserves, r6, l6, pt6_massless⟩

/-- The image under a string of equal digits returns. -/
theorem image_returns (ps : Point F13 6) : ∃ qs : Point F13 6,
    Command.run env13 (fun _ => .ok 0) 5 (fun _ _ => true) ps (.image ("111111".toList, true)) = some (.ok qs) := by
  have hk : imageKeys (fun _ _ => true) (List.ofFn ps) "111111".toList (List.ofFn ps) =
      some ((List.ofFn ps).map fun p => ('1', p)) := by
    simp [List.ofFn_succ, imageKeys, pyIndex, List.findIdx_cons]
  have hi : ∃ m, imageStr (fun _ _ => true) (List.ofFn ps) "111111".toList = .ok m := by
    unfold imageStr
    rw [if_pos (by decide), hk]
    exact ⟨_, rfl⟩
  obtain ⟨m, hm⟩ := hi
  have hl : (m.map (anglesForSquares env13.c)).length = 6 := by
    rw [List.length_map, (imageStr_perm hm).length_eq, List.length_ofFn]
  refine ⟨fun i => (m.map (anglesForSquares env13.c))[i], ?_⟩
  simp only [Command.run, imageRule, hm, if_true, ofList]
  rw [dif_pos hl]

/-- C123: two brackets are set, the kinds of spinors are exchanged, an image is taken: the point is good. -/
example : ∃ qs, runAll env13 (fun _ => .ok 0) 5 (fun _ _ => true)
      [.pair "⟨1|2⟩" "⟨3|4⟩" (.two true 0 1, 7) (.two true 2 3, 5), .swap, .image ("111111".toList, true)] pt6 = some (.ok qs) ∧
    GoodPoint env13.c qs := by
  obtain ⟨ps', h1, h2, h3, h4, -⟩ := C87_separate (f13 .symmetric) T13 T13_zero pt6 r6 l6 pt6_massless true true 0 1 2 3 (by decide) (by decide)
    (Or.inr (by decide)) 4 5 (by decide) 7 5 (by unfold HeadOk; decide) (by unfold HeadOk; decide) (by decide)
  have hp : setPair env13 (fun _ => .ok 0) 5 "⟨1|2⟩" "⟨3|4⟩" (.two true 0 1, 7) (.two true 2 3, 5) pt6 = some (.ok ps') := by
    refine C101_returns env13 T13_zero (by decide) _ 5 _ _ _ _ pt6 ps' ?_ h4 7 5 h2 h3 (.inl rfl) (.inl rfl)
    simp only [pairInner, Inv.blank, env13, h1, Except.map, Bool.false_eq_true, Bool.or_self, if_false]
  obtain ⟨qs, hq⟩ := image_returns fun i => anglesForSquares env13.c (ps' i)
  have hr : runAll env13 (fun _ => .ok 0) 5 (fun _ _ => true)
      [.pair "⟨1|2⟩" "⟨3|4⟩" (.two true 0 1, 7) (.two true 2 3, 5), .swap, .image ("111111".toList, true)] pt6 = some (.ok qs) := by
    have e1 : Command.run env13 (fun _ => .ok 0) 5 (fun _ _ => true) pt6
      (.pair "⟨1|2⟩" "⟨3|4⟩" (.two true 0 1, 7) (.two true 2 3, 5)) = some (.ok ps') := hp
    simp only [runAll, e1]
    have e2 : Command.run env13 (fun _ => .ok 0) 5 (fun _ _ => true) ps' .swap = some (.ok fun i => anglesForSquares env13.c (ps' i)) := rfl
    simp only [e2, hq]
  exact ⟨qs, hr, C123_good env13 abs13_exact _ 5 _ _ pt6 qs pt6_good (by simp [conservedAfter, Command.conserved]) hr⟩

/-- C123: a value set without momentum fixing leaves the mass shell alone; momentum has to be fixed afterwards. -/
example (qs : Point F13 6) (X : F13)
    (h : runAll env13 (fun _ => .ok 0) 5 (fun _ _ => true) [.set "⟨1|2⟩".toList X false 1, .fix 5 6 1 (1, 2)] pt6 = some (.ok qs)) :
    GoodPoint env13.c qs :=
  C123_good env13 abs13_exact _ 5 _ _ pt6 qs pt6_good (by simp [conservedAfter, Command.conserved]) h

example : ¬ conservedAfter (K := F13) (n := 6) [.set "⟨1|2⟩".toList 7 false 1] True := by
  simp [conservedAfter, Command.conserved]

end Lips

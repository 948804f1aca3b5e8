import Verif.Props.HeapShare
import Verif.Examples.FixMom

/-! Concrete cases for C112. -/

namespace Lips

/-- A program that makes a point, copies it and puts symbols into the copy, for ever. -/
def plainProg (c : Ctx F13) (t : ℕ) (_ : List (List (Particle F13))) : Cmd F13 :=
  match t % 3 with
  | 0 => .new [exPoint c 0, exPoint c 1]
  | 1 => .image 0 ("12".toList, false)
  | _ => .each 1 fun _ => some (.analytic (fun _ => 0) fun _ => 5)

/-- C112: such programs exist. -/
example (c : Ctx F13) : ∀ t vs, (plainProg c t vs).plain := fun t vs => by
  unfold plainProg
  split <;> trivial

/-- C112: so do programs that assign and cluster. -/
example : ∀ t vs, ((fun t _ => if t = 0 then .new [] else .cluster 0 [[0], [1, 2]] : ℕ → List (List (Particle F13)) → Cmd F13) t vs).assigns := fun t vs => by
  dsimp only
  split <;> trivial

/-- C112: and programs that do not name point 1, whatever else they share. -/
example : ∀ t vs, ((fun t _ => if t = 0 then .pick [(0, 1)] else .share 0 0 2 0 : ℕ → List (List (Particle F13)) → Cmd F13) t vs).avoids 1 := fun t vs => by
  dsimp only
  split <;> simp [Cmd.avoids]

/-- C112: a memory in which a slice shares its object with a point, and the copy made of it succeeds. -/
example (c : Ctx F13) (h : Heap F13) : Good false (after c h [.new [exPoint c 0], .pick [(0, 0)]]).heap (after c h [.new [exPoint c 0], .pick [(0, 0)]]).pts.flatten ∧
    ∃ m', stepHeap c (after c h [.new [exPoint c 0], .pick [(0, 0)]]) (.image 1 ("1".toList, false)) = (m', none) := by
  obtain ⟨g, -, -, -⟩ := Good.new (w := false) (h := h) (live := []) ⟨by simp, by simp, by simp, by simp⟩ (exPoint c 0)
  have hm : after c h [.new [exPoint c 0], .pick [(0, 0)]] = ⟨h.new (exPoint c 0), [[h.no], [h.no]]⟩ := rfl
  rw [hm]
  refine ⟨g.mono (by simp), ?_⟩
  classical
  simp only [stepHeap, List.getElem?_cons_succ, List.getElem?_cons_zero, imageHeap]
  have hi : imageStr (fun i j => decide (pEq ((h.new (exPoint c 0)).val i) ((h.new (exPoint c 0)).val j))) [h.no] "1".toList = .ok [h.no] := by
    simp [imageStr, imageKeys, pyIndex, pEq]
    decide
  rw [hi]
  exact ⟨_, rfl⟩

/-- C112: the particle that was clustered is inconsistent after symbols were put into the cluster. -/
example (c : Ctx F13) : ¬ Consistent c { exPoint c 0 with r_d := some (newR (fun _ => 0) (fun _ => 5) (exSpin 0).1), l_d := some (newL (fun _ => 0) (fun _ => 5) (exSpin 0).2) } := by
  refine C112_cluster_stale c (exPoint c 0) (exPoint_r c 0) (exPoint_consistent c 0) fun e => ?_
  have := congrFun e 0
  revert this
  unfold newR exSpin
  decide

end Lips

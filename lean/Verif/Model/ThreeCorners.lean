import Verif.Model.Cluster
import Verif.Model.Indexing

/-!
Model of `ijk_to_3NonOverlappingLists` in both modes and of `ijk_to_3Ks` (lips/particles.py:471-491).
-/

namespace Lips

variable {K : Type*} [Field K] {n : ℕ}

/-- The three lists of labels, particles.py:474-486, as positions of the point: IndexError for fewer than three labels (`ijk[2]`), further ones are
ignored; IndexError for a label that is not of the point, which is raised where the lists are used (`self[i]`). Every loop runs for at most `fuel`
rounds, `none` if that is not enough. -/
def threeCorners (n fuel : ℕ) (ijk : List ℤ) : Option (Except Err (List (Fin n) × List (Fin n) × List (Fin n))) :=
  match ijk with
  | i :: j :: k :: _ =>
    match arcs n fuel i j k with
    | none => none
    | some (A, B, C) =>
      match A.mapM (fun z => label n z.toNat), B.mapM (fun z => label n z.toNat), C.mapM (fun z => label n z.toNat) with
      | .ok A, .ok B, .ok C => some (.ok (A, B, C))
      | _, _, _ => some (.error .indexError)
  | _ => some (.error .indexError)

/-- `ijk_to_3NonOverlappingLists` with a mode other than 1, particles.py:487-491: the particles in place of their labels. -/
def threeLists (ps : Point K n) (fuel : ℕ) (ijk : List ℤ) :
    Option (Except Err (List (Particle K) × List (Particle K) × List (Particle K))) :=
  (threeCorners n fuel ijk).map fun r => match r with
    | .ok (A, B, C) => .ok (A.map ps, B.map ps, C.map ps)
    | .error e => .error e

/-- `ijk_to_3Ks`, particles.py:471-472. What an addition of particles raises is not followed. -/
noncomputable def threeKs (c : Ctx K) (ps : Point K n) (fuel : ℕ) (ijk : List ℤ) : Option (Except Err (Point K 3)) :=
  match threeCorners n fuel ijk with
  | none => none
  | some (.error e) => some (.error e)
  | some (.ok (A, B, C)) =>
    match cluster c ps ![A, B, C] with
    | some qs => some (.ok qs)
    | none => some (.error .exception)

end Lips

import Verif.Model.Solve
import Verif.Model.Check

/-!
Model of the block of `Invariants.GenerateFromScratch` that decides at six points which of nine strings are added
(lips/invariants.py:86-97). The random points, the solver inside `_set` and the evaluation of texts are arbitrary.
-/

namespace Lips

variable {K Γ I : Type*} [Field K] [LinearOrder Γ] {n : ℕ}

/-- invariants.py:94-98 after `randomise_all` returned the point `ps`: `_set(inv, 10 ** -30)`, the check of lines 322-384 of
particles.py against `full`, and whether the string is added. `none` when the bound on the passes of the sorting loop is
exhausted. The check is silent, so that values that are not numbers do not stop it. -/
def hardTry (E : Env K Γ I n) (thr invThr : Γ) (v : K) (inner : I → Solver K n Unit) (dflt full : List I) (fuel : ℕ) (t : I)
    (ps : Point K n) : Option (Except Err Bool) :=
  match setChecked E (inner t) t v true ps with
  | (.error e, _) => some (.error e)
  | (.ok _, ps') =>
    match momentumConservationCheck E.abs E.tol ps', onshellRelationCheck E.abs E.tol ps' with
    | .error e, _ => some (.error e)
    | _, .error e => some (.error e)
    | .ok mc, .ok os =>
      match consistencyCheck (fun a b => decide (a ≤ b)) (fun a b => decide (b < a)) thr invThr
          (fun u => (E.compute ps' u).map E.abs) (fun _ => false) true mc os dflt fuel full with
      | none => none
      | some (_, .error e) => some (.error e)
      | some (_, .ok r) => some (.ok (r.mom_cons && r.on_shell && r.small.isEmpty))

/-- The loop over the strings, invariants.py:93-98; `draw i` is what the `i`-th call of `randomise_all` leaves or raises. -/
def hardBlock (E : Env K Γ I n) (thr invThr : Γ) (v : K) (draw : ℕ → Except Err (Point K n)) (inner : I → Solver K n Unit)
    (dflt full : List I) (fuel : ℕ) : ℕ → List I → Option (Except Err (List I))
  | _, [] => some (.ok [])
  | i, t :: ts =>
    match draw i with
    | .error e => some (.error e)
    | .ok ps =>
      match hardTry E thr invThr v inner dflt full fuel t ps with
      | none => none
      | some (.error e) => some (.error e)
      | some (.ok b) =>
        match hardBlock E thr invThr v draw inner dflt full fuel (i + 1) ts with
        | some (.ok l) => some (.ok (if b then t :: l else l))
        | o => o

end Lips

import Verif.Model.Heap

/-!
Specification for C112: points whose particles are values. A command on one point changes nothing else.
-/

namespace Lips

variable {K : Type*} [Field K]

/-- `subs` on one particle. -/
def subsOne (c : Ctx K) (f : K → K) (p : Particle K) : Out K :=
  match p.r_d with
  | none => ⟨p, some .typeError⟩
  | some r =>
    let o := setRd c p ![f (r 0), f (r 1)]
    match o.err with
    | some e => ⟨o.st, some e⟩
    | none =>
      match o.st.l_d with
      | none => ⟨o.st, some .typeError⟩
      | some l => setLd c o.st ![f (l 0), f (l 1)]

/-- An action on a value. -/
noncomputable def actVal (c : Ctx K) (p : Particle K) : Act K → Out K
  | .op o => applyOp c p o
  | .analytic m s => analyticOne c p m s
  | .subs f => subsOne c f p

/-- An action on every particle until one raises. -/
noncomputable def eachVal (c : Ctx K) (a : ℕ → Option (Act K)) : ℕ → List (Particle K) → List (Particle K) × Option Err
  | _, [] => ([], none)
  | j, p :: ps =>
    match a j with
    | none => (p :: ps, some .indexError)
    | some x =>
      match actVal c p x with
      | ⟨p', none⟩ => let r := eachVal c a (j + 1) ps; (p' :: r.1, r.2)
      | ⟨p', some e⟩ => (p' :: ps, some e)

/-- Particle `k` of point `p`. -/
def valAt (vs : List (List (Particle K))) (p k : ℕ) : Option (Particle K) := vs[p]?.bind (·[k]?)

/-- Replace particle `k` of point `p`. -/
def setAt (vs : List (List (Particle K))) (p k : ℕ) (v : Particle K) : List (List (Particle K)) := vs.set p ((vs[p]?.getD []).set k v)

/-- The sums of the corners. -/
noncomputable def legsVal (c : Ctx K) (ps : List (Particle K)) (l : List ℕ) : Option (Particle K) :=
  match l.mapM fun k => ps[k]? with
  | none => none
  | some [] => none
  | some (q :: qs) => pSumFrom c q qs

open Classical in
/-- One command on values. -/
noncomputable def stepVal (c : Ctx K) (vs : List (List (Particle K))) : Cmd K → List (List (Particle K)) × Option Err
  | .new ps => (vs ++ [ps], none)
  | .act p k a =>
    match valAt vs p k with
    | none => (vs, some .indexError)
    | some v => let r := actVal c v a; (setAt vs p k r.st, r.err)
  | .each p a =>
    match vs[p]? with
    | none => (vs, some .indexError)
    | some ps => let r := eachVal c a 0 ps; (vs.set p r.1, r.2)
  | .image p r =>
    match vs[p]? with
    | none => (vs, some .indexError)
    | some ps =>
      match imageRule (fun x y => decide (pEq x y)) (anglesForSquares c) ps r with
      | .error e => (vs, some e)
      | .ok qs => (vs ++ [qs], none)
  | .share p k p' k' =>
    match valAt vs p k, valAt vs p' k' with
    | some v, some w =>
      match w.r_d with
      | none => (vs, some .typeError)
      | some r => let o := setRd c v r; (setAt vs p k o.st, o.err)
    | _, _ => (vs, some .indexError)
  | .cluster p ls =>
    match vs[p]? with
    | none => (vs, some .indexError)
    | some ps =>
      match ls.mapM fun l => l.mapM fun k => ps[k]? with
      | none => (vs, some .indexError)
      | some _ =>
        match ls.mapM (legsVal c ps) with
        | none => (vs, some .typeError)
        | some qs => (vs ++ [qs], none)
  | .pick l =>
    match l.mapM fun x => valAt vs x.1 x.2 with
    | none => (vs, some .indexError)
    | some ps => (vs ++ [ps], none)

/-- `t` commands on values. -/
noncomputable def runVal (c : Ctx K) (prog : ℕ → List (List (Particle K)) → Cmd K) : ℕ → List (List (Particle K)) → List (List (Particle K))
  | 0, vs => vs
  | t + 1, vs => let vs' := runVal c prog t vs; (stepVal c vs' (prog t vs')).1

/-- Commands that write into arrays. -/
def Act.inPlace : Act K → Bool
  | .op _ => false
  | .analytic _ _ | .subs _ => true

/-- No sharing is introduced: neither `pick` nor `cluster` nor `share`. -/
def Cmd.plain : Cmd K → Prop
  | .pick _ | .cluster _ _ | .share _ _ _ _ => False
  | _ => True

/-- Nothing is written into arrays and no objects are shared. -/
def Cmd.assigns : Cmd K → Prop
  | .pick _ => False
  | .act _ _ a => a.inPlace = false
  | .each _ a => ∀ j x, a j = some x → x.inPlace = false
  | _ => True

end Lips

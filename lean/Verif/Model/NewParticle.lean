import Verif.Model.Particle

/-!
Model of the choice that `Particle.__init__` makes (lips/particle.py:30-52) and of `Particle.__getitem__` (109-110).

Simplifications: arrays have entries in the field; keys of `__getitem__` are integers.
-/

namespace Lips

variable {K : Type*} [Field K]

/-- A numpy array: its shape and its entries, rows one after the other. -/
structure Nd (K : Type*) where
  shape : List ℕ
  data : List K

/-- As many entries as the shape says. -/
def Nd.Ok (a : Nd K) : Prop := a.data.length = a.shape.prod

/-- What can be passed as `kinematics`; the items of a tuple are arrays or objects without `shape`. -/
inductive Kin (K : Type*) where
  | none
  | arr (a : Nd K)
  | tup (l : List (Option (Nd K)))
  | other

/-- The object, or the exception that the constructor raises. -/
def Out.result (o : Out K) : Except Err (Particle K) :=
  match o.err with
  | some e => .error e
  | none => .ok o.st

/-- `Particle(kinematics, field=field)`, particle.py:41-52. `known`: is `field.name` one of the five names of line 42; `rnd` is what `randomise`
leaves. -/
noncomputable def newParticle (c : Ctx K) (known : Bool) (rnd : Particle K) : Kin K → Except Err (Particle K)
  | .none => if known then .ok rnd else .error .exception
  | .arr a =>
    if a.shape = [4] then (ofMom c fun k => a.data.getD k 0).result
    else if a.shape = [2, 2] then (ofR2 c (Matrix.of fun i j => a.data.getD (2 * i + j) 0)).result
    else .error .exception
  | .tup [x, y] =>
    match x with
    | Option.none => .error .attributeError
    | some r =>
      if r.shape = [2, 1] then
        match y with
        | Option.none => .error .attributeError
        | some l =>
          if l.shape = [1, 2] then (ofSpinors c (fun k => r.data.getD k 0) (fun k => l.data.getD k 0)).result
          else .error .exception
      else .error .exception
  | .tup _ => .error .exception
  | .other => .error .exception

/-- `p[key]`, particle.py:109-110: an entry of the array `four_mom`, from the end for negative keys; None cannot be indexed. -/
def getComponent (p : Particle K) (key : ℤ) : Except Err K :=
  match p.mom with
  | Option.none => .error .typeError
  | some v =>
    if h : 0 ≤ key ∧ key < 4 then .ok (v ⟨key.toNat, by omega⟩)
    else if h : -4 ≤ key ∧ key < 0 then .ok (v ⟨(key + 4).toNat, by omega⟩)
    else .error .indexError

end Lips

import Verif.Model.Text

/-!
Model of the internal masses of `Particles` (lips/particles.py:62-84, 117-119).
`V` is the type of attribute values.
-/

namespace Lips

/-- ASCII letter, `[a-zA-Z]`. -/
def isLetter (c : Char) : Bool := c.isAlpha

/-- `pMVar.match(name)`, tools.py:34: `m`, `M` or `μ`, at most one underscore, letters, digits.
Simplification: ASCII digits, and `$` is the end of the string. -/
def isMassName (s : List Char) : Bool :=
  match s with
  | [] => false
  | c :: cs =>
    (c = 'm' || c = 'M' || c = 'μ') &&
      ((match cs with
        | '_' :: r => r
        | r => r).dropWhile isLetter).all Char.isDigit

/-- The type of the object stored as `self.internal_masses`. -/
inductive Kind where
  | set | list | tuple
  deriving DecidableEq, Repr

/-- The part of the object state that matters: the container `internal_masses`, whether it is the
very object the caller passed, and the attributes. -/
structure MassState (V : Type*) where
  kind : Kind
  names : List (List Char)
  shared : Bool
  attrs : List (List Char × V)

/-- `set.add`. -/
def setAdd (l : List (List Char)) (x : List Char) : List (List Char) := if x ∈ l then l else l ++ [x]

variable {V : Type*}

/-- The properties of `Particles`, which have no setter (particles.py:102-124, 386-388): assigning them raises AttributeError. -/
def readOnly : List (List Char) :=
  ["total_mom".toList, "m2s".toList, "ms".toList, "internal_masses_dict".toList, "multiplicity".toList, "spinors_are_in_field_extension".toList]

/-- `__setattr__`, particles.py:81-84: for a mass name first `self.internal_masses.add(name)`, which
raises AttributeError on a list or a tuple; then `super().__setattr__`. Simplification: assigning the attribute
`internal_masses` itself is not modelled. -/
def massSet (st : MassState V) (name : List Char) (v : V) : MassState V × Option Err :=
  if isMassName name then
    match st.kind with
    | .set =>
      if name ∈ readOnly then ({ st with names := setAdd st.names name }, some .attributeError)
      else ({ st with names := setAdd st.names name, attrs := dictInsert st.attrs name v }, none)
    | _ => (st, some .attributeError)
  else if name ∈ readOnly then (st, some .attributeError)
  else ({ st with attrs := dictInsert st.attrs name v }, none)

/-- A sequence of assignments, stopped by the first exception. -/
def massSets (st : MassState V) : List (List Char × V) → MassState V × Option Err
  | [] => (st, none)
  | kv :: kvs =>
    match massSet st kv.1 kv.2 with
    | (st', none) => massSets st' kvs
    | (st', some e) => (st', some e)

/-- The `internal_masses` argument. The values drawn by `self.field.random()` for names without a
value are given with the names. -/
inductive MassArg (V : Type*) where
  | none
  | dict (d : List (List Char × V))
  | names (kind : Kind) (l : List (List Char × V))

/-- particles.py:62-74, starting from the attributes set before. -/
def massInit (attrs : List (List Char × V)) : MassArg V → MassState V × Option Err
  | .none => (⟨.set, [], false, attrs⟩, none)
  | .dict d => massSets ⟨.set, [], false, attrs⟩ d
  | .names kind l => massSets ⟨kind, l.map Prod.fst, true, attrs⟩ l

/-- `internal_masses_dict`, particles.py:117-119; a registered name without attribute raises
AttributeError (`none`). Simplification: a registered name of a property (after an assignment that raised) would give the value of the property; its
uses, the constructor calls in `image` and `cluster`, then raise AttributeError too. -/
def massDict (st : MassState V) : Option (List (List Char × V)) :=
  st.names.mapM fun k => (st.attrs.find? fun kv => kv.1 = k).map fun kv => (k, kv.2)

/-- What the caller's own container holds after the construction and later assignments. -/
def callerNames (orig : List (List Char)) (st : MassState V) : List (List Char) :=
  if st.shared then st.names else orig

end Lips

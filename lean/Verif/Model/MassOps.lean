import Verif.Model.Masses

/-!
Model of internal masses of several points: which of them share the container `internal_masses`, and what the operations on points do with masses
(lips/particles.py:62-84, 117-119, 144-175, 268-277, 401-404).

Values of masses are immutable. Attributes that are not masses are kept, `field`, `oRefVec` and `internal_masses` are left out.
-/

namespace Lips

variable {V : Type*}

/-- A point: the number of the container that is its attribute `internal_masses`, and the other attributes. -/
structure MPoint (V : Type*) where
  box : ℕ
  attrs : List (List Char × V)

/-- Containers and points, in the order in which they were made. -/
structure MWorld (V : Type*) where
  boxes : List (Kind × List (List Char))
  pts : List (MPoint V)

/-- What can be seen of point `p`. -/
def MWorld.get (w : MWorld V) (p : ℕ) : Option (MassState V) :=
  w.pts[p]?.bind fun q => w.boxes[q.box]?.map fun b => ⟨b.1, b.2, false, q.attrs⟩

/-- Point `p` and its container after a change. -/
def MWorld.put (w : MWorld V) (p : ℕ) (st : MassState V) : MWorld V :=
  match w.pts[p]? with
  | none => w
  | some q => ⟨w.boxes.set q.box (st.kind, st.names), w.pts.set p ⟨q.box, st.attrs⟩⟩

/-- A new point with a container of its own. -/
def MWorld.add (w : MWorld V) (st : MassState V) : MWorld V :=
  ⟨w.boxes ++ [(st.kind, st.names)], w.pts ++ [⟨w.boxes.length, st.attrs⟩]⟩

/-- The loop over the masses in `subs`, particles.py:268-277: `g` is what happens to one value, the assignment goes through `__setattr__`. -/
def massSubs (g : V → Except Err V) : List (List Char) → MassState V → MassState V × Option Err
  | [], st => (st, none)
  | k :: ks, st =>
    match st.attrs.find? fun kv => kv.1 = k with
    | none => (st, some .attributeError)
    | some kv =>
      match g kv.2 with
      | .error e => (st, some e)
      | .ok u =>
        match massSet st k u with
        | (st', none) => massSubs g ks st'
        | (st', some e) => (st', some e)

/-- What a program can do. -/
inductive MCmd (V : Type*) where
  /-- The caller makes a set, list or tuple of names. -/
  | box (kind : Kind) (names : List (List Char))
  /-- `Particles(n, internal_masses={...})`; without the argument the dictionary is empty. -/
  | dict (d : List (List Char × V))
  /-- `Particles(n, internal_masses=b)` for a container of the caller; `vals` are the random values. -/
  | names (b : ℕ) (vals : List Char → V)
  /-- `oPs.name = v`. -/
  | assign (p : ℕ) (name : List Char) (v : V)
  /-- `oPs.image(rule)` or `oPs.copy()`. -/
  | image (p : ℕ)
  /-- `oPs[i:j]`. -/
  | slice (p : ℕ)
  /-- `oPs.cluster(...)`, `f` is the substitution in names of masses given as strings. -/
  | cluster (p : ℕ) (f : V → V)
  /-- `oPs.subs(...)`. -/
  | subs (p : ℕ) (g : V → Except Err V)

/-- One command. `image` (particles.py:150-152) calls the constructor with the dictionary of masses, then replaces all attributes by a deep copy of those
of the point; a slice (particles.py:402) calls the constructor without masses; `cluster` (particles.py:170-174) calls it with the dictionary of new values. -/
def mStep (w : MWorld V) : MCmd V → MWorld V × Option Err
  | .box kind names => (⟨w.boxes ++ [(kind, names)], w.pts⟩, none)
  | .dict d =>
    match massInit [] (.dict d) with
    | (st, none) => (w.add st, none)
    | (_, some e) => (w, some e)
  | .names b vals =>
    match w.boxes[b]? with
    | none => (w, some .indexError)
    | some x =>
      match massInit [] (.names x.1 (x.2.map fun k => (k, vals k))) with
      | (st, none) => (⟨w.boxes.set b (st.kind, st.names), w.pts ++ [⟨b, st.attrs⟩]⟩, none)
      | (st, some e) => (⟨w.boxes.set b (st.kind, st.names), w.pts⟩, some e)
  | .assign p name v =>
    match w.get p with
    | none => (w, some .indexError)
    | some st => let r := massSet st name v; (w.put p r.1, r.2)
  | .image p =>
    match w.get p with
    | none => (w, some .indexError)
    | some st =>
      match massDict st with
      | none => (w, some .attributeError)
      | some d =>
        match massInit [] (.dict d) with
        | (_, none) => (w.add st, none)
        | (_, some e) => (w, some e)
  | .slice p =>
    match w.get p with
    | none => (w, some .indexError)
    | some _ => (w.add ⟨.set, [], false, []⟩, none)
  | .cluster p f =>
    match w.get p with
    | none => (w, some .indexError)
    | some st =>
      match massDict st with
      | none => (w, some .attributeError)
      | some d =>
        match massInit [] (.dict (d.map fun kv => (kv.1, f kv.2))) with
        | (st', none) => (w.add st', none)
        | (_, some e) => (w, some e)
  | .subs p g =>
    match w.get p with
    | none => (w, some .indexError)
    | some st => let r := massSubs g st.names st; (w.put p r.1, r.2)

/-- A sequence of commands, exceptions are caught by the program. -/
def mRun (w : MWorld V) : List (MCmd V) → MWorld V
  | [] => w
  | x :: xs => mRun (mStep w x).1 xs

end Lips

import Verif.Model.Basic

/-!
Model of the cache of `Invariants.__init__` (lips/invariants.py:26-66) under concurrent constructions
and crashes.

Simplifications: the nine lists are values of an arbitrary type `α`; `gen` is the outcome of
`GenerateFromScratch` for given flags (at six points the code draws a random phase-space point there,
so it is a function of the flags only for one outcome of these draws); a write of one key is atomic and
visible at once; opening the file does not lock it; a crash is the process doing nothing any more, which
every trace that stops scheduling it contains.
-/

namespace Lips

/-- The arguments of `Invariants`, apart from `n` and `verbose`. -/
structure Flags where
  noCached : Bool
  noHard : Bool
  restrict3 : Bool
  restrict4 : Bool
  further4 : Bool
  deriving DecidableEq, Repr

/-- The condition for using the cache, invariants.py:30. -/
def Flags.useCache (f : Flags) : Bool := !f.noCached && f.restrict3 && f.restrict4

/-- The nine keys, `invs_2` to `invs_tr5`, in the order in which they are written. -/
abbrev Key := Fin 9

/-- The cache file: absent, or a partial map from keys to lists. -/
abbrev Cache (α : Type*) := Option (Key → Option α)

/-- Where a construction stands. -/
inductive Proc (α : Type*) where
  /-- before opening the file for reading -/
  | start
  /-- the file was absent: in the `except` branch, before opening with flag `c` -/
  | absent
  /-- the lists are generated, keys below `k` are written -/
  | writing (lists : Key → α) (k : ℕ)
  /-- returned or raised -/
  | done (r : Except Err (Key → α))

variable {α : Type*}

/-- All keys are there, invariants.py:36. -/
def allThere (db : Key → Option α) : Option (Key → α) :=
  if h : ∀ k, (db k).isSome then some fun k => (db k).get (h k) else none

/-- One step of a construction with flags `f`, invariants.py:30-66. -/
def procStep (gen : Flags → Except Err (Key → α)) (f : Flags) (c : Cache α) : Proc α → Cache α × Proc α
  | .start =>
    if f.useCache then
      match c with
      | none => (c, .absent)
      | some db =>
        match allThere db with
        | some lists => (c, .done (.ok lists))
        | none => (c, .done (.error .exception))
    else (c, .done (gen f))
  | .absent =>
    let c' : Cache α := match c with
      | none => some fun _ => none
      | some db => some db
    match gen f with
    | .ok lists => (c', .writing lists 0)
    | .error e => (c', .done (.error e))
  | .writing lists k =>
    if h : k < 9 then
      let c' : Cache α := match c with
        | none => none
        | some db => some (Function.update db ⟨k, h⟩ (some (lists ⟨k, h⟩)))
      (c', .writing lists (k + 1))
    else (c, .done (.ok lists))
  | .done r => (c, .done r)

/-- The file and all constructions that were ever started, each with its flags. -/
structure World (α : Type*) where
  cache : Cache α
  procs : List (Flags × Proc α)

/-- A step: a new construction begins, or one of those begun does a step. -/
inductive WStep (gen : Flags → Except Err (Key → α)) : World α → World α → Prop
  | begin (w : World α) (f : Flags) : WStep gen w ⟨w.cache, w.procs ++ [(f, .start)]⟩
  | move (c : Cache α) (pre post : List (Flags × Proc α)) (f : Flags) (p : Proc α) :
      WStep gen ⟨c, pre ++ (f, p) :: post⟩
        ⟨(procStep gen f c p).1, pre ++ (f, (procStep gen f c p).2) :: post⟩

/-- Reachable from a state. -/
inductive WReach (gen : Flags → Except Err (Key → α)) : World α → World α → Prop
  | refl (w : World α) : WReach gen w w
  | tail {u v w : World α} : WReach gen u v → WStep gen v w → WReach gen u w

/-- A construction running alone, to its end, from a given file: at most twelve steps. -/
def runAlone (gen : Flags → Except Err (Key → α)) (f : Flags) (c : Cache α) : Cache α × Proc α :=
  (fun s => procStep gen f s.1 s.2)^[12] (c, .start)

end Lips

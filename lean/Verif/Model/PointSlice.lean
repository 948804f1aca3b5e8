import Verif.Model.Indexing

/-!
Model of slices as indices of a point (lips/particles.py:392-428). `indexing_decorator` (lips/tools.py:122-140) passes slices on as they are, to
the methods of Python's lists.

Simplifications: bounds and steps are integers or left out; what is assigned is a list.
-/

namespace Lips

variable {α : Type*}

/-- `slice(lo, hi, step)`. -/
structure PySlice where
  lo : Option ℤ
  hi : Option ℤ
  step : Option ℤ
  deriving DecidableEq

/-- A bound, counted from the end if it is negative, and cut to what is allowed. -/
def clipBound (len : ℕ) (lower upper k : ℤ) : ℤ := if k < 0 then max (k + len) lower else min k upper

/-- `slice.indices(len)` of Python: where to start. -/
def PySlice.start (len : ℕ) (s : PySlice) (step : ℤ) : ℤ :=
  if 0 < step then (match s.lo with | some k => clipBound len 0 len k | none => 0)
  else match s.lo with | some k => clipBound len (-1) (len - 1) k | none => len - 1

/-- `slice.indices(len)` of Python: where to stop. -/
def PySlice.stop (len : ℕ) (s : PySlice) (step : ℤ) : ℤ :=
  if 0 < step then (match s.hi with | some k => clipBound len 0 len k | none => len)
  else match s.hi with | some k => clipBound len (-1) (len - 1) k | none => -1

/-- The length of `range(start, stop, step)`. -/
def rangeLen (start stop step : ℤ) : ℕ :=
  if 0 < step then (if start < stop then ((stop - start - 1) / step + 1).toNat else 0)
  else if stop < start then ((start - stop - 1) / (-step) + 1).toNat else 0

/-- The positions, from zero, that a slice of a list of this length takes; ValueError when the step is zero. -/
def PySlice.positions (len : ℕ) (s : PySlice) : Except Err (List ℕ) :=
  let step := s.step.getD 1
  if step = 0 then .error .valueError
  else .ok ((List.range (rangeLen (s.start len step) (s.stop len step) step)).map fun k : ℕ => (s.start len step + k * step).toNat)

/-- `list.__getitem__` with a slice. -/
def sliceGet (l : List α) (s : PySlice) : Except Err (List α) :=
  match s.positions l.length with
  | .ok is => .ok (is.filterMap (l[·]?))
  | .error e => .error e

/-- Values written at positions one after the other. -/
def writeAll : List α → List ℕ → List α → List α
  | l, i :: is, v :: vs => writeAll (l.set i v) is vs
  | l, _, _ => l

/-- `__setitem__` with a slice, particles.py:423-424: with step one any list replaces the slice, otherwise it has to have its length. -/
def sliceSet (l : List α) (s : PySlice) (vs : List α) : Except Err (List α) :=
  if s.step.getD 1 = 1 then
    let a := (s.start l.length 1).toNat
    .ok (l.take a ++ vs ++ l.drop (max a (s.stop l.length 1).toNat))
  else match s.positions l.length with
    | .error e => .error e
    | .ok is => if vs.length = is.length then .ok (writeAll l is vs) else .error .valueError

/-- `__delitem__` with a slice, particles.py:426-428. -/
def sliceDel (l : List α) (s : PySlice) : Except Err (List α) :=
  match s.positions l.length with
  | .error e => .error e
  | .ok is => .ok ((l.zipIdx.filter fun p => p.2 ∉ is).map Prod.fst)

/-- What a point consists of besides its methods: particles, field, reference vector, internal masses with their values. -/
structure PointRec (α F M : Type*) where
  parts : List α
  field : F
  refVec : α
  masses : List (List Char × M)

/-- `__getitem__` with a slice, particles.py:401-404: the constructor (lines 42-74) is called without internal masses. -/
def PointRec.slice {F M : Type*} (p : PointRec α F M) (s : PySlice) : Except Err (PointRec α F M) :=
  match sliceGet p.parts s with
  | .ok ps => .ok ⟨ps, p.field, p.refVec, []⟩
  | .error e => .error e

end Lips

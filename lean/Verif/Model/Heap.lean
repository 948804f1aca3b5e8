import Verif.Model.Components

/-!
Model of objects in memory: which particles of which phase-space points are the same Python object, and which of their spinors the same numpy array.
The rest of the model treats a particle as a value; Props/Heap says when that is right.

Arrays that are written into after they were stored: `_r_sp_d` and `_l_sp_d`, by `make_analytical_d` (particles.py:202-209) and `subs` (particles.py:238-265).
These are addresses here. The other attributes of a particle are values, because no operation of this file writes into their arrays. Simplifications: the
four momentum is written into by `twist_x_to_mom` (particle.py:462-466), which is left out; massive fermions (`spin_index`) are left out, for these
`angles_for_squares` writes into `_l_sp_d` or `_r_sp_d`; shapes of arrays are left out (the setters reshape the array they are given).
-/

namespace Lips

variable {K : Type*} [Field K]

/-- A `Particle` object: `rd` and `ld` are the addresses of the arrays `_r_sp_d` and `_l_sp_d`. The components `r_d` and `l_d` of `body` have no meaning. -/
structure Obj (K : Type*) where
  body : Particle K
  rd : Option ℕ
  ld : Option ℕ

/-- The memory: arrays with two entries, and particles. Addresses from `na` and `no` on are unused. -/
structure Heap (K : Type*) where
  arr : ℕ → V2 K
  na : ℕ
  obj : ℕ → Obj K
  no : ℕ

/-- What a particle looks like from outside. -/
def Obj.val (arr : ℕ → V2 K) (o : Obj K) : Particle K := { o.body with r_d := o.rd.map arr, l_d := o.ld.map arr }

/-- The particle at address `i`. -/
def Heap.val (h : Heap K) (i : ℕ) : Particle K := (h.obj i).val h.arr

/-- Replace the object at `i`. -/
def Heap.setObj (h : Heap K) (i : ℕ) (o : Obj K) : Heap K := { h with obj := Function.update h.obj i o }

/-- Two new arrays. -/
def Heap.alloc (h : Heap K) (r l : Option (V2 K)) : Heap K :=
  { h with arr := Function.update (Function.update h.arr h.na (r.getD 0)) (h.na + 1) (l.getD 0), na := h.na + 2 }

/-- Assign both spinors: the setters of `r2_sp`, `r2_sp_b`, `four_mom`, `four_mom_d` (particle.py:205-300) make new arrays for both. -/
def Heap.putBoth (h : Heap K) (i : ℕ) (v : Particle K) : Heap K :=
  (h.alloc v.r_d v.l_d).setObj i ⟨v, v.r_d.map fun _ => h.na, v.l_d.map fun _ => h.na + 1⟩

/-- Assign the right spinor: the setters of `r_sp_d` and `r_sp_u` (particle.py:125-138, 165-178), given a new array; the left spinor stays the same array. -/
def Heap.putR (h : Heap K) (i : ℕ) (v : Particle K) : Heap K :=
  (h.alloc v.r_d none).setObj i ⟨v, v.r_d.map fun _ => h.na, (h.obj i).ld⟩

/-- Assign the left spinor (particle.py:145-158, 185-198). -/
def Heap.putL (h : Heap K) (i : ℕ) (v : Particle K) : Heap K :=
  (h.alloc none v.l_d).setObj i ⟨v, (h.obj i).rd, v.l_d.map fun _ => h.na + 1⟩

/-- What is done to one particle. -/
inductive Act (K : Type*) where
  /-- An assignment, of an array nobody else has, or `angles_for_squares`. -/
  | op (o : Op K)
  /-- The part of `make_analytical_d` for one particle. -/
  | analytic (m : Fin 4 → ℤ) (s : Fin 4 → K)
  /-- The part of `subs` for one particle. -/
  | subs (f : K → K)

/-- An operation of `Act.op` in memory. `angles_for_squares` (particle.py:330-350) exchanges the arrays: a transposed array is a view of the same memory. -/
noncomputable def opHeap (c : Ctx K) (h : Heap K) (i : ℕ) (o : Op K) : Heap K × Option Err :=
  let r := applyOp c (h.val i) o
  match o with
  | .rd _ | .ru _ => (h.putR i r.st, r.err)
  | .ld _ | .lu _ => (h.putL i r.st, r.err)
  | .r2 _ | .r2b _ | .mom _ | .momd _ => (h.putBoth i r.st, r.err)
  | .swap =>
    match (h.obj i).rd, (h.obj i).ld with
    | some a, some b => (h.setObj i ⟨r.st, some b, some a⟩, r.err)
    | a, b => (h.setObj i ⟨r.st, a, b⟩, r.err)

/-- Write into an array. -/
def Heap.write (h : Heap K) (a : ℕ) (v : V2 K) : Heap K := { h with arr := Function.update h.arr a v }

/-- `make_analytical_d` for one particle in memory, particles.py:202-222: entries of `_r_sp_d` are replaced, then entries of `_l_sp_d`, in place; then the
rest of the particle is computed from these. -/
def analyticHeap (c : Ctx K) (h : Heap K) (i : ℕ) (m : Fin 4 → ℤ) (s : Fin 4 → K) : Heap K × Option Err :=
  match (h.obj i).rd, (h.obj i).ld with
  | some a, some b =>
    let h₁ := h.write a ![if m 0 = 0 then s 0 else h.arr a 0, if m 1 = 0 then s 1 else h.arr a 1]
    let h₂ := h₁.write b ![if m 2 = 0 then s 2 else h₁.arr b 0, if m 3 = 0 then s 3 else h₁.arr b 1]
    let r := rebuildFromSpinors c { h₂.val i with r_u := some (rDownUp (h₂.arr a)), l_u := some (lDownUp (h₂.arr b)) }
    (h₂.setObj i ⟨r.st, some a, some b⟩, r.err)
  | _, _ => (h, some .typeError)

/-- `subs` for one particle in memory, particles.py:237-271: the entries of `_r_sp_d` are replaced in place and the array assigned to itself; then the same for
`_l_sp_d`. -/
def subsHeap (c : Ctx K) (h : Heap K) (i : ℕ) (f : K → K) : Heap K × Option Err :=
  match (h.obj i).rd with
  | none => (h, some .typeError)
  | some a =>
    let h₁ := h.write a ![f (h.arr a 0), f (h.arr a 1)]
    let r := setRd c (h₁.val i) (h₁.arr a)
    let h₂ := h₁.setObj i ⟨r.st, some a, (h.obj i).ld⟩
    match r.err with
    | some e => (h₂, some e)
    | none =>
      match (h₂.obj i).ld with
      | none => (h₂, some .typeError)
      | some b =>
        let h₃ := h₂.write b ![f (h₂.arr b 0), f (h₂.arr b 1)]
        let r' := setLd c (h₃.val i) (h₃.arr b)
        (h₃.setObj i ⟨r'.st, some a, some b⟩, r'.err)

/-- One action. -/
noncomputable def actHeap (c : Ctx K) (h : Heap K) (i : ℕ) : Act K → Heap K × Option Err
  | .op o => opHeap c h i o
  | .analytic m s => analyticHeap c h i m s
  | .subs f => subsHeap c h i f

/-- An action on every particle of a point, in order, until one raises: the loops of `make_analytical_d`, `subs` and `angles_for_squares`; `none` stands for an
IndexError. `j` is the position of the first particle. -/
noncomputable def eachHeap (c : Ctx K) (a : ℕ → Option (Act K)) : ℕ → List ℕ → Heap K → Heap K × Option Err
  | _, [], h => (h, none)
  | j, i :: is, h =>
    match a j with
    | none => (h, some .indexError)
    | some x =>
      match actHeap c h i x with
      | (h', none) => eachHeap c a (j + 1) is h'
      | (h', some e) => (h', some e)

/-- A new object with new arrays. -/
def Heap.new (h : Heap K) (v : Particle K) : Heap K := { (h.putBoth h.no v) with no := h.no + 1 }

/-- New objects. -/
def Heap.news (h : Heap K) : List (Particle K) → Heap K × List ℕ
  | [] => (h, [])
  | v :: vs => let r := (h.new v).news vs; (r.1, h.no :: r.2)

/-- `copy.deepcopy`: everything is copied, and what was shared is shared by the copies. Address `i` is copied to `i + no` or `i + na`; copies of what cannot be
reached from the argument are never used. -/
def Heap.deepcopy (h : Heap K) : Heap K where
  arr i := if i < h.na then h.arr i else h.arr (i - h.na)
  na := 2 * h.na
  obj i := if i < h.no then h.obj i else
    { h.obj (i - h.no) with rd := (h.obj (i - h.no)).rd.map (· + h.na), ld := (h.obj (i - h.no)).ld.map (· + h.na) }
  no := 2 * h.no

open Classical in
/-- `image`, particles.py:144-158: `sorted` gives a list of the same objects, which is then copied; for a rule with exchange the copies are changed. -/
noncomputable def imageHeap (c : Ctx K) (h : Heap K) (is : List ℕ) (r : List Char × Bool) : Except Err (Heap K × List ℕ) :=
  match imageStr (fun i j => decide (pEq (h.val i) (h.val j))) is r.1 with
  | .error e => .error e
  | .ok js =>
    let js' := js.map (· + h.no)
    if r.2 then .ok ((eachHeap c (fun _ => some (.op .swap)) 0 js' h.deepcopy).1, js') else .ok (h.deepcopy, js')

/-- The sum of the particles of a corner, particles.py:173: with one particle it is `0 + p`, that is `copy(p)` (particle.py:79-84), a new object with the same
arrays; with more it is a new object with new arrays. `none` as in `clusterLeg`. -/
noncomputable def legHeap (c : Ctx K) (h : Heap K) : List ℕ → Option (Heap K)
  | [] => none
  | [i] => some { (h.setObj h.no (h.obj i)) with no := h.no + 1 }
  | i :: is => (pSumFrom c (h.val i) (is.map h.val)).map h.new

/-- The particles of `cluster`. -/
noncomputable def legsHeap (c : Ctx K) : List (List ℕ) → Heap K → Option (Heap K × List ℕ)
  | [], h => some (h, [])
  | l :: ls, h =>
    match legHeap c h l with
    | none => none
    | some h' =>
      match legsHeap c ls h' with
      | none => none
      | some r => some (r.1, h.no :: r.2)

/-- What a program can do. Points are numbered in the order in which they were made, particles of a point from zero. -/
inductive Cmd (K : Type*) where
  /-- `Particles(n)`, or `Particles` of a list of new particles. -/
  | new (vs : List (Particle K))
  /-- An action on one particle. -/
  | act (p k : ℕ) (a : Act K)
  /-- An action on every particle. -/
  | each (p : ℕ) (a : ℕ → Option (Act K))
  /-- `image`, and for the identity `copy`. -/
  | image (p : ℕ) (r : List Char × Bool)
  /-- `oPs["|i⟩"] = oQs["|j⟩"]` (particles.py:409-421): particle `k` of point `p` gets the array of particle `k'` of point `p'`. -/
  | share (p k p' k' : ℕ)
  /-- `cluster`. -/
  | cluster (p : ℕ) (ls : List (List ℕ))
  /-- `Particles([...])` of particles that are in other points, or a slice `oPs[i:j]` (particles.py:401-404). -/
  | pick (l : List (ℕ × ℕ))

/-- The memory and the points made so far. -/
structure Mem (K : Type*) where
  heap : Heap K
  pts : List (List ℕ)

/-- The address of particle `k` of point `p`. -/
def addr (pts : List (List ℕ)) (p k : ℕ) : Option ℕ := pts[p]?.bind (·[k]?)

/-- Assign the right spinor, given the array at `a`. -/
def shareHeap (c : Ctx K) (h : Heap K) (i a : ℕ) : Heap K × Option Err :=
  let r := setRd c (h.val i) (h.arr a)
  (h.setObj i ⟨r.st, some a, (h.obj i).ld⟩, r.err)

/-- One command. -/
noncomputable def stepHeap (c : Ctx K) (m : Mem K) : Cmd K → Mem K × Option Err
  | .new vs => let r := m.heap.news vs; (⟨r.1, m.pts ++ [r.2]⟩, none)
  | .act p k a =>
    match addr m.pts p k with
    | none => (m, some .indexError)
    | some i => let r := actHeap c m.heap i a; (⟨r.1, m.pts⟩, r.2)
  | .each p a =>
    match m.pts[p]? with
    | none => (m, some .indexError)
    | some is => let r := eachHeap c a 0 is m.heap; (⟨r.1, m.pts⟩, r.2)
  | .image p r =>
    match m.pts[p]? with
    | none => (m, some .indexError)
    | some is =>
      match imageHeap c m.heap is r with
      | .error e => (m, some e)
      | .ok q => (⟨q.1, m.pts ++ [q.2]⟩, none)
  | .share p k p' k' =>
    match addr m.pts p k, addr m.pts p' k' with
    | some i, some j =>
      match (m.heap.obj j).rd with
      | none => (m, some .typeError)
      | some a => let r := shareHeap c m.heap i a; (⟨r.1, m.pts⟩, r.2)
    | _, _ => (m, some .indexError)
  | .cluster p ls =>
    match m.pts[p]? with
    | none => (m, some .indexError)
    | some is =>
      match ls.mapM fun l => l.mapM fun k => is[k]? with
      | none => (m, some .indexError)
      | some ls' =>
        match legsHeap c ls' m.heap with
        | none => (m, some .typeError)
        | some q => (⟨q.1, m.pts ++ [q.2]⟩, none)
  | .pick l =>
    match l.mapM fun x => addr m.pts x.1 x.2 with
    | none => (m, some .indexError)
    | some is => (⟨m.heap, m.pts ++ [is]⟩, none)

/-- `t` commands, each of which may depend on everything that can be seen of the points. Exceptions are caught by the program. -/
noncomputable def runHeap (c : Ctx K) (prog : ℕ → List (List (Particle K)) → Cmd K) : ℕ → Mem K → Mem K
  | 0, m => m
  | t + 1, m =>
    let m' := runHeap c prog t m
    (stepHeap c m' (prog t (m'.pts.map fun is => is.map m'.heap.val))).1

end Lips

import Verif.Spec.Heap

/-!
Lemmas for C112: what an action changes in memory.
-/

namespace Lips

set_option linter.unusedSectionVars false

variable {K : Type*} [Field K]

/-- The arrays of a particle that may be written into. -/
def Obj.refs (o : Obj K) : List ℕ := o.rd.toList ++ o.ld.toList

/-- `h'` differs from `h` in the object `i`, in unused memory and, if `w`, in the arrays of `i`. -/
structure Effect (h h' : Heap K) (i : ℕ) (w : Bool) : Prop where
  no : h'.no = h.no
  na : h.na ≤ h'.na
  obj : ∀ j, j ≠ i → h'.obj j = h.obj j
  refs : ∀ a ∈ (h'.obj i).refs, a ∈ (h.obj i).refs ∨ h.na ≤ a ∧ a < h'.na
  arr : ∀ a < h.na, (w = true → a ∉ (h.obj i).refs) → h'.arr a = h.arr a
  nodup : (h.obj i).refs.Nodup → (∀ a ∈ (h.obj i).refs, a < h.na) → (h'.obj i).refs.Nodup

theorem refs_rd {o : Obj K} {a : ℕ} (h : o.rd = some a) : a ∈ o.refs := by simp [Obj.refs, h]
theorem refs_ld {o : Obj K} {a : ℕ} (h : o.ld = some a) : a ∈ o.refs := by simp [Obj.refs, h]

theorem val_congr {o : Obj K} {arr arr' : ℕ → V2 K} (h : ∀ a ∈ o.refs, arr' a = arr a) : o.val arr' = o.val arr := by
  have hr : o.rd.map arr' = o.rd.map arr := by
    cases e : o.rd with
    | none => rfl
    | some a => simp [h a (refs_rd e)]
  have hl : o.ld.map arr' = o.ld.map arr := by
    cases e : o.ld with
    | none => rfl
    | some a => simp [h a (refs_ld e)]
  unfold Obj.val
  rw [hr, hl]

theorem Effect.val {h h' : Heap K} {i j : ℕ} {w : Bool} (e : Effect h h' i w) (hj : j ≠ i) (hr : ∀ a ∈ (h.obj j).refs, a < h.na)
    (hd : w = true → ∀ a ∈ (h.obj j).refs, a ∉ (h.obj i).refs) : h'.val j = h.val j := by
  unfold Heap.val
  rw [e.obj j hj]
  exact val_congr fun a ha => e.arr a (hr a ha) fun hw => hd hw a ha

theorem Effect.mono {h h' : Heap K} {i : ℕ} {w : Bool} (e : Effect h h' i w) : Effect h h' i true :=
  { e with arr := fun a ha hn => e.arr a ha fun _ => hn rfl }

/-! ### Assignments -/

theorem alloc_low (h : Heap K) (r l : Option (V2 K)) {a : ℕ} (ha : a < h.na) : (h.alloc r l).arr a = h.arr a := by
  unfold Heap.alloc
  simp only
  rw [Function.update_of_ne (by omega), Function.update_of_ne (by omega)]

theorem alloc_fst (h : Heap K) (r l : Option (V2 K)) : (h.alloc r l).arr h.na = r.getD 0 := by
  unfold Heap.alloc
  simp only
  rw [Function.update_of_ne (by omega), Function.update_self]

theorem alloc_snd (h : Heap K) (r l : Option (V2 K)) : (h.alloc r l).arr (h.na + 1) = l.getD 0 := by
  unfold Heap.alloc
  simp only
  rw [Function.update_self]

theorem setObj_self (h : Heap K) (i : ℕ) (o : Obj K) : (h.setObj i o).obj i = o := Function.update_self ..
theorem setObj_ne (h : Heap K) {i j : ℕ} (o : Obj K) (hj : j ≠ i) : (h.setObj i o).obj j = h.obj j := Function.update_of_ne hj ..

theorem val_mk {arr : ℕ → V2 K} {v : Particle K} {x y : Option ℕ} (hx : x.map arr = v.r_d) (hy : y.map arr = v.l_d) : Obj.val arr ⟨v, x, y⟩ = v := by
  unfold Obj.val
  simp only
  rw [hx, hy]

theorem map_new {x : Option (V2 K)} {f : ℕ → V2 K} {a : ℕ} (h : f a = x.getD 0) : (x.map fun _ => a).map f = x := by
  cases x with
  | none => rfl
  | some v => simp [h]

theorem map_low {h : Heap K} {f : ℕ → V2 K} {x : Option ℕ} (hf : ∀ a < h.na, f a = h.arr a) (hx : ∀ a ∈ x, a < h.na) : x.map f = x.map h.arr := by
  cases x with
  | none => rfl
  | some a => simp [hf a (hx a rfl)]

theorem putBoth_effect (h : Heap K) (i : ℕ) (v : Particle K) : Effect h (h.putBoth i v) i false where
  no := rfl
  na := by simp [Heap.putBoth, Heap.setObj, Heap.alloc]
  obj j hj := setObj_ne _ _ hj
  refs a ha := by
    unfold Heap.putBoth at ha
    rw [setObj_self] at ha
    simp only [Heap.putBoth, Heap.setObj, Heap.alloc, Obj.refs, List.mem_append, Option.mem_toList, Option.map_eq_some_iff] at ha ⊢
    rcases ha with ⟨_, _, rfl⟩ | ⟨_, _, rfl⟩ <;> right <;> omega
  arr a ha _ := alloc_low h _ _ ha
  nodup _ _ := by
    unfold Heap.putBoth
    rw [setObj_self]
    unfold Obj.refs
    cases v.r_d <;> cases v.l_d <;> simp

theorem putBoth_val (h : Heap K) (i : ℕ) (v : Particle K) : (h.putBoth i v).val i = v := by
  unfold Heap.putBoth Heap.val
  rw [setObj_self]
  exact val_mk (map_new (alloc_fst h _ _)) (map_new (alloc_snd h _ _))

theorem putR_effect (h : Heap K) (i : ℕ) (v : Particle K) : Effect h (h.putR i v) i false where
  no := rfl
  na := by simp [Heap.putR, Heap.setObj, Heap.alloc]
  obj j hj := setObj_ne _ _ hj
  refs a ha := by
    unfold Heap.putR at ha
    rw [setObj_self] at ha
    simp only [Heap.putR, Heap.setObj, Heap.alloc, Obj.refs, List.mem_append, Option.mem_toList, Option.map_eq_some_iff] at ha ⊢
    rcases ha with ⟨_, _, rfl⟩ | ha
    · right; omega
    · exact .inl (.inr ha)
  arr a ha _ := alloc_low h _ _ ha
  nodup _ hl := by
    unfold Heap.putR
    rw [setObj_self]
    have hl' : ∀ b, (h.obj i).ld = some b → b < h.na := fun b hb => hl b (refs_ld hb)
    unfold Obj.refs
    cases v.r_d <;> cases hb : (h.obj i).ld <;> simp
    exact (hl' _ hb).ne'

theorem putR_val (h : Heap K) (i : ℕ) (v : Particle K) (hl : ∀ a ∈ (h.obj i).refs, a < h.na) (hv : v.l_d = (h.val i).l_d) : (h.putR i v).val i = v := by
  unfold Heap.putR
  rw [Heap.val, setObj_self]
  refine val_mk (map_new (alloc_fst h _ _)) ?_
  rw [hv]
  exact map_low (fun a ha => alloc_low h _ _ ha) fun a ha => hl a (refs_ld ha)

theorem putL_effect (h : Heap K) (i : ℕ) (v : Particle K) : Effect h (h.putL i v) i false where
  no := rfl
  na := by simp [Heap.putL, Heap.setObj, Heap.alloc]
  obj j hj := setObj_ne _ _ hj
  refs a ha := by
    unfold Heap.putL at ha
    rw [setObj_self] at ha
    simp only [Heap.putL, Heap.setObj, Heap.alloc, Obj.refs, List.mem_append, Option.mem_toList, Option.map_eq_some_iff] at ha ⊢
    rcases ha with ha | ⟨_, _, rfl⟩
    · exact .inl (.inl ha)
    · right; omega
  arr a ha _ := alloc_low h _ _ ha
  nodup _ hl := by
    unfold Heap.putL
    rw [setObj_self]
    have hl' : ∀ b, (h.obj i).rd = some b → b < h.na := fun b hb => hl b (refs_rd hb)
    unfold Obj.refs
    cases v.l_d <;> cases hb : (h.obj i).rd <;> simp
    have := hl' _ hb
    omega

theorem putL_val (h : Heap K) (i : ℕ) (v : Particle K) (hl : ∀ a ∈ (h.obj i).refs, a < h.na) (hv : v.r_d = (h.val i).r_d) : (h.putL i v).val i = v := by
  unfold Heap.putL
  rw [Heap.val, setObj_self]
  refine val_mk ?_ (map_new (alloc_snd h _ _))
  rw [hv]
  exact map_low (fun a ha => alloc_low h _ _ ha) fun a ha => hl a (refs_rd ha)

theorem setObj_effect (h : Heap K) (i : ℕ) (o : Obj K) (hr : ∀ a ∈ o.refs, a ∈ (h.obj i).refs) (hn : (h.obj i).refs.Nodup → o.refs.Nodup) :
    Effect h (h.setObj i o) i false where
  no := rfl
  na := le_refl _
  obj j hj := setObj_ne _ _ hj
  refs a ha := by rw [setObj_self] at ha; exact .inl (hr a ha)
  arr a _ _ := rfl
  nodup h1 _ := by rw [setObj_self]; exact hn h1

/-! ### What the setters leave alone -/

theorem rebuild_spinors (c : Ctx K) (p : Particle K) : (rebuildFromSpinors c p).st.r_d = p.r_d ∧ (rebuildFromSpinors c p).st.l_d = p.l_d := by
  unfold rebuildFromSpinors
  split
  · unfold momFromR2b
    split <;> exact ⟨rfl, rfl⟩
  · exact ⟨rfl, rfl⟩

theorem setRd_spinors (c : Ctx K) (p : Particle K) (s : V2 K) : (setRd c p s).st.r_d = some s ∧ (setRd c p s).st.l_d = p.l_d := rebuild_spinors c _
theorem setLd_spinors (c : Ctx K) (p : Particle K) (s : V2 K) : (setLd c p s).st.r_d = p.r_d ∧ (setLd c p s).st.l_d = some s := rebuild_spinors c _

theorem swap_spinors (c : Ctx K) (p : Particle K) : ((anglesForSquares c p).r_d, (anglesForSquares c p).l_d) =
    match p.r_d, p.l_d with
    | some r, some l => (some l, some r)
    | a, b => (a, b) := by
  unfold anglesForSquares momFromR2b
  rcases hr : p.r_d with _ | r <;> rcases hl : p.l_d with _ | l <;> simp only <;> split <;> simp [hr, hl]

theorem op_effect (c : Ctx K) (h : Heap K) (i : ℕ) (o : Op K) : Effect h (opHeap c h i o).1 i false := by
  unfold opHeap
  cases o <;> simp only
  case rd => exact putR_effect ..
  case ru => exact putR_effect ..
  case ld => exact putL_effect ..
  case lu => exact putL_effect ..
  case r2 => exact putBoth_effect ..
  case r2b => exact putBoth_effect ..
  case mom => exact putBoth_effect ..
  case momd => exact putBoth_effect ..
  case swap =>
    split <;> refine setObj_effect _ _ _ (fun a ha => ?_) fun hn => ?_
    · rename_i a' b' h1 h2
      simp only [Obj.refs, h1, h2, Option.toList_some, List.mem_append, List.mem_singleton] at ha ⊢
      exact ha.symm
    · rename_i a' b' h1 h2
      simp only [Obj.refs, h1, h2, Option.toList_some] at hn ⊢
      simp at hn ⊢
      exact fun e => hn e.symm
    · exact ha
    · exact hn

theorem op_value (c : Ctx K) (h : Heap K) (i : ℕ) (o : Op K) (hl : ∀ a ∈ (h.obj i).refs, a < h.na) :
    (opHeap c h i o).1.val i = (applyOp c (h.val i) o).st ∧ (opHeap c h i o).2 = (applyOp c (h.val i) o).err := by
  unfold opHeap
  cases o <;> simp only
  case rd => exact ⟨putR_val _ _ _ hl (rebuild_spinors c _).2, trivial⟩
  case ru => exact ⟨putR_val _ _ _ hl (rebuild_spinors c _).2, trivial⟩
  case ld => exact ⟨putL_val _ _ _ hl (rebuild_spinors c _).1, trivial⟩
  case lu => exact ⟨putL_val _ _ _ hl (rebuild_spinors c _).1, trivial⟩
  case r2 => exact ⟨putBoth_val .., trivial⟩
  case r2b => exact ⟨putBoth_val .., trivial⟩
  case mom => exact ⟨putBoth_val .., trivial⟩
  case momd => exact ⟨putBoth_val .., trivial⟩
  case swap =>
    have hs := swap_spinors c (h.val i)
    rw [show (h.val i).r_d = (h.obj i).rd.map h.arr from rfl, show (h.val i).l_d = (h.obj i).ld.map h.arr from rfl] at hs
    simp only [applyOp]
    rcases hr : (h.obj i).rd with _ | a <;> rcases hl : (h.obj i).ld with _ | b <;>
      simp only [hr, hl, Option.map_none, Option.map_some, Prod.mk.injEq] at hs <;> refine ⟨?_, rfl⟩ <;>
      rw [Heap.val, setObj_self] <;> refine val_mk ?_ ?_ <;> simp only [Option.map_none, Option.map_some] <;>
      first | exact hs.1.symm | exact hs.2.symm

/-! ### Writing into arrays -/

theorem write_self (h : Heap K) (a : ℕ) (v : V2 K) : (h.write a v).arr a = v := Function.update_self ..
theorem write_ne (h : Heap K) {a b : ℕ} (v : V2 K) (hb : b ≠ a) : (h.write a v).arr b = h.arr b := Function.update_of_ne hb ..

theorem analytic_effect (c : Ctx K) (h : Heap K) (i : ℕ) (m : Fin 4 → ℤ) (s : Fin 4 → K) : Effect h (analyticHeap c h i m s).1 i true := by
  unfold analyticHeap
  split
  · rename_i a b h1 h2
    have e : (h.obj i).refs = [a, b] := by simp [Obj.refs, h1, h2]
    refine ⟨rfl, le_refl _, fun j hj => setObj_ne _ _ hj, fun x hx => ?_, fun x _ hw => ?_, fun hn _ => ?_⟩
    · rw [setObj_self] at hx
      rw [e]
      exact .inl hx
    · have := hw rfl
      rw [e, List.mem_cons, List.mem_singleton, not_or] at this
      exact (write_ne _ _ this.2).trans (write_ne _ _ this.1)
    · rw [setObj_self]
      rw [e] at hn
      exact hn
  · exact ⟨rfl, le_refl _, fun _ _ => rfl, fun _ hx => .inl hx, fun _ _ _ => rfl, fun hn _ => hn⟩

theorem analytic_value (c : Ctx K) (h : Heap K) (i : ℕ) (m : Fin 4 → ℤ) (s : Fin 4 → K) (hn : (h.obj i).refs.Nodup) :
    (analyticHeap c h i m s).1.val i = (analyticOne c (h.val i) m s).st ∧ (analyticHeap c h i m s).2 = (analyticOne c (h.val i) m s).err := by
  unfold analyticHeap analyticOne
  rw [show (h.val i).r_d = (h.obj i).rd.map h.arr from rfl, show (h.val i).l_d = (h.obj i).ld.map h.arr from rfl]
  rcases h1 : (h.obj i).rd with _ | a <;> rcases h2 : (h.obj i).ld with _ | b <;> simp only [Option.map_none, Option.map_some] <;> try exact ⟨trivial, trivial⟩
  have hab : a ≠ b := by
    simp only [Obj.refs, h1, h2, Option.toList_some] at hn
    simpa using hn
  have key : ∀ r l : V2 K, ∀ h' : Heap K, h'.obj i = h.obj i → h'.arr a = r → h'.arr b = l →
      { h'.val i with r_u := some (rDownUp r), l_u := some (lDownUp l) } =
        ({ h.val i with r_d := some r, l_d := some l, r_u := some (rDownUp r), l_u := some (lDownUp l) } : Particle K) := by
    intro r l h' ho ha hb
    unfold Heap.val Obj.val
    rw [ho, h1, h2]
    simp [ha, hb]
  set r' : V2 K := ![if m 0 = 0 then s 0 else h.arr a 0, if m 1 = 0 then s 1 else h.arr a 1] with hr'
  have e1 : (h.write a r').arr b = h.arr b := write_ne _ _ hab.symm
  rw [e1]
  set l' : V2 K := ![if m 2 = 0 then s 2 else h.arr b 0, if m 3 = 0 then s 3 else h.arr b 1] with hl'
  have ea : ((h.write a r').write b l').arr a = r' := (write_ne _ _ hab).trans (write_self ..)
  have eb : ((h.write a r').write b l').arr b = l' := write_self ..
  rw [ea, eb, key r' l' ((h.write a r').write b l') rfl ea eb]
  refine ⟨?_, rfl⟩
  rw [Heap.val, setObj_self]
  refine val_mk ?_ ?_
  · rw [(rebuild_spinors c _).1]; exact congrArg some ea
  · rw [(rebuild_spinors c _).2]; exact congrArg some eb

theorem subs_effect (c : Ctx K) (h : Heap K) (i : ℕ) (f : K → K) : Effect h (subsHeap c h i f).1 i true := by
  unfold subsHeap
  rcases h1 : (h.obj i).rd with _ | a <;> simp only
  · exact ⟨rfl, le_refl _, fun _ _ => rfl, fun _ hx => .inl hx, fun _ _ _ => rfl, fun hn _ => hn⟩
  have hin : a ∈ (h.obj i).refs := refs_rd h1
  have keep : ∀ v : Particle K, Obj.refs ⟨v, some a, (h.obj i).ld⟩ = (h.obj i).refs := fun v => by unfold Obj.refs; rw [h1]
  have one : ∀ w : V2 K, ∀ v : Particle K, Effect h ((h.write a w).setObj i ⟨v, some a, (h.obj i).ld⟩) i true := fun w v =>
    ⟨rfl, le_refl _, fun j hj => setObj_ne _ _ hj, fun x hx => by rw [setObj_self, keep] at hx; exact .inl hx,
      fun x _ hw => write_ne _ _ fun e => hw rfl (e ▸ hin), fun hn _ => by rw [setObj_self, keep]; exact hn⟩
  split
  · exact one _ _
  · rw [setObj_self]
    simp only
    rcases h2 : (h.obj i).ld with _ | b <;> simp only
    · have := one ![f (h.arr a 0), f (h.arr a 1)] (setRd c ((h.write a ![f (h.arr a 0), f (h.arr a 1)]).val i) ((h.write a ![f (h.arr a 0), f (h.arr a 1)]).arr a)).st
      rw [h2] at this
      exact this
    · have hin' : b ∈ (h.obj i).refs := refs_ld h2
      have e : (h.obj i).refs = [a, b] := by simp [Obj.refs, h1, h2]
      refine ⟨rfl, le_refl _, fun j hj => (setObj_ne _ _ hj).trans (setObj_ne _ _ hj), fun x hx => ?_, fun x _ hw => ?_, fun hn _ => ?_⟩
      · rw [setObj_self] at hx
        rw [e]
        exact .inl hx
      · exact (write_ne _ _ fun e' : x = b => hw rfl (by rw [e']; exact hin')).trans (write_ne _ _ fun e' : x = a => hw rfl (by rw [e']; exact hin))
      · rw [setObj_self]
        rw [e] at hn
        exact hn

theorem subs_value (c : Ctx K) (h : Heap K) (i : ℕ) (f : K → K) (hn : (h.obj i).refs.Nodup) :
    (subsHeap c h i f).1.val i = (subsOne c f (h.val i)).st ∧ (subsHeap c h i f).2 = (subsOne c f (h.val i)).err := by
  unfold subsHeap subsOne
  rw [show (h.val i).r_d = (h.obj i).rd.map h.arr from rfl]
  rcases h1 : (h.obj i).rd with _ | a <;> simp only [Option.map_none, Option.map_some]
  · exact ⟨trivial, trivial⟩
  set r' : V2 K := ![f (h.arr a 0), f (h.arr a 1)] with hr'
  have ea : (h.write a r').arr a = r' := write_self ..
  have low : ∀ b ∈ (h.obj i).ld, (h.write a r').arr b = h.arr b := fun b hb => by
    refine write_ne _ _ fun e => ?_
    subst e
    simp only [Obj.refs, h1, Option.mem_def.1 hb, Option.toList_some] at hn
    simp at hn
  have el : (h.obj i).ld.map (h.write a r').arr = (h.obj i).ld.map h.arr := by
    rcases h2 : (h.obj i).ld with _ | b
    · rfl
    · simp [low b h2]
  have e : setRd c ((h.write a r').val i) r' = setRd c (h.val i) r' := by
    unfold setRd Heap.val Obj.val
    simp only [Heap.write] at el ⊢
    rw [el]
  rw [ea, e]
  have v1 : ((h.write a r').setObj i ⟨(setRd c (h.val i) r').st, some a, (h.obj i).ld⟩).val i = (setRd c (h.val i) r').st := by
    rw [Heap.val, setObj_self]
    refine val_mk ?_ ?_
    · rw [(setRd_spinors c _ _).1]; exact congrArg some ea
    · rw [(setRd_spinors c _ _).2]; exact el
  rcases he : (setRd c (h.val i) r').err with _ | e'
  · simp only
    rw [setObj_self]
    simp only
    rw [(setRd_spinors c (h.val i) r').2, show (h.val i).l_d = (h.obj i).ld.map h.arr from rfl]
    rcases h2 : (h.obj i).ld with _ | b <;> simp only [Option.map_none, Option.map_some]
    · rw [h2] at v1
      exact ⟨v1, trivial⟩
    have hab : a ≠ b := by
      simp only [Obj.refs, h1, h2, Option.toList_some] at hn
      simpa using hn
    rw [h2] at v1
    have eb : ((h.write a r').setObj i ⟨(setRd c (h.val i) r').st, some a, some b⟩).arr b = h.arr b := low b h2
    rw [eb]
    set l' : V2 K := ![f (h.arr b 0), f (h.arr b 1)] with hl'
    set h₂ := (h.write a r').setObj i ⟨(setRd c (h.val i) r').st, some a, some b⟩ with hh₂
    have ea' : (h₂.write b l').arr a = r' := (write_ne _ _ hab).trans ea
    have eb' : (h₂.write b l').arr b = l' := write_self ..
    have ev : setLd c ((h₂.write b l').val i) l' = setLd c (h₂.val i) l' := by
      unfold setLd Heap.val Obj.val
      have : (h₂.write b l').obj i = h₂.obj i := rfl
      rw [this, hh₂, setObj_self]
      simp only [Option.map_some]
      rw [← hh₂, ea', show h₂.arr a = r' from ea]
    rw [eb', ev, v1]
    refine ⟨?_, rfl⟩
    rw [Heap.val, setObj_self]
    refine val_mk ?_ ?_
    · rw [(setLd_spinors c _ _).1, (setRd_spinors c _ _).1]; exact congrArg some ea'
    · rw [(setLd_spinors c _ _).2]; exact congrArg some eb'
  · simp only
    exact ⟨v1, trivial⟩

/-! ### Actions -/

theorem act_effect (c : Ctx K) (h : Heap K) (i : ℕ) (a : Act K) : Effect h (actHeap c h i a).1 i a.inPlace := by
  cases a with
  | op o => exact op_effect c h i o
  | analytic m s => exact analytic_effect c h i m s
  | subs f => exact subs_effect c h i f

theorem act_value (c : Ctx K) (h : Heap K) (i : ℕ) (a : Act K) (hl : ∀ a ∈ (h.obj i).refs, a < h.na) (hn : a.inPlace = true → (h.obj i).refs.Nodup) :
    (actHeap c h i a).1.val i = (actVal c (h.val i) a).st ∧ (actHeap c h i a).2 = (actVal c (h.val i) a).err := by
  cases a with
  | op o => exact op_value c h i o hl
  | analytic m s => exact analytic_value c h i m s (hn rfl)
  | subs f => exact subs_value c h i f (hn rfl)

end Lips

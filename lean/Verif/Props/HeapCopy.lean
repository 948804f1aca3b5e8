import Verif.Props.Heap

/-!
C112: a copy is isolated. Whatever is shared among the other points, commands that do not name the copy never change it.
-/

namespace Lips

set_option linter.unusedSectionVars false

variable {K : Type*} [Field K]

/-- Commands that neither read nor change point `q`. -/
def Cmd.avoids (q : ℕ) : Cmd K → Prop
  | .new _ => True
  | .act p _ _ | .each p _ | .image p _ | .cluster p _ => p ≠ q
  | .share p _ p' _ => p ≠ q ∧ p' ≠ q
  | .pick l => ∀ x ∈ l, x.1 ≠ q

/-- The objects of `A` and those of `B` have nothing in common. -/
structure Iso (h : Heap K) (A : ℕ → Prop) (B : List ℕ) : Prop where
  aid : ∀ i, A i → i < h.no
  aref : ∀ i, A i → ∀ a ∈ (h.obj i).refs, a < h.na
  bid : ∀ j ∈ B, j < h.no
  bref : ∀ j ∈ B, ∀ a ∈ (h.obj j).refs, a < h.na
  ids : ∀ i, A i → i ∉ B
  refs : ∀ i, A i → ∀ j ∈ B, ∀ a ∈ (h.obj i).refs, a ∉ (h.obj j).refs

theorem Iso.effect {h h' : Heap K} {A : ℕ → Prop} {B : List ℕ} {i : ℕ} {w : Bool} (s : Iso h A B) (hi : A i) (e : Effect h h' i w) :
    Iso h' A B ∧ ∀ j ∈ B, h'.val j = h.val j := by
  have hne : ∀ j ∈ B, j ≠ i := fun j hj hji => s.ids i hi (hji ▸ hj)
  refine ⟨⟨fun k hk => e.no ▸ s.aid k hk, fun k hk a ha => ?_, fun j hj => e.no ▸ s.bid j hj, fun j hj a ha => ?_, s.ids, fun k hk j hj a ha haj => ?_⟩, fun j hj => ?_⟩
  · by_cases hki : k = i
    · subst hki
      rcases e.refs a ha with h1 | h1
      · exact (s.aref k hk a h1).trans_le e.na
      · exact h1.2
    · rw [e.obj k hki] at ha
      exact (s.aref k hk a ha).trans_le e.na
  · rw [e.obj j (hne j hj)] at ha
    exact (s.bref j hj a ha).trans_le e.na
  · rw [e.obj j (hne j hj)] at haj
    by_cases hki : k = i
    · subst hki
      rcases e.refs a ha with h1 | h1
      · exact s.refs k hk j hj a h1 haj
      · have := s.bref j hj a haj
        omega
    · rw [e.obj k hki] at ha
      exact s.refs k hk j hj a ha haj
  · exact e.val (hne j hj) (s.bref j hj) fun _ a ha hai => s.refs i hi j hj a hai ha

theorem Iso.each (c : Ctx K) {a : ℕ → Option (Act K)} {A : ℕ → Prop} {B : List ℕ} (is : List ℕ) : ∀ (j : ℕ) (h : Heap K), Iso h A B → (∀ i ∈ is, A i) →
    Iso (eachHeap c a j is h).1 A B ∧ ∀ k ∈ B, (eachHeap c a j is h).1.val k = h.val k := by
  induction is with
  | nil => exact fun j h s _ => ⟨s, fun _ _ => rfl⟩
  | cons i is ih =>
    intro j h s hs
    rw [eachHeap]
    rcases a j with _ | x <;> simp only
    · exact ⟨s, fun _ _ => by trivial⟩
    obtain ⟨s1, v1⟩ := s.effect (hs i (by simp)) (act_effect c h i x)
    rcases hr : actHeap c h i x with ⟨h', _ | e⟩ <;> rw [hr] at s1 v1 <;> simp only at s1 v1
    · obtain ⟨s2, v2⟩ := ih (j + 1) h' s1 fun i hi => hs i (List.mem_cons_of_mem _ hi)
      exact ⟨s2, fun k hk => (v2 k hk).trans (v1 k hk)⟩
    · exact ⟨s1, v1⟩

/-- `h'` is `h` and more. -/
structure Ext (h h' : Heap K) : Prop where
  no : h.no ≤ h'.no
  na : h.na ≤ h'.na
  obj : ∀ i < h.no, h'.obj i = h.obj i
  arr : ∀ a < h.na, h'.arr a = h.arr a

theorem Ext.rfl' (h : Heap K) : Ext h h := ⟨le_refl _, le_refl _, fun _ _ => rfl, fun _ _ => rfl⟩

theorem Ext.trans {h₁ h₂ h₃ : Heap K} (e : Ext h₁ h₂) (f : Ext h₂ h₃) : Ext h₁ h₃ :=
  ⟨e.no.trans f.no, e.na.trans f.na, fun i hi => (f.obj i (hi.trans_le e.no)).trans (e.obj i hi), fun a ha => (f.arr a (ha.trans_le e.na)).trans (e.arr a ha)⟩

/-- Objects whose arrays are new, or belong to `A`. -/
def From (h h' : Heap K) (A : ℕ → Prop) (js : List ℕ) : Prop :=
  ∀ j ∈ js, h.no ≤ j ∧ j < h'.no ∧ ∀ a ∈ (h'.obj j).refs, a < h'.na ∧ (h.na ≤ a ∨ ∃ k, A k ∧ a ∈ (h.obj k).refs)

theorem Iso.grow {h h' : Heap K} {A A' : ℕ → Prop} {B js : List ℕ} (s : Iso h A B) (e : Ext h h') (f : From h h' A js) (hA : ∀ i, A' i → A i ∨ i ∈ js) :
    Iso h' A' B ∧ ∀ j ∈ B, h'.val j = h.val j := by
  refine ⟨⟨fun i hi => ?_, fun i hi a ha => ?_, fun j hj => (s.bid j hj).trans_le e.no, fun j hj a ha => ?_, fun i hi hB => ?_, fun i hi j hj a ha haj => ?_⟩, fun j hj => ?_⟩
  · rcases hA i hi with h1 | h1
    · exact (s.aid i h1).trans_le e.no
    · exact (f i h1).2.1
  · rcases hA i hi with h1 | h1
    · rw [e.obj i (s.aid i h1)] at ha
      exact (s.aref i h1 a ha).trans_le e.na
    · exact ((f i h1).2.2 a ha).1
  · rw [e.obj j (s.bid j hj)] at ha
    exact (s.bref j hj a ha).trans_le e.na
  · rcases hA i hi with h1 | h1
    · exact s.ids i h1 hB
    · have := (f i h1).1
      have := s.bid i hB
      omega
  · rw [e.obj j (s.bid j hj)] at haj
    rcases hA i hi with h1 | h1
    · rw [e.obj i (s.aid i h1)] at ha
      exact s.refs i h1 j hj a ha haj
    · rcases ((f i h1).2.2 a ha).2 with h2 | ⟨k, hk, h2⟩
      · have := s.bref j hj a haj
        omega
      · exact s.refs k hk j hj a h2 haj
  · unfold Heap.val
    rw [e.obj j (s.bid j hj)]
    exact val_congr fun a ha => e.arr a (s.bref j hj a ha)

theorem ext_new (h : Heap K) (v : Particle K) : Ext h (h.new v) :=
  ⟨Nat.le_succ _, by simp [Heap.new, Heap.putBoth, Heap.setObj, Heap.alloc], fun _ hi => setObj_ne _ _ hi.ne, fun _ ha => alloc_low h _ _ ha⟩

theorem from_new (h : Heap K) (v : Particle K) (A : ℕ → Prop) : From h (h.new v) A [h.no] := by
  intro j hj
  obtain rfl := List.mem_singleton.1 hj
  refine ⟨le_refl _, Nat.lt_succ_self _, fun a ha => ?_⟩
  change a ∈ ((h.putBoth h.no v).obj h.no).refs at ha
  unfold Heap.putBoth at ha
  rw [setObj_self] at ha
  simp only [Heap.new, Heap.putBoth, Heap.setObj, Heap.alloc, Obj.refs, List.mem_append, Option.mem_toList, Option.map_eq_some_iff] at ha ⊢
  rcases ha with ⟨_, _, rfl⟩ | ⟨_, _, rfl⟩ <;> exact ⟨by omega, .inl (by omega)⟩

/-- One object, then more. -/
theorem from_cons {h₁ h₂ h₃ : Heap K} {A : ℕ → Prop} {js : List ℕ} (hA : ∀ k, A k → k < h₁.no) (e : Ext h₁ h₂) (f : From h₁ h₂ A [h₁.no]) (e' : Ext h₂ h₃) (f' : From h₂ h₃ A js) :
    From h₁ h₃ A (h₁.no :: js) := by
  intro j hj
  rw [List.mem_cons] at hj
  rcases hj with rfl | hj
  · obtain ⟨h1, h2, h3⟩ := f h₁.no (by simp)
    refine ⟨le_refl _, h2.trans_le e'.no, fun a ha => ?_⟩
    rw [e'.obj _ h2] at ha
    exact ⟨(h3 a ha).1.trans_le e'.na, (h3 a ha).2⟩
  · obtain ⟨h1, h2, h3⟩ := f' j hj
    refine ⟨e.no.trans h1, h2, fun a ha => ⟨(h3 a ha).1, ?_⟩⟩
    rcases (h3 a ha).2 with h4 | ⟨k, hk, h4⟩
    · exact .inl (e.na.trans h4)
    · rw [e.obj k (hA k hk)] at h4
      exact .inr ⟨k, hk, h4⟩

theorem ext_news (vs : List (Particle K)) : ∀ (h : Heap K) (A : ℕ → Prop), (∀ k, A k → k < h.no) → Ext h (h.news vs).1 ∧ From h (h.news vs).1 A (h.news vs).2 := by
  induction vs with
  | nil => exact fun h A _ => ⟨Ext.rfl' h, fun j hj => by cases hj⟩
  | cons v vs ih =>
    intro h A hA
    have e := ext_new h v
    obtain ⟨e', f'⟩ := ih (h.new v) A fun k hk => (hA k hk).trans_le e.no
    exact ⟨e.trans e', from_cons hA e (from_new h v A) e' f'⟩

theorem ext_leg (c : Ctx K) {h h' : Heap K} {A : ℕ → Prop} (hr : ∀ k, A k → ∀ a ∈ (h.obj k).refs, a < h.na) {l : List ℕ} (hl : ∀ i ∈ l, A i)
    (hh : legHeap c h l = some h') : Ext h h' ∧ From h h' A [h.no] := by
  match l with
  | [] => cases hh
  | [i] =>
    rw [legHeap, Option.some.injEq] at hh
    subst hh
    refine ⟨⟨Nat.le_succ _, le_refl _, fun k hk => setObj_ne _ _ hk.ne, fun _ _ => rfl⟩, fun j hj => ?_⟩
    obtain rfl := List.mem_singleton.1 hj
    refine ⟨le_refl _, Nat.lt_succ_self _, fun a ha => ?_⟩
    change a ∈ ((h.setObj h.no (h.obj i)).obj h.no).refs at ha
    rw [setObj_self] at ha
    exact ⟨hr i (hl i (by simp)) a ha, .inr ⟨i, hl i (by simp), ha⟩⟩
  | i :: j :: is =>
    rw [legHeap, Option.map_eq_some_iff] at hh
    · obtain ⟨v, -, rfl⟩ := hh
      exact ⟨ext_new h v, from_new h v A⟩
    · simp

theorem ext_legs (c : Ctx K) (A : ℕ → Prop) (ls : List (List ℕ)) : ∀ (h : Heap K), (∀ k, A k → k < h.no) → (∀ k, A k → ∀ a ∈ (h.obj k).refs, a < h.na) →
    (∀ l ∈ ls, ∀ i ∈ l, A i) → ∀ r, legsHeap c ls h = some r → Ext h r.1 ∧ From h r.1 A r.2 := by
  induction ls with
  | nil =>
    intro h _ _ _ r hr
    rw [legsHeap, Option.some.injEq] at hr
    subst hr
    exact ⟨Ext.rfl' h, fun j hj => by cases hj⟩
  | cons l ls ih =>
    intro h hA hR hl r hr
    rw [legsHeap] at hr
    rcases h1 : legHeap c h l with _ | h' <;> rw [h1] at hr <;> simp only at hr
    · cases hr
    rcases h2 : legsHeap c ls h' with _ | r' <;> rw [h2] at hr <;> simp only at hr
    · cases hr
    rw [Option.some.injEq] at hr
    subst hr
    obtain ⟨e, f⟩ := ext_leg c hR (hl l (by simp)) h1
    obtain ⟨e', f'⟩ := ih h' (fun k hk => (hA k hk).trans_le e.no) (fun k hk a ha => by
      rw [e.obj k (hA k hk)] at ha
      exact (hR k hk a ha).trans_le e.na) (fun l h => hl l (List.mem_cons_of_mem _ h)) r' h2
    exact ⟨e.trans e', from_cons hA e f e' f'⟩

theorem ext_copy (h : Heap K) : Ext h h.deepcopy :=
  ⟨by change h.no ≤ 2 * h.no; omega, by change h.na ≤ 2 * h.na; omega, fun _ hi => copy_low hi, fun _ ha => if_pos ha⟩

theorem from_copy (h : Heap K) (A : ℕ → Prop) {js : List ℕ} (hj : ∀ j ∈ js, j < h.no) (hr : ∀ j ∈ js, ∀ a ∈ (h.obj j).refs, a < h.na) :
    From h h.deepcopy A (js.map (· + h.no)) := by
  intro j hj'
  obtain ⟨k, hk, rfl⟩ := List.mem_map.1 hj'
  have := hj k hk
  refine ⟨by omega, ?_, fun a ha => ?_⟩
  · change k + h.no < 2 * h.no
    omega
  · rw [copy_refs] at ha
    obtain ⟨b, hb, rfl⟩ := List.mem_map.1 ha
    have := hr k hk b hb
    refine ⟨?_, .inl (by omega)⟩
    change b + h.na < 2 * h.na
    omega

/-- The objects of the points other than `q`. -/
def otherObjs (pts : List (List ℕ)) (q : ℕ) (i : ℕ) : Prop := ∃ p is, p ≠ q ∧ pts[p]? = some is ∧ i ∈ is

theorem otherObjs_append {pts : List (List ℕ)} {q : ℕ} {js : List ℕ} (i : ℕ) (h : otherObjs (pts ++ [js]) q i) : otherObjs pts q i ∨ i ∈ js := by
  obtain ⟨p, is, hp, h1, h2⟩ := h
  rcases Nat.lt_or_ge p pts.length with hl | hl
  · rw [List.getElem?_append_left hl] at h1
    exact .inl ⟨p, is, hp, h1, h2⟩
  · rw [List.getElem?_append_right hl] at h1
    have := List.mem_of_getElem? h1
    rw [List.mem_singleton] at this
    exact .inr (this ▸ h2)

/-- Point `q` has nothing in common with the other points. -/
structure Alone (m : Mem K) (q : ℕ) (js : List ℕ) : Prop where
  pt : m.pts[q]? = some js
  iso : Iso m.heap (otherObjs m.pts q) js

theorem Alone.append {m : Mem K} {q : ℕ} {js ks : List ℕ} {h' : Heap K} (s : Alone m q js) (e : Ext m.heap h') (f : From m.heap h' (otherObjs m.pts q) ks) :
    Alone ⟨h', m.pts ++ [ks]⟩ q js ∧ ∀ j ∈ js, h'.val j = m.heap.val j := by
  obtain ⟨h1, h2⟩ := s.iso.grow e f (otherObjs_append (pts := m.pts) (q := q))
  refine ⟨⟨?_, h1⟩, h2⟩
  rw [List.getElem?_append_left (List.getElem?_eq_some_iff.1 s.pt).1]
  exact s.pt

/-- C112, one command that does not name `q`. -/
theorem C112_alone_step (c : Ctx K) {m : Mem K} {q : ℕ} {js : List ℕ} (s : Alone m q js) (x : Cmd K) (hx : x.avoids q) :
    Alone (stepHeap c m x).1 q js ∧ ∀ j ∈ js, (stepHeap c m x).1.heap.val j = m.heap.val j := by
  have same : Alone m q js ∧ ∀ j ∈ js, m.heap.val j = m.heap.val j := ⟨s, fun _ _ => rfl⟩
  have at' : ∀ p is, p ≠ q → m.pts[p]? = some is → ∀ i ∈ is, otherObjs m.pts q i := fun p is hp h1 i hi => ⟨p, is, hp, h1, hi⟩
  have adr : ∀ p k i, p ≠ q → addr m.pts p k = some i → otherObjs m.pts q i := fun p k i hp h => by
    obtain ⟨is, h1, -, -, h4⟩ := addr_mem h
    exact ⟨p, is, hp, h1, h4⟩
  cases x with
  | new vs =>
    obtain ⟨e, f⟩ := ext_news vs m.heap (otherObjs m.pts q) s.iso.aid
    exact s.append e f
  | act p k a =>
    simp only [stepHeap]
    rcases ha : addr m.pts p k with _ | i
    · exact same
    obtain ⟨h1, h2⟩ := s.iso.effect (adr p k i hx ha) (act_effect c m.heap i a)
    exact ⟨⟨s.pt, h1⟩, h2⟩
  | each p a =>
    simp only [stepHeap]
    rcases hp : m.pts[p]? with _ | is
    · exact same
    obtain ⟨h1, h2⟩ := Iso.each c (a := a) is 0 m.heap s.iso (at' p is hx hp)
    exact ⟨⟨s.pt, h1⟩, h2⟩
  | image p r =>
    classical
    simp only [stepHeap]
    rcases hp : m.pts[p]? with _ | is
    · exact same
    simp only
    unfold imageHeap
    rcases hi : imageStr (fun i j => decide (pEq (m.heap.val i) (m.heap.val j))) is r.1 with e | ks <;> simp only
    · exact ⟨s, fun _ _ => by trivial⟩
    have hk : ∀ k ∈ ks, otherObjs m.pts q k := fun k hk => at' p is hx hp k ((image_sorted _ _ _ _ hi).1.subset hk)
    obtain ⟨h1, h2⟩ := s.append (ext_copy m.heap) (from_copy m.heap (otherObjs m.pts q) (fun k h => s.iso.aid k (hk k h)) fun k h => s.iso.aref k (hk k h))
    rcases r.2
    · exact ⟨h1, h2⟩
    · have hnew : ∀ i ∈ ks.map (· + m.heap.no), otherObjs (m.pts ++ [ks.map (· + m.heap.no)]) q i := fun i hi =>
        ⟨m.pts.length, _, fun e => by
          have := (List.getElem?_eq_some_iff.1 s.pt).1
          omega, by rw [List.getElem?_append_right (le_refl _)]; simp, hi⟩
      obtain ⟨h3, h4⟩ := Iso.each c (a := fun _ => some (.op .swap)) (ks.map (· + m.heap.no)) 0 m.heap.deepcopy h1.iso hnew
      exact ⟨⟨h1.pt, h3⟩, fun j hj => (h4 j hj).trans (h2 j hj)⟩
  | share p k p' k' =>
    simp only [stepHeap]
    rcases ha : addr m.pts p k with _ | i
    · exact same
    rcases hb : addr m.pts p' k' with _ | j
    · exact same
    simp only
    rcases hr : (m.heap.obj j).rd with _ | a
    · exact same
    simp only [shareHeap]
    have hi := adr p k i hx.1 ha
    have hj := adr p' k' j hx.2 hb
    have hne : ∀ t ∈ js, t ≠ i := fun t ht e => s.iso.ids i hi (e ▸ ht)
    have hself : ∀ b ∈ Obj.refs ⟨(setRd c (m.heap.val i) (m.heap.arr a)).st, some a, (m.heap.obj i).ld⟩, ∃ k, otherObjs m.pts q k ∧ b ∈ (m.heap.obj k).refs := fun b hb => by
      simp only [Obj.refs, Option.toList_some, List.mem_append, List.mem_singleton, Option.mem_toList] at hb
      rcases hb with rfl | hb
      · exact ⟨j, hj, refs_rd hr⟩
      · exact ⟨i, hi, refs_ld hb⟩
    refine ⟨⟨s.pt, ⟨s.iso.aid, fun t ht b hb => ?_, s.iso.bid, fun t ht b hb => ?_, s.iso.ids, fun t ht u hu b hb hbu => ?_⟩⟩, fun t ht => ?_⟩
    · by_cases hti : t = i
      · subst hti
        rw [setObj_self] at hb
        obtain ⟨k, hk, h1⟩ := hself b hb
        exact s.iso.aref k hk b h1
      · rw [setObj_ne _ _ hti] at hb
        exact s.iso.aref t ht b hb
    · rw [setObj_ne _ _ (hne t ht)] at hb
      exact s.iso.bref t ht b hb
    · rw [setObj_ne _ _ (hne u hu)] at hbu
      by_cases hti : t = i
      · subst hti
        rw [setObj_self] at hb
        obtain ⟨k, hk, h1⟩ := hself b hb
        exact s.iso.refs k hk u hu b h1 hbu
      · rw [setObj_ne _ _ hti] at hb
        exact s.iso.refs t ht u hu b hb hbu
    · unfold Heap.val
      rw [setObj_ne _ _ (hne t ht)]
      rfl
  | cluster p ls =>
    simp only [stepHeap]
    rcases hp : m.pts[p]? with _ | is
    · exact same
    simp only
    rcases hm : (ls.mapM fun l : List ℕ => l.mapM fun k => is[k]?) with _ | ls'
    · exact same
    simp only
    have hl : ∀ l ∈ ls', ∀ i ∈ l, otherObjs m.pts q i := fun l hl i hi => by
      obtain ⟨l0, -, h0⟩ := mapM_length _ _ _ hm l hl
      obtain ⟨k, -, hk⟩ := mapM_length _ _ _ h0 i hi
      exact at' p is hx hp i (List.mem_of_getElem? hk)
    rcases hr : legsHeap c ls' m.heap with _ | r
    · exact same
    · obtain ⟨e, f⟩ := ext_legs c (otherObjs m.pts q) ls' m.heap s.iso.aid s.iso.aref hl r hr
      exact s.append e f
  | pick l =>
    simp only [stepHeap]
    rcases hm : (l.mapM fun x : ℕ × ℕ => addr m.pts x.1 x.2) with _ | is
    · exact same
    have hl : ∀ i ∈ is, otherObjs m.pts q i := fun i hi => by
      obtain ⟨x, hx', h0⟩ := mapM_length _ _ _ hm i hi
      exact adr x.1 x.2 i (hx x hx') h0
    refine ⟨⟨?_, ?_⟩, fun _ _ => rfl⟩
    · simp only
      rw [List.getElem?_append_left (List.getElem?_eq_some_iff.1 s.pt).1]
      exact s.pt
    · have ho : ∀ i, otherObjs (m.pts ++ [is]) q i → otherObjs m.pts q i := fun i hi => (otherObjs_append i hi).elim id (hl i)
      exact ⟨fun i hi => s.iso.aid i (ho i hi), fun i hi => s.iso.aref i (ho i hi), s.iso.bid, s.iso.bref, fun i hi => s.iso.ids i (ho i hi), fun i hi => s.iso.refs i (ho i hi)⟩

/-- C112: however much is shared in memory, a copy or an image without exchange is not changed by any history of commands that do not name it, nor is
anything it was made from changed by making it. -/
theorem C112_isolated (c : Ctx K) {m : Mem K} (g : Good false m.heap m.pts.flatten) {p : ℕ} {r : List Char} {m' : Mem K} (h : stepHeap c m (.image p (r, false)) = (m', none))
    (prog : ℕ → List (List (Particle K)) → Cmd K) (hp : ∀ t vs, (prog t vs).avoids m.pts.length) (t : ℕ) :
    m'.seen.take m.pts.length = m.seen ∧ (runHeap c prog t m').seen[m.pts.length]? = m'.seen[m.pts.length]? := by
  rcases hq : m.pts[p]? with _ | is
  · simp only [stepHeap, hq, Prod.mk.injEq, reduceCtorEq, and_false] at h
  obtain ⟨js, h1, h2, h3, h4, -⟩ := C112_copy c g hq r h
  have hjs : ∀ j ∈ js, j < m'.heap.no ∧ ∀ a ∈ (m'.heap.obj j).refs, a < m'.heap.na := by
    classical
    simp only [stepHeap, hq] at h
    unfold imageHeap at h
    rcases hi : imageStr (fun i j => decide (pEq (m.heap.val i) (m.heap.val j))) is r with e | ks <;> simp only [hi] at h
    · simp at h
    simp only [Bool.false_eq_true, if_false, Prod.mk.injEq, and_true] at h
    subst h
    simp only [List.append_cancel_left_eq, List.cons.injEq, and_true] at h1
    subst h1
    have hk : ∀ j ∈ ks, j ∈ m.pts.flatten := fun j hj => List.mem_flatten.2 ⟨is, List.mem_of_getElem? hq, (image_sorted _ _ _ _ hi).1.subset hj⟩
    have f := from_copy m.heap (fun _ => False) (fun k h => g.ids k (hk k h)) fun k h => g.refs k (hk k h)
    exact fun j hj => ⟨(f j hj).2.1, fun a ha => ((f j hj).2.2 a ha).1⟩
  have hold : ∀ i ∈ m.pts.flatten, i < m'.heap.no ∧ ∀ a ∈ (m'.heap.obj i).refs, a < m'.heap.na := by
    classical
    simp only [stepHeap, hq] at h
    unfold imageHeap at h
    rcases hi : imageStr (fun i j => decide (pEq (m.heap.val i) (m.heap.val j))) is r with e | ks <;> simp only [hi] at h
    · simp at h
    simp only [Bool.false_eq_true, if_false, Prod.mk.injEq, and_true] at h
    subst h
    have e := ext_copy m.heap
    exact fun i hi => ⟨(g.ids i hi).trans_le e.no, fun a ha => by
      simp only at ha
      rw [e.obj i (g.ids i hi)] at ha
      exact (g.refs i hi a ha).trans_le e.na⟩
  have ho : ∀ i, otherObjs m'.pts m.pts.length i → i ∈ m.pts.flatten := fun i hi => by
    obtain ⟨p', is', hp', k1, k2⟩ := hi
    rw [h1] at k1
    rcases Nat.lt_trichotomy p' m.pts.length with hl | hl | hl
    · rw [List.getElem?_append_left hl] at k1
      exact List.mem_flatten.2 ⟨is', List.mem_of_getElem? k1, k2⟩
    · exact absurd hl hp'
    · rw [List.getElem?_append_right hl.le, List.getElem?_eq_none (by simp; omega)] at k1
      cases k1
  have alone : Alone m' m.pts.length js := by
    refine ⟨by rw [h1, List.getElem?_append_right (le_refl _)]; simp, ⟨fun i hi => (hold i (ho i hi)).1, fun i hi => (hold i (ho i hi)).2, fun j hj => (hjs j hj).1,
      fun j hj => (hjs j hj).2, fun i hi => h2 i (ho i hi), fun i hi => h3 i (ho i hi)⟩⟩
  refine ⟨?_, ?_⟩
  · unfold Mem.seen
    rw [h1, List.map_append, List.take_append_of_le_length (by simp), List.take_of_length_le (by simp)]
    exact List.map_congr_left fun is his => List.map_congr_left fun i hi => h4 i (List.mem_flatten.2 ⟨is, his, hi⟩)
  · have : Alone (runHeap c prog t m') m.pts.length js ∧ ∀ j ∈ js, (runHeap c prog t m').heap.val j = m'.heap.val j := by
      induction t with
      | zero => exact ⟨alone, fun _ _ => rfl⟩
      | succ t ih =>
        obtain ⟨k1, k2⟩ := C112_alone_step c ih.1 (prog t (runHeap c prog t m').seen) (hp t _)
        exact ⟨k1, fun j hj => (k2 j hj).trans (ih.2 j hj)⟩
    rw [seen_point, seen_point, this.1.pt, alone.pt]
    simp only [Option.map_some, Option.some.injEq]
    exact List.map_congr_left this.2

end Lips

import Verif.Lemmas.Heap
import Verif.Props.Image

/-!
C112: when points may be treated as values. A program that never puts an object or an array into two places behaves as if every point were a list of
values, whatever it does; slices, clusters and assigned arrays break this.
-/

namespace Lips

set_option linter.unusedSectionVars false

variable {K : Type*} [Field K]

/-- What can be seen of the points. -/
def Mem.seen (m : Mem K) : List (List (Particle K)) := m.pts.map fun is => is.map m.heap.val

/-! ### Objects that are in use -/

/-- The objects `live` are proper, and with `w` no two of them have an array in common. -/
structure Good (w : Bool) (h : Heap K) (live : List ℕ) : Prop where
  ids : ∀ i ∈ live, i < h.no
  refs : ∀ i ∈ live, ∀ a ∈ (h.obj i).refs, a < h.na
  apart : w = true → ∀ i ∈ live, ∀ j ∈ live, i ≠ j → ∀ a ∈ (h.obj i).refs, a ∉ (h.obj j).refs
  nodup : w = true → ∀ i ∈ live, (h.obj i).refs.Nodup

theorem Good.mono {w : Bool} {h : Heap K} {live live' : List ℕ} (g : Good w h live) (hs : ∀ i ∈ live', i ∈ live) : Good w h live' :=
  ⟨fun i hi => g.ids i (hs i hi), fun i hi => g.refs i (hs i hi), fun hw i hi j hj => g.apart hw i (hs i hi) j (hs j hj), fun hw i hi => g.nodup hw i (hs i hi)⟩

theorem Good.effect {w b : Bool} {h h' : Heap K} {live : List ℕ} {i : ℕ} (g : Good w h live) (hi : i ∈ live) (e : Effect h h' i b) (hb : b = true → w = true) :
    Good w h' live ∧ ∀ j ∈ live, j ≠ i → h'.val j = h.val j := by
  refine ⟨⟨fun j hj => e.no ▸ g.ids j hj, fun j hj a ha => ?_, fun hw j hj k hk hjk a ha hak => ?_, fun hw j hj => ?_⟩, fun j hj hji => ?_⟩
  · by_cases hji : j = i
    · subst hji
      rcases e.refs a ha with h1 | h1
      · exact (g.refs j hj a h1).trans_le e.na
      · exact h1.2
    · rw [e.obj j hji] at ha
      exact (g.refs j hj a ha).trans_le e.na
  · by_cases hji : j = i
    · subst hji
      rw [e.obj k hjk.symm] at hak
      rcases e.refs a ha with h1 | h1
      · exact g.apart hw j hj k hk hjk a h1 hak
      · exact absurd (g.refs k hk a hak) (by omega)
    · rw [e.obj j hji] at ha
      by_cases hki : k = i
      · subst hki
        rcases e.refs a hak with h1 | h1
        · exact g.apart hw j hj k hk hjk a ha h1
        · exact absurd (g.refs j hj a ha) (by omega)
      · rw [e.obj k hki] at hak
        exact g.apart hw j hj k hk hjk a ha hak
  · by_cases hji : j = i
    · subst hji
      exact e.nodup (g.nodup hw j hj) (g.refs j hj)
    · rw [e.obj j hji]
      exact g.nodup hw j hj
  · exact e.val hji (g.refs j hj) fun hw => g.apart (hb hw) j hj i hi hji

theorem Good.act {w : Bool} {h : Heap K} {live : List ℕ} {i : ℕ} (c : Ctx K) (g : Good w h live) (hi : i ∈ live) (a : Act K) (hb : a.inPlace = true → w = true) :
    Good w (actHeap c h i a).1 live ∧ (∀ j ∈ live, j ≠ i → (actHeap c h i a).1.val j = h.val j) ∧
    (actHeap c h i a).1.val i = (actVal c (h.val i) a).st ∧ (actHeap c h i a).2 = (actVal c (h.val i) a).err := by
  obtain ⟨h1, h2⟩ := g.effect hi (act_effect c h i a) hb
  exact ⟨h1, h2, act_value c h i a (g.refs i hi) fun hw => g.nodup (hb hw) i hi⟩

theorem Good.each {w : Bool} (c : Ctx K) {a : ℕ → Option (Act K)} (hb : ∀ j x, a j = some x → x.inPlace = true → w = true) (live : List ℕ) (is : List ℕ) :
    ∀ (j : ℕ) (h : Heap K), Good w h live → (∀ i ∈ is, i ∈ live) → is.Nodup → Good w (eachHeap c a j is h).1 live ∧ (eachHeap c a j is h).1.no = h.no ∧
      (∀ k ∈ live, k ∉ is → (eachHeap c a j is h).1.val k = h.val k) ∧ is.map (eachHeap c a j is h).1.val = (eachVal c a j (is.map h.val)).1 ∧
      (eachHeap c a j is h).2 = (eachVal c a j (is.map h.val)).2 := by
  induction is with
  | nil => exact fun j h g _ _ => ⟨g, rfl, fun _ _ _ => rfl, rfl, rfl⟩
  | cons i is ih =>
    intro j h g hs hn
    rw [List.nodup_cons] at hn
    have hi := hs i (by simp)
    have hs' : ∀ i ∈ is, i ∈ live := fun k hk => hs k (List.mem_cons_of_mem _ hk)
    simp only [List.map_cons, eachHeap, eachVal]
    rcases ha : a j with _ | x <;> simp only
    · refine ⟨g, ?_, ?_, ?_, ?_⟩ <;> simp
    obtain ⟨g', hv, h1, h2⟩ := g.act c hi x (hb j x ha)
    have he : (actHeap c h i x).1.no = h.no := (act_effect c h i x).no
    have rest : is.map (actHeap c h i x).1.val = is.map h.val :=
      List.map_congr_left fun k hk => hv k (hs' k hk) fun e => hn.1 (e ▸ hk)
    rcases hr : actHeap c h i x with ⟨h', _ | e⟩ <;> rw [hr] at h1 h2 g' hv rest he <;> simp only at h1 h2 g' hv rest he <;>
      rcases hq : actVal c (h.val i) x with ⟨p', _ | e'⟩ <;> rw [hq] at h1 h2 <;> simp only at h1 h2
    · obtain ⟨k1, k2, k3, k4, k5⟩ := ih (j + 1) h' g' hs' hn.2
      rw [rest] at k4 k5
      refine ⟨k1, k2.trans he, fun k hk hki => ?_, ?_, k5⟩
      · rw [List.mem_cons, not_or] at hki
        exact (k3 k hk hki.2).trans (hv k hk hki.1)
      · change (eachHeap c a (j + 1) is h').1.val i :: is.map (eachHeap c a (j + 1) is h').1.val = _
        rw [k4, k3 i hi hn.1, h1]
    · cases h2
    · cases h2
    · cases h2
      refine ⟨g', he, fun k hk hki => hv k hk fun e => hki (by simp [e]), ?_, rfl⟩
      change h'.val i :: is.map h'.val = _
      rw [rest, h1]

/-! ### New objects -/

theorem Good.new {w : Bool} {h : Heap K} {live : List ℕ} (g : Good w h live) (v : Particle K) :
    Good w (h.new v) (live ++ [h.no]) ∧ (∀ i ∈ live, (h.new v).val i = h.val i) ∧ (h.new v).val h.no = v ∧ (h.new v).no = h.no + 1 := by
  have e := putBoth_effect h h.no v
  have hne : ∀ i ∈ live, i ≠ h.no := fun i hi => (g.ids i hi).ne
  have ho : ∀ i ∈ live, (h.new v).obj i = h.obj i := fun i hi => e.obj i (hne i hi)
  have hself : ∀ a ∈ ((h.new v).obj h.no).refs, h.na ≤ a ∧ a < (h.new v).na := fun a ha => by
    have hrefs : ((h.new v).obj h.no).refs = ((h.putBoth h.no v).obj h.no).refs := rfl
    rw [hrefs] at ha
    unfold Heap.putBoth at ha
    rw [setObj_self] at ha
    simp only [Heap.new, Heap.putBoth, Heap.setObj, Heap.alloc, Obj.refs, List.mem_append, Option.mem_toList, Option.map_eq_some_iff] at ha ⊢
    rcases ha with ⟨_, _, rfl⟩ | ⟨_, _, rfl⟩ <;> omega
  have hnd : ((h.new v).obj h.no).refs.Nodup := by
    have hrefs : ((h.new v).obj h.no).refs = ((h.putBoth h.no v).obj h.no).refs := rfl
    rw [hrefs]
    unfold Heap.putBoth
    rw [setObj_self]
    unfold Obj.refs
    cases v.r_d <;> cases v.l_d <;> simp
  refine ⟨⟨fun i hi => ?_, fun i hi a ha => ?_, fun hw i hi j hj hij a ha haj => ?_, fun hw i hi => ?_⟩, fun i hi => ?_, putBoth_val h h.no v, rfl⟩
  · rw [List.mem_append, List.mem_singleton] at hi
    change i < h.no + 1
    rcases hi with hi | rfl
    · exact (g.ids i hi).trans (by omega)
    · omega
  · rw [List.mem_append, List.mem_singleton] at hi
    rcases hi with hi | rfl
    · rw [ho i hi] at ha
      exact (g.refs i hi a ha).trans_le e.na
    · exact (hself a ha).2
  · rw [List.mem_append, List.mem_singleton] at hi hj
    rcases hi with hi | rfl <;> rcases hj with hj | rfl
    · rw [ho i hi] at ha
      rw [ho j hj] at haj
      exact g.apart hw i hi j hj hij a ha haj
    · rw [ho i hi] at ha
      have := (hself a haj).1
      have := g.refs i hi a ha
      omega
    · rw [ho j hj] at haj
      have := (hself a ha).1
      have := g.refs j hj a haj
      omega
    · exact hij rfl
  · rw [List.mem_append, List.mem_singleton] at hi
    rcases hi with hi | rfl
    · rw [ho i hi]
      exact g.nodup hw i hi
    · exact hnd
  · exact e.val (hne i hi) (g.refs i hi) fun h => by cases h

theorem Good.news {w : Bool} (vs : List (Particle K)) : ∀ (h : Heap K) (live : List ℕ), Good w h live →
    Good w (h.news vs).1 (live ++ (h.news vs).2) ∧ (∀ i ∈ live, (h.news vs).1.val i = h.val i) ∧ (h.news vs).2.map (h.news vs).1.val = vs ∧
    (h.news vs).2.Nodup ∧ ∀ i ∈ (h.news vs).2, h.no ≤ i := by
  induction vs with
  | nil => exact fun h live g => ⟨by simpa [Heap.news] using g, fun _ _ => rfl, rfl, List.nodup_nil, by simp [Heap.news]⟩
  | cons v vs ih =>
    intro h live g
    obtain ⟨g1, v1, e1, n1⟩ := g.new v
    obtain ⟨g2, v2, e2, d2, l2⟩ := ih (h.new v) (live ++ [h.no]) g1
    rw [Heap.news]
    simp only
    refine ⟨?_, fun i hi => (v2 i (by simp [hi])).trans (v1 i hi), ?_, ?_, ?_⟩
    · simpa using g2
    · rw [List.map_cons, e2, v2 h.no (by simp), e1]
    · rw [List.nodup_cons]
      exact ⟨fun hm => by have := l2 _ hm; omega, d2⟩
    · intro i hi
      rw [List.mem_cons] at hi
      rcases hi with rfl | hi
      · exact le_refl _
      · have := l2 i hi
        omega

/-! ### Copies -/

theorem copy_low {h : Heap K} {i : ℕ} (hi : i < h.no) : h.deepcopy.obj i = h.obj i := if_pos hi

theorem copy_high (h : Heap K) (i : ℕ) : h.deepcopy.obj (i + h.no) = { h.obj i with rd := (h.obj i).rd.map (· + h.na), ld := (h.obj i).ld.map (· + h.na) } := by
  unfold Heap.deepcopy
  simp only
  rw [if_neg (by omega), Nat.add_sub_cancel]

theorem copy_refs (h : Heap K) (i : ℕ) : (h.deepcopy.obj (i + h.no)).refs = (h.obj i).refs.map (· + h.na) := by
  rw [copy_high]
  unfold Obj.refs
  rcases (h.obj i).rd with _ | a <;> rcases (h.obj i).ld with _ | b <;> simp

theorem copy_arr_high (h : Heap K) (a : ℕ) : h.deepcopy.arr (a + h.na) = h.arr a := by
  unfold Heap.deepcopy
  simp only
  rw [if_neg (by omega), Nat.add_sub_cancel]

theorem copy_val (h : Heap K) (i : ℕ) : h.deepcopy.val (i + h.no) = h.val i := by
  unfold Heap.val
  rw [copy_high]
  unfold Obj.val
  simp only [Option.map_map]
  have : h.deepcopy.arr ∘ (· + h.na) = h.arr := funext fun a => copy_arr_high h a
  rw [this]

theorem copy_old {h : Heap K} {i : ℕ} (hi : i < h.no) (hr : ∀ a ∈ (h.obj i).refs, a < h.na) : h.deepcopy.val i = h.val i := by
  unfold Heap.val
  rw [copy_low hi]
  exact val_congr fun a ha => if_pos (hr a ha)

theorem Good.copy {w : Bool} {h : Heap K} {live js : List ℕ} (g : Good w h live) (hs : ∀ j ∈ js, j ∈ live) : Good w h.deepcopy (live ++ js.map (· + h.no)) := by
  have cases' : ∀ i ∈ live ++ js.map (· + h.no), (i ∈ live ∧ i < h.no) ∨ ∃ j ∈ live, i = j + h.no ∧ j < h.no := fun i hi => by
    rw [List.mem_append, List.mem_map] at hi
    rcases hi with hi | ⟨j, hj, rfl⟩
    · exact .inl ⟨hi, g.ids i hi⟩
    · exact .inr ⟨j, hs j hj, rfl, g.ids j (hs j hj)⟩
  have low : ∀ i ∈ live, ∀ a ∈ (h.deepcopy.obj i).refs, a ∈ (h.obj i).refs ∧ a < h.na := fun i hi a ha => by
    rw [copy_low (g.ids i hi)] at ha
    exact ⟨ha, g.refs i hi a ha⟩
  have high : ∀ j ∈ live, ∀ a ∈ (h.deepcopy.obj (j + h.no)).refs, ∃ b ∈ (h.obj j).refs, a = b + h.na ∧ b < h.na := fun j hj a ha => by
    rw [copy_refs, List.mem_map] at ha
    obtain ⟨b, hb, rfl⟩ := ha
    exact ⟨b, hb, rfl, g.refs j hj b hb⟩
  refine ⟨fun i hi => ?_, fun i hi a ha => ?_, fun hw i hi j hj hij a ha haj => ?_, fun hw i hi => ?_⟩
  · change i < 2 * h.no
    rcases cases' i hi with h1 | ⟨j, -, rfl, h1⟩ <;> omega
  · change a < 2 * h.na
    rcases cases' i hi with h1 | ⟨j, h1, rfl, -⟩
    · have := (low i h1.1 a ha).2
      omega
    · obtain ⟨b, -, rfl, hb⟩ := high j h1 a ha
      omega
  · rcases cases' i hi with h1 | ⟨i', h1, rfl, -⟩ <;> rcases cases' j hj with h2 | ⟨j', h2, rfl, -⟩
    · exact g.apart hw i h1.1 j h2.1 hij a (low i h1.1 a ha).1 (low j h2.1 a haj).1
    · have := (low i h1.1 a ha).2
      obtain ⟨b, -, rfl, -⟩ := high j' h2 a haj
      omega
    · have := (low j h2.1 a haj).2
      obtain ⟨b, -, rfl, -⟩ := high i' h1 a ha
      omega
    · obtain ⟨b, hb, rfl, -⟩ := high i' h1 a ha
      obtain ⟨b', hb', e, -⟩ := high j' h2 _ haj
      obtain rfl : b = b' := by omega
      exact g.apart hw i' h1 j' h2 (fun e => hij (by rw [e])) b hb hb'
  · rcases cases' i hi with h1 | ⟨j, h1, rfl, -⟩
    · rw [copy_low h1.2]
      exact g.nodup hw i h1.1
    · rw [copy_refs]
      exact (g.nodup hw j h1).map fun a b e => by simpa using e

/-! ### Images -/

theorem pyIndex_map {α β : Type*} (eq : β → β → Bool) (f : α → β) (l : List α) (x : α) : pyIndex eq (l.map f) (f x) = pyIndex (fun a b => eq (f a) (f b)) l x := by
  unfold pyIndex
  rw [List.findIdx_map]
  rfl

theorem imageKeys_map {α β : Type*} (eq : β → β → Bool) (f : α → β) (l : List α) (p : List Char) (xs : List α) :
    imageKeys eq (l.map f) p (xs.map f) = (imageKeys (fun a b => eq (f a) (f b)) l p xs).map (List.map fun x => (x.1, f x.2)) := by
  induction xs with
  | nil => rfl
  | cons x xs ih =>
    rw [List.map_cons, imageKeys, imageKeys, pyIndex_map, ih]
    rcases p[pyIndex (fun a b => eq (f a) (f b)) l x]? with _ | ch <;> rcases imageKeys (fun a b => eq (f a) (f b)) l p xs with _ | r <;> rfl

theorem imageStr_map {α β : Type*} (eq : β → β → Bool) (f : α → β) (l : List α) (p : List Char) :
    imageStr eq (l.map f) p = (imageStr (fun a b => eq (f a) (f b)) l p).map (List.map f) := by
  unfold imageStr
  split
  · rw [imageKeys_map]
    rcases imageKeys (fun a b => eq (f a) (f b)) l p l with _ | ks
    · rfl
    · simp only [Option.map_some, Except.map]
      rw [← List.map_mergeSort (r := fun a b : Char × α => decide (a.1 ≤ b.1)) fun _ _ _ _ => rfl, List.map_map, List.map_map]
      rfl
  · rfl

theorem each_swap (c : Ctx K) (ps : List (Particle K)) : ∀ j, eachVal c (fun _ => some (.op .swap)) j ps = (ps.map (anglesForSquares c), none) := by
  induction ps with
  | nil => exact fun _ => rfl
  | cons p ps ih =>
    intro j
    rw [eachVal]
    simp only [actVal, applyOp]
    rw [ih]
    rfl

theorem Good.image {w : Bool} (c : Ctx K) {h : Heap K} {live is : List ℕ} (g : Good w h live) (hs : ∀ i ∈ is, i ∈ live) (hn : is.Nodup) (r : List Char × Bool) :
    (∃ e, imageHeap c h is r = .error e ∧ (open Classical in imageRule (fun x y => decide (pEq x y)) (anglesForSquares c) (is.map h.val) r) = .error e) ∨
    ∃ h' js, imageHeap c h is r = .ok (h', js) ∧ Good w h' (live ++ js) ∧ (∀ i ∈ live, h'.val i = h.val i) ∧ js.Nodup ∧ (∀ j ∈ js, h.no ≤ j) ∧
      (open Classical in imageRule (fun x y => decide (pEq x y)) (anglesForSquares c) (is.map h.val) r) = .ok (js.map h'.val) := by
  classical
  unfold imageHeap imageRule
  rw [imageStr_map]
  rcases hi : imageStr (fun i j => decide (pEq (h.val i) (h.val j))) is r.1 with e | js
  · exact .inl ⟨e, rfl, rfl⟩
  have hp := (image_sorted _ _ _ _ hi).1
  have hjs : ∀ j ∈ js, j ∈ live := fun j hj => hs j (hp.subset hj)
  have hjn : js.Nodup := hp.symm.nodup hn
  have gc := g.copy hjs
  have old : ∀ i ∈ live, h.deepcopy.val i = h.val i := fun i hi => copy_old (g.ids i hi) (g.refs i hi)
  have vals : (js.map (· + h.no)).map h.deepcopy.val = js.map h.val := by
    rw [List.map_map]
    exact List.map_congr_left fun j _ => copy_val h j
  have hge : ∀ j ∈ js.map (· + h.no), h.no ≤ j := fun j hj => by
    obtain ⟨k, -, rfl⟩ := List.mem_map.1 hj
    omega
  have hnd : (js.map (· + h.no)).Nodup := hjn.map fun a b e => by simpa using e
  right
  simp only [Except.map]
  split
  · obtain ⟨g1, -, v1, e1, -⟩ := Good.each (w := w) c (a := fun _ => some (.op .swap)) (by rintro j x hx hw; cases hx; cases hw) _ (js.map (· + h.no)) 0 _ gc
      (fun i hi => List.mem_append_right _ hi) hnd
    refine ⟨_, _, rfl, g1, fun i hi => ?_, hnd, hge, ?_⟩
    · rw [v1 i (List.mem_append_left _ hi) fun hm => by have := hge i hm; have := g.ids i hi; omega, old i hi]
    · rw [e1, each_swap, vals]
  · exact ⟨_, _, rfl, gc, old, hnd, hge, by rw [vals]⟩

/-! ### Commands -/

/-- No object is in two places; with `w` no array either. -/
structure Sep (w : Bool) (m : Mem K) : Prop where
  good : Good w m.heap m.pts.flatten
  nodup : m.pts.flatten.Nodup

theorem addr_mem {pts : List (List ℕ)} {p k i : ℕ} (h : addr pts p k = some i) : ∃ is, pts[p]? = some is ∧ is[k]? = some i ∧ is ∈ pts ∧ i ∈ is := by
  unfold addr at h
  rw [Option.bind_eq_some_iff] at h
  obtain ⟨is, h1, h2⟩ := h
  exact ⟨is, h1, h2, List.mem_of_getElem? h1, List.mem_of_getElem? h2⟩

theorem addr_seen (m : Mem K) (p k : ℕ) : valAt m.seen p k = (addr m.pts p k).map m.heap.val := by
  unfold valAt addr Mem.seen
  rw [List.getElem?_map]
  rcases m.pts[p]? with _ | is
  · rfl
  · simp

theorem seen_point (m : Mem K) (p : ℕ) : m.seen[p]? = m.pts[p]?.map fun is => is.map m.heap.val := List.getElem?_map ..

theorem set_seen {f f' : ℕ → Particle K} {pts : List (List ℕ)} (hn : pts.flatten.Nodup) {p : ℕ} {is : List ℕ} (hp : pts[p]? = some is)
    (hf : ∀ j ∈ pts.flatten, j ∉ is → f' j = f j) : (pts.map fun is => is.map f') = (pts.map fun is => is.map f).set p (is.map f') := by
  have hd := (List.nodup_flatten.1 hn).2
  refine List.ext_getElem? fun q => ?_
  rw [List.getElem?_set, List.length_map, List.getElem?_map, List.getElem?_map]
  obtain ⟨hlt, hget⟩ := List.getElem?_eq_some_iff.1 hp
  split
  · rename_i e
    subst e
    rw [hp]
    rfl
  · rename_i e
    rcases hq : pts[q]? with _ | js
    · rfl
    · obtain ⟨hlt', hget'⟩ := List.getElem?_eq_some_iff.1 hq
      simp only [Option.map_some, Option.some.injEq]
      refine List.map_congr_left fun j hj => hf j (List.mem_flatten.2 ⟨js, List.mem_of_getElem? hq, hj⟩) fun hji => ?_
      rcases Nat.lt_or_gt_of_ne e with h | h
      · have := List.pairwise_iff_getElem.1 hd p q hlt hlt' h
        rw [hget, hget'] at this
        exact this hji hj
      · have := List.pairwise_iff_getElem.1 hd q p hlt' hlt h
        rw [hget, hget'] at this
        exact this hj hji

theorem set_map {f f' : ℕ → Particle K} {is : List ℕ} (hn : is.Nodup) {k i : ℕ} (hk : is[k]? = some i) (hf : ∀ j ∈ is, j ≠ i → f' j = f j) :
    is.map f' = (is.map f).set k (f' i) := by
  obtain ⟨hlt, hget⟩ := List.getElem?_eq_some_iff.1 hk
  refine List.ext_getElem? fun q => ?_
  rw [List.getElem?_set, List.length_map, List.getElem?_map, List.getElem?_map]
  split
  · rename_i e
    subst e
    rw [hk]
    rfl
  · rename_i e
    rcases hq : is[q]? with _ | j
    · rfl
    · simp only [Option.map_some, Option.some.injEq]
      refine hf j (List.mem_of_getElem? hq) fun hji => e ?_
      obtain ⟨hlt', hget'⟩ := List.getElem?_eq_some_iff.1 hq
      exact hn.getElem_inj_iff.1 ((hget.trans hji.symm).trans hget'.symm)

theorem set_addr {f f' : ℕ → Particle K} {pts : List (List ℕ)} (hn : pts.flatten.Nodup) {p k i : ℕ} (h : addr pts p k = some i)
    (hf : ∀ j ∈ pts.flatten, j ≠ i → f' j = f j) : (pts.map fun is => is.map f') = setAt (pts.map fun is => is.map f) p k (f' i) := by
  obtain ⟨is, h1, h2, h3, h4⟩ := addr_mem h
  rw [set_seen hn h1 fun j hj hji => hf j hj fun e => hji (e ▸ h4)]
  unfold setAt
  rw [List.getElem?_map, h1]
  simp only [Option.map_some, Option.getD_some]
  rw [set_map ((List.nodup_flatten.1 hn).1 is h3) h2 fun j hj hji => hf j (List.mem_flatten.2 ⟨is, h3, hj⟩) hji]

/-- A new point after the others. -/
theorem seen_append {w : Bool} {m : Mem K} {h' : Heap K} {js : List ℕ} (s : Sep w m) (g : Good w h' (m.pts.flatten ++ js)) (hv : ∀ i ∈ m.pts.flatten, h'.val i = m.heap.val i)
    (hn : js.Nodup) (hge : ∀ j ∈ js, m.heap.no ≤ j) : Sep w ⟨h', m.pts ++ [js]⟩ ∧ Mem.seen ⟨h', m.pts ++ [js]⟩ = m.seen ++ [js.map h'.val] := by
  refine ⟨⟨by simpa using g, ?_⟩, ?_⟩
  · simp only [List.flatten_append, List.flatten_cons, List.flatten_nil, List.append_nil]
    refine List.nodup_append'.2 ⟨s.nodup, hn, fun i hi hj => ?_⟩
    have := s.good.ids i hi
    have := hge i hj
    omega
  · unfold Mem.seen
    rw [List.map_append]
    congr 1
    exact List.map_congr_left fun is his => List.map_congr_left fun i hi => hv i (List.mem_flatten.2 ⟨is, his, hi⟩)

theorem mapM_map {α β γ : Type*} (f : α → Option β) (g : β → γ) (l : List α) : (l.mapM fun x => (f x).map g) = (l.mapM f).map (List.map g) := by
  induction l with
  | nil => rfl
  | cons x l ih =>
    simp only [List.mapM_cons, ih]
    rcases f x with _ | y <;> rcases l.mapM f with _ | ys <;> rfl

theorem mapM_length {α β : Type*} (f : α → Option β) (l : List α) (r : List β) (h : l.mapM f = some r) : ∀ y ∈ r, ∃ x ∈ l, f x = some y := by
  induction l generalizing r with
  | nil =>
    simp only [List.mapM_nil, Option.pure_def, Option.some.injEq] at h
    subst h
    simp
  | cons x l ih =>
    simp only [List.mapM_cons, Option.bind_eq_bind, Option.pure_def] at h
    rcases hx : f x with _ | y <;> rw [hx] at h
    · cases h
    rcases hl : l.mapM f with _ | ys <;> rw [hl] at h <;> simp only [Option.bind_some, Option.bind_none, reduceCtorEq, Option.some.injEq] at h
    subst h
    intro z hz
    rw [List.mem_cons] at hz
    rcases hz with rfl | hz
    · exact ⟨x, by simp, hx⟩
    · obtain ⟨x', h1, h2⟩ := ih ys hl z hz
      exact ⟨x', List.mem_cons_of_mem _ h1, h2⟩

/-! ### Clusters -/

theorem Good.leg (c : Ctx K) {h : Heap K} {live : List ℕ} (g : Good false h live) {l : List ℕ} (hl : ∀ i ∈ l, i ∈ live) :
    (legHeap c h l = none ∧ (match l.map h.val with | [] => none | q :: qs => pSumFrom c q qs) = none) ∨
    ∃ h' v, legHeap c h l = some h' ∧ Good false h' (live ++ [h.no]) ∧ h'.no = h.no + 1 ∧ (∀ i ∈ live, h'.val i = h.val i) ∧ h'.val h.no = v ∧
      (match l.map h.val with | [] => none | q :: qs => pSumFrom c q qs) = some v := by
  match l with
  | [] => exact .inl ⟨rfl, rfl⟩
  | [i] =>
    have hi := hl i (by simp)
    refine .inr ⟨_, h.val i, rfl, ⟨fun j hj => ?_, fun j hj a ha => ?_, (fun h => by cases h), fun h => by cases h⟩, rfl, fun j hj => ?_, ?_, rfl⟩
    · rw [List.mem_append, List.mem_singleton] at hj
      change j < h.no + 1
      rcases hj with hj | rfl
      · exact (g.ids j hj).trans (by omega)
      · omega
    · rw [List.mem_append, List.mem_singleton] at hj
      change a ∈ ((h.setObj h.no (h.obj i)).obj j).refs at ha
      rcases hj with hj | rfl
      · rw [setObj_ne _ _ (g.ids j hj).ne] at ha
        exact g.refs j hj a ha
      · rw [setObj_self] at ha
        exact g.refs i hi a ha
    · change ((h.setObj h.no (h.obj i)).obj j).val h.arr = _
      rw [setObj_ne _ _ (g.ids j hj).ne]
      rfl
    · change ((h.setObj h.no (h.obj i)).obj h.no).val h.arr = _
      rw [setObj_self]
      rfl
  | i :: j :: is =>
    rw [legHeap]
    simp only [List.map_cons]
    rcases pSumFrom c (h.val i) (h.val j :: is.map h.val) with _ | v
    · exact .inl ⟨rfl, rfl⟩
    · obtain ⟨g1, v1, e1, n1⟩ := g.new v
      exact .inr ⟨_, v, rfl, g1, n1, v1, e1, rfl⟩
    · simp

theorem Good.legs (c : Ctx K) (ls : List (List ℕ)) : ∀ (h : Heap K) (live : List ℕ), Good false h live → (∀ l ∈ ls, ∀ i ∈ l, i ∈ live) →
    (legsHeap c ls h = none ∧ (ls.mapM fun l => match l.map h.val with | [] => none | q :: qs => pSumFrom c q qs) = none) ∨
    ∃ h' js, legsHeap c ls h = some (h', js) ∧ Good false h' (live ++ js) ∧ (∀ i ∈ live, h'.val i = h.val i) ∧ js.Nodup ∧ (∀ j ∈ js, h.no ≤ j) ∧
      (ls.mapM fun l => match l.map h.val with | [] => none | q :: qs => pSumFrom c q qs) = some (js.map h'.val) := by
  induction ls with
  | nil => exact fun h live g _ => .inr ⟨h, [], rfl, by simpa using g, fun _ _ => rfl, List.nodup_nil, by simp, rfl⟩
  | cons l ls ih =>
    intro h live g hl
    rw [legsHeap, List.mapM_cons]
    rcases g.leg c (hl l (by simp)) with ⟨h1, h2⟩ | ⟨h', v, h1, g1, n1, v1, e1, h2⟩
    · rw [h1, h2]
      exact .inl ⟨rfl, by trivial⟩
    rw [h1, h2]
    have hl' : ∀ l ∈ ls, ∀ i ∈ l, i ∈ live ++ [h.no] := fun l' h' i hi => List.mem_append_left _ (hl l' (List.mem_cons_of_mem _ h') i hi)
    have same : (ls.mapM fun l => match l.map h.val with | [] => none | q :: qs => pSumFrom c q qs) =
        ls.mapM fun l => match l.map h'.val with | [] => none | q :: qs => pSumFrom c q qs := by
      clear ih
      have : ∀ l ∈ ls, l.map h.val = l.map h'.val := fun l' h' => List.map_congr_left fun i hi => (v1 i (hl l' (List.mem_cons_of_mem _ h') i hi)).symm
      clear hl hl'
      induction ls with
      | nil => rfl
      | cons l ls ih =>
        rw [List.mapM_cons, List.mapM_cons, this l (by simp), ih fun l hl => this l (List.mem_cons_of_mem _ hl)]
    rw [same]
    rcases ih h' (live ++ [h.no]) g1 hl' with ⟨h3, h4⟩ | ⟨h'', js, h3, g2, v2, d2, l2, h4⟩
    · simp only [h3, h4]
      exact .inl ⟨by trivial, rfl⟩
    · simp only [h3, h4]
      refine .inr ⟨h'', h.no :: js, rfl, by simpa using g2, fun i hi => (v2 i (by simp [hi])).trans (v1 i hi), ?_, ?_, ?_⟩
      · rw [List.nodup_cons]
        exact ⟨fun hm => by have := l2 _ hm; omega, d2⟩
      · intro i hi
        rw [List.mem_cons] at hi
        rcases hi with rfl | hi
        · exact le_refl _
        · have := l2 i hi
          omega
      · rw [List.map_cons, v2 h.no (by simp), e1]
        rfl

/-! ### C112 -/

/-- Commands that keep `Sep w`. -/
def Cmd.allowed (w : Bool) (x : Cmd K) : Prop := if w then x.plain else x.assigns

/-- C112, one command: memory without shared objects behaves as values do, and stays so; with shared arrays this needs that nothing is written into arrays. -/
theorem C112_step {w : Bool} (c : Ctx K) {m : Mem K} (s : Sep w m) (x : Cmd K) (hx : x.allowed w) :
    Sep w (stepHeap c m x).1 ∧ (stepHeap c m x).1.seen = (stepVal c m.seen x).1 ∧ (stepHeap c m x).2 = (stepVal c m.seen x).2 := by
  cases x with
  | new vs =>
    obtain ⟨g, v, e, d, l⟩ := Good.news vs m.heap _ s.good
    obtain ⟨h1, h2⟩ := seen_append s g v d l
    refine ⟨h1, h2.trans ?_, rfl⟩
    rw [e]
    rfl
  | act p k a =>
    have hb : a.inPlace = true → w = true := fun h => by
      cases w
      · simp only [Cmd.allowed, Cmd.assigns] at hx
        rw [hx] at h
        cases h
      · rfl
    simp only [stepHeap, stepVal]
    rw [addr_seen]
    rcases ha : addr m.pts p k with _ | i
    · exact ⟨s, rfl, rfl⟩
    simp only [Option.map_some]
    obtain ⟨is, h1, h2, h3, h4⟩ := addr_mem ha
    obtain ⟨g, v, e, e'⟩ := s.good.act c (List.mem_flatten.2 ⟨is, h3, h4⟩) a hb
    refine ⟨⟨g, s.nodup⟩, ?_, e'⟩
    rw [← e]
    exact set_addr s.nodup ha v
  | each p a =>
    have hb : ∀ j y, a j = some y → y.inPlace = true → w = true := fun j y hy h => by
      cases w
      · have := hx j y hy
        rw [this] at h
        cases h
      · rfl
    simp only [stepHeap, stepVal]
    rw [seen_point]
    rcases hp : m.pts[p]? with _ | is
    · exact ⟨s, rfl, rfl⟩
    simp only [Option.map_some]
    have his := List.mem_of_getElem? hp
    obtain ⟨g, -, v, e, e'⟩ := Good.each c hb m.pts.flatten is 0 m.heap s.good (fun i hi => List.mem_flatten.2 ⟨is, his, hi⟩) ((List.nodup_flatten.1 s.nodup).1 is his)
    refine ⟨⟨g, s.nodup⟩, ?_, e'⟩
    rw [← e]
    exact set_seen s.nodup hp v
  | image p r =>
    simp only [stepHeap, stepVal]
    rw [seen_point]
    rcases hp : m.pts[p]? with _ | is
    · exact ⟨s, rfl, rfl⟩
    simp only [Option.map_some]
    have his := List.mem_of_getElem? hp
    rcases s.good.image c (fun i hi => List.mem_flatten.2 ⟨is, his, hi⟩) ((List.nodup_flatten.1 s.nodup).1 is his) r with ⟨e, h1, h2⟩ | ⟨h', js, h1, g, v, d, l, h2⟩
    · rw [h1, h2]
      exact ⟨s, rfl, rfl⟩
    · rw [h1, h2]
      obtain ⟨k1, k2⟩ := seen_append s g v d l
      exact ⟨k1, k2, rfl⟩
  | share p k p' k' =>
    cases w
    · simp only [stepHeap, stepVal]
      rw [addr_seen, addr_seen]
      rcases ha : addr m.pts p k with _ | i
      · exact ⟨s, rfl, rfl⟩
      rcases hb : addr m.pts p' k' with _ | j
      · exact ⟨s, rfl, rfl⟩
      simp only [Option.map_some]
      obtain ⟨is, h1, h2, h3, h4⟩ := addr_mem ha
      obtain ⟨js, k1, k2, k3, k4⟩ := addr_mem hb
      have hi : i ∈ m.pts.flatten := List.mem_flatten.2 ⟨is, h3, h4⟩
      have hj : j ∈ m.pts.flatten := List.mem_flatten.2 ⟨js, k3, k4⟩
      rw [show (m.heap.val j).r_d = (m.heap.obj j).rd.map m.heap.arr from rfl]
      rcases hr : (m.heap.obj j).rd with _ | a
      · exact ⟨s, rfl, rfl⟩
      simp only [Option.map_some, shareHeap]
      have hself : ∀ b ∈ (Obj.refs ⟨(setRd c (m.heap.val i) (m.heap.arr a)).st, some a, (m.heap.obj i).ld⟩), b < m.heap.na := fun b hb => by
        simp only [Obj.refs, Option.toList_some, List.mem_append, List.mem_singleton, Option.mem_toList] at hb
        rcases hb with rfl | hb
        · exact s.good.refs j hj b (refs_rd hr)
        · exact s.good.refs i hi b (refs_ld hb)
      have v : ∀ t ∈ m.pts.flatten, t ≠ i → (m.heap.setObj i ⟨(setRd c (m.heap.val i) (m.heap.arr a)).st, some a, (m.heap.obj i).ld⟩).val t = m.heap.val t :=
        fun t _ hti => by unfold Heap.val; rw [setObj_ne _ _ hti]; rfl
      have e : (m.heap.setObj i ⟨(setRd c (m.heap.val i) (m.heap.arr a)).st, some a, (m.heap.obj i).ld⟩).val i = (setRd c (m.heap.val i) (m.heap.arr a)).st := by
        rw [Heap.val, setObj_self]
        refine val_mk ?_ ?_
        · rw [(setRd_spinors c _ _).1]; rfl
        · rw [(setRd_spinors c _ _).2]; rfl
      refine ⟨⟨⟨s.good.ids, fun t ht b hb => ?_, (fun h => by cases h), fun h => by cases h⟩, s.nodup⟩, ?_, trivial⟩
      · by_cases hti : t = i
        · subst hti
          rw [setObj_self] at hb
          exact hself b hb
        · rw [setObj_ne _ _ hti] at hb
          exact s.good.refs t ht b hb
      · have := set_addr s.nodup ha v
        rw [e] at this
        exact this
    · exact absurd hx (by simp [Cmd.allowed, Cmd.plain])
  | cluster p ls =>
    cases w
    · simp only [stepHeap, stepVal]
      rw [seen_point]
      rcases hp : m.pts[p]? with _ | is
      · exact ⟨s, rfl, rfl⟩
      simp only [Option.map_some]
      have his := List.mem_of_getElem? hp
      have em : ∀ l : List ℕ, (l.mapM fun k => (is.map m.heap.val)[k]?) = (l.mapM fun k => is[k]?).map (List.map m.heap.val) := fun l => by
        rw [← mapM_map]
        simp only [List.getElem?_map]
      have em2 : (ls.mapM fun l : List ℕ => l.mapM fun k => (is.map m.heap.val)[k]?) = (ls.mapM fun l : List ℕ => l.mapM fun k => is[k]?).map (List.map (List.map m.heap.val)) := by
        rw [← mapM_map]
        simp only [em]
      rw [em2]
      rcases hm : (ls.mapM fun l : List ℕ => l.mapM fun k => is[k]?) with _ | ls'
      · exact ⟨s, rfl, rfl⟩
      simp only [Option.map_some]
      have hl : ∀ l ∈ ls', ∀ i ∈ l, i ∈ m.pts.flatten := fun l hl i hi => by
        obtain ⟨l0, -, h0⟩ := mapM_length _ _ _ hm l hl
        obtain ⟨k, -, hk⟩ := mapM_length _ _ _ h0 i hi
        exact List.mem_flatten.2 ⟨is, his, List.mem_of_getElem? hk⟩
      have same : ls.mapM (legsVal c (is.map m.heap.val)) =
          ls'.mapM fun l => match l.map m.heap.val with | [] => none | q :: qs => pSumFrom c q qs := by
        clear hl hx em2
        induction ls generalizing ls' with
        | nil =>
          simp only [List.mapM_nil, Option.pure_def, Option.some.injEq] at hm
          subst hm
          rfl
        | cons l ls ih =>
          simp only [List.mapM_cons, Option.bind_eq_bind, Option.pure_def] at hm
          rcases h1 : (l.mapM fun k => is[k]?) with _ | l' <;> rw [h1] at hm
          · cases hm
          rcases h2 : (ls.mapM fun l => l.mapM fun k => is[k]?) with _ | ls'' <;> rw [h2] at hm <;>
            simp only [Option.bind_some, Option.bind_none, reduceCtorEq, Option.some.injEq] at hm
          subst hm
          simp only [List.mapM_cons]
          rw [ih ls'' h2, legsVal, em, h1]
          rcases l' with _ | ⟨i, l'⟩ <;> rfl
      rw [same]
      rcases Good.legs c ls' m.heap _ s.good hl with ⟨h1, h2⟩ | ⟨h', js, h1, g, v, d, l, h2⟩
      · rw [h1, h2]
        exact ⟨s, rfl, rfl⟩
      · rw [h1, h2]
        obtain ⟨k1, k2⟩ := seen_append s g v d l
        exact ⟨k1, k2, rfl⟩
    · exact absurd hx (by simp [Cmd.allowed, Cmd.plain])
  | pick l => cases w <;> exact absurd hx (by simp [Cmd.allowed, Cmd.plain, Cmd.assigns])

theorem history_any {w : Bool} (c : Ctx K) (prog : ℕ → List (List (Particle K)) → Cmd K) (hp : ∀ t vs, (prog t vs).allowed w) {m : Mem K} (s : Sep w m) (t : ℕ) :
    Sep w (runHeap c prog t m) ∧ (runHeap c prog t m).seen = runVal c prog t m.seen := by
  induction t with
  | zero => exact ⟨s, rfl⟩
  | succ t ih =>
    obtain ⟨h1, h2, -⟩ := C112_step c ih.1 (prog t (runHeap c prog t m).seen) (hp t _)
    refine ⟨h1, h2.trans ?_⟩
    rw [runVal, ih.2]

/-- No points yet. -/
theorem sep_empty (w : Bool) (h : Heap K) : Sep w (⟨h, []⟩ : Mem K) :=
  ⟨⟨by simp, by simp, by simp, by simp⟩, by simp⟩

/-- C112. The full claim is the same equation for every program; it is false, see `C112_slice_shared`, `C112_cluster_shared` and `C112_assigned_shared`.
Proved: a program that never slices, never clusters and never assigns the array of another particle cannot tell points from values, whatever else it does and
however long it runs. -/
theorem C112_history_partial (c : Ctx K) (h : Heap K) (prog : ℕ → List (List (Particle K)) → Cmd K) (hp : ∀ t vs, (prog t vs).plain) (t : ℕ) :
    (runHeap c prog t ⟨h, []⟩).seen = runVal c prog t [] :=
  (history_any (w := true) c prog hp (sep_empty true h) t).2

/-- C112: nor can a program that clusters and assigns arrays, but neither slices nor calls `make_analytical_d` or `subs`. -/
theorem C112_history_assigns_partial (c : Ctx K) (h : Heap K) (prog : ℕ → List (List (Particle K)) → Cmd K) (hp : ∀ t vs, (prog t vs).assigns) (t : ℕ) :
    (runHeap c prog t ⟨h, []⟩).seen = runVal c prog t [] :=
  (history_any (w := false) c prog hp (sep_empty false h) t).2

/-- The point that a command changes. -/
def Cmd.target : Cmd K → Option ℕ
  | .act p _ _ | .each p _ | .share p _ _ _ => some p
  | _ => none

theorem stepVal_other (c : Ctx K) (vs : List (List (Particle K))) (x : Cmd K) {q : ℕ} (hq : q < vs.length) (hx : x.target ≠ some q) :
    (stepVal c vs x).1[q]? = vs[q]? ∧ q < (stepVal c vs x).1.length := by
  have app : ∀ l, (vs ++ [l])[q]? = vs[q]? ∧ q < (vs ++ [l]).length := fun l => ⟨List.getElem?_append_left hq, by simp; omega⟩
  have sett : ∀ p l, p ≠ q → (vs.set p l)[q]? = vs[q]? ∧ q < (vs.set p l).length := fun p l h => ⟨List.getElem?_set_ne h, by simpa using hq⟩
  cases x with
  | new ps => exact app _
  | act p k a =>
    simp only [stepVal]
    split
    · exact ⟨rfl, hq⟩
    · exact sett _ _ fun e => hx (by rw [Cmd.target, e])
  | each p a =>
    simp only [stepVal]
    split
    · exact ⟨rfl, hq⟩
    · exact sett _ _ fun e => hx (by rw [Cmd.target, e])
  | image p r =>
    simp only [stepVal]
    split
    · exact ⟨rfl, hq⟩
    · split
      · exact ⟨rfl, hq⟩
      · exact app _
  | share p k p' k' =>
    simp only [stepVal]
    split
    · split
      · exact ⟨rfl, hq⟩
      · exact sett _ _ fun e => hx (by rw [Cmd.target, e])
    · exact ⟨rfl, hq⟩
  | cluster p ls =>
    simp only [stepVal]
    split
    · exact ⟨rfl, hq⟩
    · split
      · exact ⟨rfl, hq⟩
      · split
        · exact ⟨rfl, hq⟩
        · exact app _
  | pick l =>
    simp only [stepVal]
    split
    · exact ⟨rfl, hq⟩
    · exact app _

/-- C112: along such a history a point keeps its value while no command names it. -/
theorem C112_untouched {w : Bool} (c : Ctx K) (prog : ℕ → List (List (Particle K)) → Cmd K) (hp : ∀ t vs, (prog t vs).allowed w) {m : Mem K} (s : Sep w m) {q : ℕ}
    (hq : q < m.pts.length) (hn : ∀ t vs, (prog t vs).target ≠ some q) (t : ℕ) : (runHeap c prog t m).seen[q]? = m.seen[q]? := by
  rw [(history_any c prog hp s t).2]
  have : ∀ t, (runVal c prog t m.seen)[q]? = m.seen[q]? ∧ q < (runVal c prog t m.seen).length := fun t => by
    induction t with
    | zero => exact ⟨rfl, by simpa [runVal, Mem.seen] using hq⟩
    | succ t ih =>
      obtain ⟨h1, h2⟩ := stepVal_other c (runVal c prog t m.seen) (prog t (runVal c prog t m.seen)) ih.2 (hn t _)
      exact ⟨h1.trans ih.1, h2⟩
  exact (this t).1

/-- C112: a copy, or an image without exchange, has no object and no array in common with anything, whatever is shared in the memory it is made in. -/
theorem C112_copy (c : Ctx K) {m : Mem K} (g : Good false m.heap m.pts.flatten) {p : ℕ} {is : List ℕ} (hp : m.pts[p]? = some is) (r : List Char) {m' : Mem K}
    (h : stepHeap c m (.image p (r, false)) = (m', none)) :
    ∃ js, m'.pts = m.pts ++ [js] ∧ (∀ i ∈ m.pts.flatten, i ∉ js) ∧ (∀ i ∈ m.pts.flatten, ∀ j ∈ js, ∀ a ∈ (m'.heap.obj i).refs, a ∉ (m'.heap.obj j).refs) ∧
      (∀ i ∈ m.pts.flatten, m'.heap.val i = m.heap.val i) ∧
      (open Classical in imageStr (fun x y => decide (pEq x y)) (is.map m.heap.val) r) = .ok (js.map m'.heap.val) := by
  classical
  simp only [stepHeap, hp] at h
  unfold imageHeap at h
  rcases hi : imageStr (fun i j => decide (pEq (m.heap.val i) (m.heap.val j))) is r with e | js <;> simp only [hi] at h
  · simp at h
  simp only [Bool.false_eq_true, if_false, Prod.mk.injEq, and_true] at h
  subst h
  have hperm := (image_sorted _ _ _ _ hi).1
  have his : ∀ j ∈ js, j ∈ m.pts.flatten := fun j hj => List.mem_flatten.2 ⟨is, List.mem_of_getElem? hp, hperm.subset hj⟩
  refine ⟨_, rfl, fun i hi hj => ?_, fun i hi j hj a ha haj => ?_, fun i hi => copy_old (g.ids i hi) (g.refs i hi), ?_⟩
  · obtain ⟨k, -, rfl⟩ := List.mem_map.1 hj
    have := g.ids _ hi
    omega
  · obtain ⟨k, -, rfl⟩ := List.mem_map.1 hj
    simp only at ha haj
    rw [copy_low (g.ids i hi)] at ha
    rw [copy_refs] at haj
    obtain ⟨b, -, rfl⟩ := List.mem_map.1 haj
    have := g.refs i hi _ ha
    omega
  · have : (js.map (· + m.heap.no)).map m.heap.deepcopy.val = js.map m.heap.val := by
      rw [List.map_map]
      exact List.map_congr_left fun j _ => copy_val m.heap j
    simp only [this]
    rw [imageStr_map, hi]
    rfl

end Lips

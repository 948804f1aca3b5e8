import Verif.Model.MassOps
import Verif.Props.Masses

/-! Property C115: internal masses belong to their point. -/

namespace Lips

variable {V : Type*}

/-! ### Specification: a point is a map from names to values -/

/-- The containers as the caller made them, and for every point the values of its masses. -/
structure MSpec (V : Type*) where
  bags : List (List (List Char))
  pts : List (List Char → Option V)

/-- A new point. -/
def MSpec.push (s : MSpec V) (m : List Char → Option V) : MSpec V := ⟨s.bags ++ [[]], s.pts ++ [m]⟩

open Classical in
/-- What the commands should do: assignments and `subs` concern one point, `copy` and `image` give the same masses, `cluster` the masses with new values,
a slice none. -/
noncomputable def specMass (s : MSpec V) : MCmd V → MSpec V
  | .box _ names => ⟨s.bags ++ [names], s.pts⟩
  | .dict d => s.push (lastValue d)
  | .names b vals =>
    match s.bags[b]? with
    | none => s
    | some l => ⟨s.bags, s.pts ++ [fun k => if k ∈ l then some (vals k) else none]⟩
  | .assign p name v => ⟨s.bags, s.pts.modify p fun m => if MassForm name then Function.update m name (some v) else m⟩
  | .image p => match s.pts[p]? with
    | none => s
    | some m => s.push m
  | .slice p => match s.pts[p]? with
    | none => s
    | some _ => s.push fun _ => none
  | .cluster p f => match s.pts[p]? with
    | none => s
    | some m => s.push fun k => (m k).map f
  | .subs p g => ⟨s.bags, s.pts.modify p fun m k => (m k).bind fun v => (g v).toOption⟩

/-- A name that can be used for a mass. -/
def Usable (k : List Char) : Prop := MassForm k ∧ k ∉ readOnly

/-- Programs for which the claim holds (a set has no entry twice): names are usable, a container given by the caller is a set that no other point has, and `subs` finds no value that
it cannot treat. -/
def MCmd.clean (w : MWorld V) : MCmd V → Prop
  | .box _ _ | .image _ | .slice _ | .cluster _ _ => True
  | .dict d => ∀ kv ∈ d, Usable kv.1
  | .names b _ => (∀ q ∈ w.pts, q.box ≠ b) ∧ ∀ x, w.boxes[b]? = some x → x.1 = .set ∧ x.2.Nodup ∧ ∀ k ∈ x.2, Usable k
  | .assign _ name _ => name ∉ readOnly
  | .subs p g => ∀ st, w.get p = some st → ∀ k ∈ st.names, ∀ v, attrOf st k = some v → ∃ u, g v = .ok u

/-- Every command is clean when its turn comes. -/
def CleanRun (w : MWorld V) : List (MCmd V) → Prop
  | [] => True
  | x :: xs => x.clean w ∧ CleanRun (mStep w x).1 xs

/-- What `internal_masses_dict` says about a name. -/
def inDict (d : List (List Char × V)) (k : List Char) : Option V := (d.find? fun kv => kv.1 = k).map Prod.snd

/-! ### Proof -/

/-- A state with the masses `m`. -/
structure Describes (st : MassState V) (m : List Char → Option V) : Prop where
  set : st.kind = .set
  nodup : st.names.Nodup
  usable : ∀ k ∈ st.names, Usable k
  there : ∀ k ∈ st.names, m k = attrOf st k ∧ (attrOf st k).isSome = true
  absent : ∀ k, k ∉ st.names → m k = none

theorem massSet_nodup {st : MassState V} (h : st.names.Nodup) (name : List Char) (v : V) : (massSet st name v).1.names.Nodup := by
  have hs : (setAdd st.names name).Nodup := by
    unfold setAdd
    split
    · exact h
    · rename_i hn
      exact List.nodup_append.mpr ⟨h, by simp, by rintro a ha b hb rfl; simp at hb; exact hn (hb ▸ ha)⟩
  unfold massSet
  repeat' split
  all_goals first
    | exact hs
    | exact h

theorem massSets_nodup : ∀ (l : List (List Char × V)) {st : MassState V}, st.names.Nodup → (massSets st l).1.names.Nodup
  | [], _, h => h
  | kv :: l, st, h => by
    have hn := massSet_nodup h kv.1 kv.2
    rw [massSets]
    rcases hs : massSet st kv.1 kv.2 with ⟨st', _ | e⟩
    · rw [hs] at hn; exact massSets_nodup l hn
    · rw [hs] at hn; exact hn

theorem massDict_go (attrs : List (List Char × V)) : ∀ (l : List (List Char)),
    (∀ k ∈ l, ((attrs.find? fun kv => kv.1 = k).map Prod.snd).isSome = true) →
    ∃ d, (l.mapM fun k => (attrs.find? fun kv => kv.1 = k).map fun kv => (k, kv.2)) = some d ∧
      d.map Prod.fst = l ∧ ∀ kv ∈ d, (attrs.find? fun x => x.1 = kv.1).map Prod.snd = some kv.2
  | [], _ => ⟨[], rfl, rfl, by simp⟩
  | k :: ks, h => by
    obtain ⟨d, e, h1, h2⟩ := massDict_go attrs ks (fun x hx => h x (by simp [hx]))
    have hk := h k (by simp)
    rcases hf : attrs.find? fun kv => decide (kv.1 = k) with _ | kv
    · rw [hf] at hk; simp at hk
    · refine ⟨(k, kv.2) :: d, ?_, by simp [h1], ?_⟩
      · rw [List.mapM_cons, hf, e]; rfl
      · intro x hx
        rcases List.mem_cons.1 hx with rfl | hx
        · simp [hf]
        · exact h2 x hx

theorem inDict_of {d : List (List Char × V)} {m : List Char → Option V} (h : ∀ kv ∈ d, m kv.1 = some kv.2) (k : List Char) :
    inDict d k = if k ∈ d.map Prod.fst then m k else none := by
  unfold inDict
  rcases hf : d.find? fun kv => decide (kv.1 = k) with _ | kv
  · have hf' := hf
    rw [List.find?_eq_none] at hf
    rw [if_neg]
    · simp [hf']
    · intro hk
      obtain ⟨x, hx, rfl⟩ := List.mem_map.1 hk
      exact hf x hx (by simp)
  · have hm := List.mem_of_find?_eq_some hf
    have hk : kv.1 = k := by simpa using List.find?_some hf
    subst hk
    rw [if_pos (List.mem_map_of_mem hm), h kv hm]
    simp [hf]

theorem lastValue_of {d : List (List Char × V)} {m : List Char → Option V} (h : ∀ kv ∈ d, m kv.1 = some kv.2) (k : List Char) :
    lastValue d k = if k ∈ d.map Prod.fst then m k else none := by
  have := inDict_of (d := d.reverse) (m := m) (fun kv hkv => h kv (by simpa using hkv)) k
  rw [List.map_reverse] at this
  simp only [List.mem_reverse] at this
  exact this

/-- The dictionary of a state. -/
theorem Describes.dict {st : MassState V} {m : List Char → Option V} (h : Describes st m) :
    ∃ d, massDict st = some d ∧ d.map Prod.fst = st.names ∧ (∀ kv ∈ d, m kv.1 = some kv.2) ∧ ∀ k, inDict d k = m k := by
  obtain ⟨d, e, h1, h2⟩ := massDict_go st.attrs st.names (fun k hk => (h.there k hk).2)
  have h3 : ∀ kv ∈ d, m kv.1 = some kv.2 := by
    intro kv hkv
    rw [(h.there kv.1 (h1 ▸ List.mem_map_of_mem hkv)).1]
    exact h2 kv hkv
  refine ⟨d, e, h1, h3, fun k => ?_⟩
  rw [inDict_of h3, h1]
  by_cases hk : k ∈ st.names
  · rw [if_pos hk]
  · rw [if_neg hk, h.absent k hk]

theorem lastValue_isSome {d : List (List Char × V)} {k : List Char} : (lastValue d k).isSome = true ↔ k ∈ d.map Prod.fst := by
  unfold lastValue
  rw [Option.isSome_map, List.find?_isSome]
  simp only [List.mem_reverse, decide_eq_true_eq, List.mem_map]

/-- The constructor with a dictionary. -/
theorem massInit_dict {d : List (List Char × V)} (h : ∀ kv ∈ d, Usable kv.1) :
    ∃ st, massInit [] (.dict d) = (st, none) ∧ Describes st (lastValue d) := by
  obtain ⟨st, e, k1, -, n1, a1⟩ := massSets_spec d (fun kv hkv => (h kv hkv).2) ⟨.set, [], false, []⟩ rfl
  have hn : ∀ k, k ∈ st.names ↔ k ∈ d.map Prod.fst := by
    intro k
    rw [n1]
    simp only [List.not_mem_nil, false_or, and_iff_left_iff_imp]
    intro hk
    obtain ⟨kv, hkv, rfl⟩ := List.mem_map.1 hk
    exact (isMassName_iff _).mpr (h kv hkv).1
  have ha : ∀ k, attrOf st k = lastValue d k := by
    intro k
    rw [a1]
    simp [attrOf]
  refine ⟨st, e, k1, by have := massSets_nodup d (st := ⟨.set, [], false, []⟩) (by simp); rw [e] at this; exact this, fun k hk => ?_, fun k hk => ?_,
    fun k hk => ?_⟩
  · obtain ⟨kv, hkv, rfl⟩ := List.mem_map.1 ((hn k).mp hk)
    exact h kv hkv
  · rw [ha]
    exact ⟨rfl, lastValue_isSome.mpr ((hn k).mp hk)⟩
  · rcases e : lastValue d k with _ | v
    · rfl
    · exact absurd ((hn k).mpr (lastValue_isSome.mp (by rw [e]; rfl))) hk

/-- The constructor with a set of names. -/
theorem massInit_names {l : List (List Char)} (hl : l.Nodup) (h : ∀ k ∈ l, Usable k) (vals : List Char → V) :
    ∃ st, massInit [] (.names .set (l.map fun k => (k, vals k))) = (st, none) ∧ Describes st fun k => if k ∈ l then some (vals k) else none := by
  have hm : (l.map fun k => (k, vals k)).map Prod.fst = l := by simp [Function.comp_def]
  obtain ⟨st, e, k1, -, n1, a1⟩ := massSets_spec (l.map fun k => (k, vals k)) (by
    intro kv hkv
    obtain ⟨k, hk, rfl⟩ := List.mem_map.1 hkv
    exact (h k hk).2) ⟨.set, (l.map fun k => (k, vals k)).map Prod.fst, true, []⟩ rfl
  have hn : ∀ k, k ∈ st.names ↔ k ∈ l := by
    intro k
    rw [n1]
    simp only [hm]
    exact ⟨fun hk => hk.elim id And.left, Or.inl⟩
  have ha : ∀ k, attrOf st k = if k ∈ l then some (vals k) else none := by
    intro k
    rw [a1, lastValue_of (m := fun k => some (vals k)) (by
      intro kv hkv
      obtain ⟨k, hk, rfl⟩ := List.mem_map.1 hkv
      rfl), hm]
    by_cases hk : k ∈ l <;> simp [hk, attrOf]
  refine ⟨st, e, k1, ?_, fun k hk => h k ((hn k).mp hk), fun k hk => ?_, fun k hk => if_neg fun hk' => hk ((hn k).mpr hk')⟩
  · have := massSets_nodup (l.map fun k => (k, vals k)) (st := ⟨.set, (l.map fun k => (k, vals k)).map Prod.fst, true, []⟩) (by simpa only [hm] using hl)
    rw [e] at this
    exact this
  rw [ha, if_pos ((hn k).mp hk)]
  exact ⟨rfl, rfl⟩

open Classical in
/-- One assignment. -/
theorem Describes.assign {st : MassState V} {m : List Char → Option V} (h : Describes st m) {name : List Char} (hr : name ∉ readOnly) (v : V) :
    ∃ st', massSet st name v = (st', none) ∧ Describes st' (if MassForm name then Function.update m name (some v) else m) := by
  obtain ⟨st', e, k1, -, n1, a1⟩ := massSet_spec st h.set name hr v
  rw [isMassName_iff] at n1
  refine ⟨st', e, k1, by have := massSet_nodup h.nodup name v; rw [e] at this; exact this, fun k hk => ?_, fun k hk => ?_, fun k hk => ?_⟩
  · rcases (n1 k).mp hk with hk | ⟨rfl, hk⟩
    · exact h.usable k hk
    · exact ⟨hk, hr⟩
  · rw [a1]
    by_cases hkn : k = name
    · subst hkn
      rw [if_pos rfl]
      rcases (n1 k).mp hk with hk | ⟨-, hk⟩
      · rw [if_pos (h.usable k hk).1]; simp
      · rw [if_pos hk]; simp
    · rw [if_neg hkn]
      have hk' := ((n1 k).mp hk).resolve_right (fun x => hkn x.1)
      refine ⟨?_, (h.there k hk').2⟩
      split
      · rw [Function.update_of_ne hkn]; exact (h.there k hk').1
      · exact (h.there k hk').1
  · have hk' : k ∉ st.names := fun x => hk ((n1 k).mpr (.inl x))
    split
    · rename_i hf
      have hkn : k ≠ name := fun x => hk ((n1 k).mpr (.inr ⟨x, hf⟩))
      rw [Function.update_of_ne hkn]
      exact h.absent k hk'
    · exact h.absent k hk'

theorem find_eq_of_attr {st : MassState V} {k : List Char} {v : V} (h : attrOf st k = some v) :
    ∃ kv, (st.attrs.find? fun kv => decide (kv.1 = k)) = some kv ∧ kv.2 = v := by
  unfold attrOf at h
  rcases hf : st.attrs.find? fun kv => decide (kv.1 = k) with _ | kv
  · rw [hf] at h; simp at h
  · rw [hf] at h
    exact ⟨kv, hf, by simpa using h⟩

/-- The loop of `subs`: names that were done, and names still to be done. -/
theorem Describes.subs {g : V → Except Err V} {m : List Char → Option V} : ∀ (l : List (List Char)) (st : MassState V) (f : List Char → Option V),
    l.Nodup → Describes st f → (∀ k ∈ l, k ∈ st.names ∧ f k = m k) → (∀ k ∈ l, ∀ v, m k = some v → ∃ u, g v = .ok u) →
    ∃ st', massSubs g l st = (st', none) ∧ Describes st' (fun k => if k ∈ l then (m k).bind fun v => (g v).toOption else f k) ∧
      ∀ k, k ∈ st'.names ↔ k ∈ st.names
  | [], st, f, _, h, _, _ => ⟨st, rfl, by simpa using h, fun _ => Iff.rfl⟩
  | k :: ks, st, f, hn, h, hl, hg => by
    obtain ⟨hk, hfk⟩ := hl k (by simp)
    obtain ⟨e1, e2⟩ := h.there k hk
    rw [hfk] at e1
    obtain ⟨v, hv⟩ := Option.isSome_iff_exists.mp e2
    rw [hv] at e1
    obtain ⟨u, hu⟩ := hg k (by simp) v e1
    obtain ⟨kv, hf, hkv⟩ := find_eq_of_attr hv
    obtain ⟨st1, es, h1⟩ := h.assign (h.usable k hk).2 u
    rw [if_pos (h.usable k hk).1] at h1
    have hN : ∀ x, x ∈ st1.names ↔ x ∈ st.names := by
      intro x
      obtain ⟨st2, es2, -, -, n2, -⟩ := massSet_spec st h.set k (h.usable k hk).2 u
      rw [es] at es2
      injection es2 with es2
      rw [es2, n2]
      exact ⟨fun y => y.elim id (fun z => z.1 ▸ hk), .inl⟩
    have hn' := List.nodup_cons.mp hn
    obtain ⟨st', er, hd, hN'⟩ := Describes.subs ks st1 _ hn'.2 h1 (fun x hx => ⟨(hN x).mpr (hl x (by simp [hx])).1, by
        rw [Function.update_of_ne (by rintro rfl; exact hn'.1 hx)]; exact (hl x (by simp [hx])).2⟩) (fun x hx => hg x (by simp [hx]))
    refine ⟨st', ?_, ?_, fun x => (hN' x).trans (hN x)⟩
    · simp only [massSubs, hf, hkv, hu, es]
      exact er
    · convert hd using 1
      funext x
      by_cases hx : x = k
      · subst hx
        simp [hn'.1, e1, hu, Except.toOption]
      · simp only [List.mem_cons, hx, false_or, Function.update_of_ne hx]

/-- The objects in memory and the specification agree. -/
structure MInv (w : MWorld V) (s : MSpec V) : Prop where
  nb : w.boxes.length = s.bags.length
  np : w.pts.length = s.pts.length
  own : ∀ (p p' : ℕ) (q q' : MPoint V), w.pts[p]? = some q → w.pts[p']? = some q' → q.box = q'.box → p = p'
  unused : ∀ (b : ℕ) (x : Kind × List (List Char)), w.boxes[b]? = some x → (∀ q ∈ w.pts, q.box ≠ b) → s.bags[b]? = some x.2
  pt : ∀ (p : ℕ) (q : MPoint V), w.pts[p]? = some q → ∃ st m, w.get p = some st ∧ s.pts[p]? = some m ∧ Describes st m

theorem MInv.empty : MInv (⟨[], []⟩ : MWorld V) ⟨[], []⟩ := ⟨rfl, rfl, by simp, by simp, by simp⟩

theorem get_some {w : MWorld V} {p : ℕ} {st : MassState V} (h : w.get p = some st) :
    ∃ q b, w.pts[p]? = some q ∧ w.boxes[q.box]? = some b ∧ st = ⟨b.1, b.2, false, q.attrs⟩ := by
  unfold MWorld.get at h
  rcases hq : w.pts[p]? with _ | q
  · rw [hq] at h; simp at h
  · rw [hq] at h
    simp only [Option.bind_some, Option.map_eq_some_iff] at h
    obtain ⟨b, hb, rfl⟩ := h
    exact ⟨q, b, rfl, hb, rfl⟩

theorem Describes.unshared {st : MassState V} {m : List Char → Option V} (h : Describes st m) (b : Bool) :
    Describes ⟨st.kind, st.names, b, st.attrs⟩ m := ⟨h.set, h.nodup, h.usable, h.there, h.absent⟩

/-- A new point. -/
theorem MInv.add {w : MWorld V} {s : MSpec V} (h : MInv w s) {st : MassState V} {m : List Char → Option V} (hd : Describes st m) :
    MInv (w.add st) (s.push m) := by
  have hlt : ∀ (p : ℕ) (q : MPoint V), w.pts[p]? = some q → q.box < w.boxes.length := by
    intro p q hq
    obtain ⟨st', m', hg, -⟩ := h.pt p q hq
    obtain ⟨q', b, hq', hb, -⟩ := get_some hg
    rw [hq] at hq'
    injection hq' with hq'
    subst hq'
    exact (List.getElem?_eq_some_iff.mp hb).1
  have old : ∀ (p : ℕ) (q : MPoint V), w.pts[p]? = some q → (w.add st).pts[p]? = some q := by
    intro p q hq
    have := (List.getElem?_eq_some_iff.mp hq).1
    simp only [MWorld.add]
    rw [List.getElem?_append_left this]; exact hq
  have cases : ∀ (p : ℕ) (q : MPoint V), (w.add st).pts[p]? = some q → w.pts[p]? = some q ∨ (p = w.pts.length ∧ q = ⟨w.boxes.length, st.attrs⟩) := by
    intro p q hq
    simp only [MWorld.add] at hq
    by_cases hp : p < w.pts.length
    · rw [List.getElem?_append_left hp] at hq; exact .inl hq
    · rw [List.getElem?_append_right (by omega)] at hq
      have := (List.getElem?_eq_some_iff.mp hq).1
      simp only [List.length_singleton] at this
      have hp' : p = w.pts.length := by omega
      subst hp'
      simp at hq
      exact .inr ⟨rfl, hq.symm⟩
  refine ⟨by simp [MWorld.add, MSpec.push, h.nb], by simp [MWorld.add, MSpec.push, h.np], ?_, ?_, ?_⟩
  · intro p p' q q' hq hq' hb
    rcases cases p q hq with hq | ⟨rfl, rfl⟩ <;> rcases cases p' q' hq' with hq' | ⟨rfl, rfl⟩
    · exact h.own p p' q q' hq hq' hb
    · have := hlt p q hq; simp only at hb; omega
    · have := hlt p' q' hq'; simp only at hb; omega
    · rfl
  · intro b x hb hu
    simp only [MWorld.add, MSpec.push] at hb hu ⊢
    by_cases hlb : b < w.boxes.length
    · rw [List.getElem?_append_left hlb] at hb
      rw [List.getElem?_append_left (h.nb ▸ hlb)]
      exact h.unused b x hb fun q hq => hu q (by simp [hq])
    · have hl := (List.getElem?_eq_some_iff.mp hb).1
      simp only [List.length_append, List.length_singleton] at hl
      exact absurd (by omega : w.boxes.length = b) (hu ⟨w.boxes.length, st.attrs⟩ (by simp))
  · intro p q hq
    rcases cases p q hq with hq | ⟨rfl, rfl⟩
    · obtain ⟨st', m', hg, hm, hd'⟩ := h.pt p q hq
      obtain ⟨q', b, hq', hb, e⟩ := get_some hg
      refine ⟨st', m', ?_, ?_, hd'⟩
      · unfold MWorld.get
        rw [old p q' hq', Option.bind_some]
        have : (w.add st).boxes[q'.box]? = some b := by
          simp only [MWorld.add]
          rw [List.getElem?_append_left (hlt p q' hq')]; exact hb
        rw [this, e]; rfl
      · have := (List.getElem?_eq_some_iff.mp hm).1
        simp only [MSpec.push]
        rw [List.getElem?_append_left this]; exact hm
    · refine ⟨⟨st.kind, st.names, false, st.attrs⟩, m, ?_, ?_, hd.unshared false⟩
      · simp [MWorld.get, MWorld.add]
      · simp [MSpec.push, h.np]

/-- A change of one point. -/
theorem MInv.put {w : MWorld V} {s : MSpec V} (h : MInv w s) {p : ℕ} {st : MassState V} {f : (List Char → Option V) → (List Char → Option V)}
    {q : MPoint V} (hq : w.pts[p]? = some q) {m : List Char → Option V} (hm : s.pts[p]? = some m) (hd : Describes st (f m)) :
    MInv (w.put p st) ⟨s.bags, s.pts.modify p f⟩ := by
  have hp : p < w.pts.length := (List.getElem?_eq_some_iff.mp hq).1
  have eput : w.put p st = ⟨w.boxes.set q.box (st.kind, st.names), w.pts.set p ⟨q.box, st.attrs⟩⟩ := by
    unfold MWorld.put; rw [hq]
  have hqb : q.box < w.boxes.length := by
    obtain ⟨st', m', hg, -⟩ := h.pt p q hq
    obtain ⟨q', b, hq', hb, -⟩ := get_some hg
    rw [hq] at hq'
    injection hq' with hq'
    subst hq'
    exact (List.getElem?_eq_some_iff.mp hb).1
  have box : ∀ (p' : ℕ) (q' : MPoint V), (w.pts.set p ⟨q.box, st.attrs⟩)[p']? = some q' → ∃ q₀, w.pts[p']? = some q₀ ∧ q₀.box = q'.box := by
    intro p' q' hq'
    by_cases hpp : p = p'
    · subst hpp
      rw [List.getElem?_set_self hp] at hq'
      injection hq' with hq'
      exact ⟨q, hq, by rw [← hq']⟩
    · rw [List.getElem?_set_ne hpp] at hq'
      exact ⟨q', hq', rfl⟩
  rw [eput]
  refine ⟨by simp [h.nb], by simp [h.np], ?_, ?_, ?_⟩
  · intro p₁ p₂ q₁ q₂ h₁ h₂ hb
    obtain ⟨r₁, e₁, b₁⟩ := box p₁ q₁ h₁
    obtain ⟨r₂, e₂, b₂⟩ := box p₂ q₂ h₂
    exact h.own p₁ p₂ r₁ r₂ e₁ e₂ (by rw [b₁, b₂, hb])
  · intro b x hb hu
    have hqb' : q.box ≠ b := hu ⟨q.box, st.attrs⟩ (List.mem_iff_getElem?.mpr ⟨p, List.getElem?_set_self hp⟩)
    simp only at hb
    rw [List.getElem?_set_ne hqb'] at hb
    refine h.unused b x hb fun q' hq' => ?_
    obtain ⟨p', hp'⟩ := List.mem_iff_getElem?.mp hq'
    by_cases hpp : p = p'
    · subst hpp
      rw [hq] at hp'
      injection hp' with hp'
      rw [← hp']; exact hqb'
    · exact hu q' (List.mem_iff_getElem?.mpr ⟨p', by rw [List.getElem?_set_ne hpp]; exact hp'⟩)
  · intro p' q' hq'
    by_cases hpp : p = p'
    · subst hpp
      refine ⟨⟨st.kind, st.names, false, st.attrs⟩, f m, ?_, ?_, hd.unshared false⟩
      · simp only [MWorld.get, List.getElem?_set_self hp, Option.bind_some, List.getElem?_set_self hqb, Option.map_some]
      · simp [hm]
    · simp only at hq'
      rw [List.getElem?_set_ne hpp] at hq'
      obtain ⟨st', m', hg, hm', hd'⟩ := h.pt p' q' hq'
      obtain ⟨q₀, b, hq₀, hb, e⟩ := get_some hg
      have hne : q.box ≠ q₀.box := fun hb' => hpp (h.own p p' q q₀ hq hq₀ hb')
      refine ⟨st', m', ?_, ?_, hd'⟩
      · simp only [MWorld.get, List.getElem?_set_ne hpp, hq₀, Option.bind_some, List.getElem?_set_ne hne, hb, Option.map_some, e]
      · simp [hm', hpp]

theorem MInv.none {w : MWorld V} {s : MSpec V} (h : MInv w s) {p : ℕ} (hg : w.get p = none) : w.pts[p]? = none ∧ s.pts[p]? = none := by
  rcases hq : w.pts[p]? with _ | q
  · refine ⟨rfl, ?_⟩
    rw [List.getElem?_eq_none_iff] at hq ⊢
    rw [← h.np]; exact hq
  · obtain ⟨st, m, hg', -⟩ := h.pt p q hq
    rw [hg] at hg'; cases hg'

theorem MInv.some {w : MWorld V} {s : MSpec V} (h : MInv w s) {p : ℕ} {st : MassState V} (hg : w.get p = some st) :
    ∃ q m, w.pts[p]? = some q ∧ s.pts[p]? = some m ∧ Describes st m := by
  obtain ⟨q, b, hq, -⟩ := get_some hg
  obtain ⟨st', m, hg', hm, hd⟩ := h.pt p q hq
  rw [hg] at hg'
  injection hg' with hg'
  subst hg'
  exact ⟨q, m, hq, hm, hd⟩

theorem modify_none {β : Type*} {l : List β} {p : ℕ} (h : l[p]? = none) (f : β → β) : l.modify p f = l := by
  refine List.ext_getElem? fun k => ?_
  rw [List.getElem?_modify]
  split
  · rename_i e; subst e; rw [h]; rfl
  · simp

/-- **C115**, one command: it raises no exception unless there is no such point or container, and afterwards memory and specification agree again. -/
theorem C115_step {w : MWorld V} {s : MSpec V} (h : MInv w s) (x : MCmd V) (hx : x.clean w) :
    MInv (mStep w x).1 (specMass s x) ∧ ((mStep w x).2 = none ∨ (mStep w x).2 = some .indexError) := by
  cases x with
  | box kind names =>
    refine ⟨⟨by simp [mStep, specMass, h.nb], h.np, h.own, ?_, ?_⟩, .inl rfl⟩
    · intro b x hb hu
      simp only [mStep, specMass] at hb hu ⊢
      by_cases hlb : b < w.boxes.length
      · rw [List.getElem?_append_left hlb] at hb
        rw [List.getElem?_append_left (h.nb ▸ hlb)]
        exact h.unused b x hb hu
      · have hl := (List.getElem?_eq_some_iff.mp hb).1
        simp only [List.length_append, List.length_singleton] at hl
        have e : b = w.boxes.length := by omega
        subst e
        rw [List.getElem?_append_right (by omega)] at hb
        rw [List.getElem?_append_right (by rw [h.nb])]
        simp only [Nat.sub_self, List.getElem?_cons_zero, Option.some.injEq] at hb
        simp [h.nb, ← hb]
    · intro p q hq
      obtain ⟨st, m, hg, hm, hd⟩ := h.pt p q hq
      obtain ⟨q', b, hq', hb, e⟩ := get_some hg
      refine ⟨st, m, ?_, hm, hd⟩
      simp only [MWorld.get, mStep, hq', Option.bind_some]
      rw [List.getElem?_append_left (List.getElem?_eq_some_iff.mp hb).1, hb, e]
      rfl
  | dict d =>
    obtain ⟨st, e, hd⟩ := massInit_dict hx
    simp only [mStep, e, specMass]
    exact ⟨h.add hd, .inl trivial⟩
  | names b vals =>
    obtain ⟨hu, hb⟩ := hx
    rcases hbx : w.boxes[b]? with _ | ⟨kind, l⟩
    · have hbs : s.bags[b]? = none := by
        rw [List.getElem?_eq_none_iff] at hbx ⊢
        rw [← h.nb]; exact hbx
      simp only [mStep, hbx, specMass, hbs]
      exact ⟨h, .inr trivial⟩
    · obtain ⟨hk, hn, hus⟩ := hb _ hbx
      simp only at hk hn hus
      subst hk
      have hbs := h.unused b _ hbx hu
      obtain ⟨st, e, hd⟩ := massInit_names hn hus vals
      have hbl := (List.getElem?_eq_some_iff.mp hbx).1
      have cases : ∀ (p : ℕ) (q : MPoint V), (w.pts ++ [⟨b, st.attrs⟩])[p]? = some q → w.pts[p]? = some q ∨ (p = w.pts.length ∧ q = ⟨b, st.attrs⟩) := by
        intro p q hq
        by_cases hp : p < w.pts.length
        · rw [List.getElem?_append_left hp] at hq; exact .inl hq
        · rw [List.getElem?_append_right (by omega)] at hq
          have := (List.getElem?_eq_some_iff.mp hq).1
          simp only [List.length_singleton] at this
          have hp' : p = w.pts.length := by omega
          subst hp'
          simp at hq
          exact .inr ⟨rfl, hq.symm⟩
      simp only [mStep, hbx, e, specMass, hbs]
      refine ⟨⟨by simp [h.nb], by simp [h.np], ?_, ?_, ?_⟩, .inl trivial⟩
      · intro p p' q q' hq hq' hbb
        rcases cases p q hq with hq | ⟨rfl, rfl⟩ <;> rcases cases p' q' hq' with hq' | ⟨rfl, rfl⟩
        · exact h.own p p' q q' hq hq' hbb
        · exact absurd hbb (hu q (List.mem_of_getElem? hq))
        · exact absurd hbb.symm (hu q' (List.mem_of_getElem? hq'))
        · rfl
      · intro b' x hb' hu'
        have hne : b ≠ b' := hu' ⟨b, st.attrs⟩ (by simp)
        simp only at hb'
        rw [List.getElem?_set_ne hne] at hb'
        exact h.unused b' x hb' fun q hq => hu' q (by simp [hq])
      · intro p q hq
        rcases cases p q hq with hq | ⟨rfl, rfl⟩
        · obtain ⟨st', m', hg, hm, hd'⟩ := h.pt p q hq
          obtain ⟨q', b', hq', hb', e'⟩ := get_some hg
          refine ⟨st', m', ?_, ?_, hd'⟩
          · simp only [MWorld.get]
            rw [List.getElem?_append_left (List.getElem?_eq_some_iff.mp hq').1, hq', Option.bind_some,
              List.getElem?_set_ne (fun x => hu q' (List.mem_of_getElem? hq') x.symm), hb', e']
            rfl
          · rw [List.getElem?_append_left (List.getElem?_eq_some_iff.mp hm).1]; exact hm
        · refine ⟨⟨st.kind, st.names, false, st.attrs⟩, _, ?_, ?_, hd.unshared false⟩
          · simp [MWorld.get, List.getElem?_set_self hbl]
          · simp only [h.np, List.getElem?_concat_length]
  | assign p name v =>
    rcases hg : w.get p with _ | st
    · obtain ⟨-, hm⟩ := h.none hg
      simp only [mStep, hg, specMass, modify_none hm]
      exact ⟨h, .inr trivial⟩
    · obtain ⟨q, m, hq, hm, hd⟩ := h.some hg
      obtain ⟨st', e, hd'⟩ := hd.assign hx v
      simp only [mStep, hg, specMass, e]
      exact ⟨h.put hq hm hd', .inl trivial⟩
  | image p =>
    rcases hg : w.get p with _ | st
    · obtain ⟨-, hm⟩ := h.none hg
      simp only [mStep, hg, specMass, hm]
      exact ⟨h, .inr trivial⟩
    · obtain ⟨q, m, hq, hm, hd⟩ := h.some hg
      obtain ⟨d, e, hd1, hd2, -⟩ := hd.dict
      obtain ⟨st', e', -⟩ := massInit_dict (d := d) (fun kv hkv => hd.usable _ (hd1 ▸ List.mem_map_of_mem hkv))
      simp only [mStep, hg, e, e', specMass, hm]
      exact ⟨h.add hd, .inl trivial⟩
  | slice p =>
    rcases hg : w.get p with _ | st
    · obtain ⟨-, hm⟩ := h.none hg
      simp only [mStep, hg, specMass, hm]
      exact ⟨h, .inr trivial⟩
    · obtain ⟨q, m, hq, hm, -⟩ := h.some hg
      simp only [mStep, hg, specMass, hm]
      exact ⟨h.add ⟨rfl, by simp, by simp, by simp, by simp⟩, .inl trivial⟩
  | cluster p f =>
    rcases hg : w.get p with _ | st
    · obtain ⟨-, hm⟩ := h.none hg
      simp only [mStep, hg, specMass, hm]
      exact ⟨h, .inr trivial⟩
    · obtain ⟨q, m, hq, hm, hd⟩ := h.some hg
      obtain ⟨d, e, hd1, hd2, -⟩ := hd.dict
      have hk : (d.map fun kv => (kv.1, f kv.2)).map Prod.fst = st.names := by rw [← hd1]; simp [Function.comp_def]
      obtain ⟨st', e', hd'⟩ := massInit_dict (d := d.map fun kv => (kv.1, f kv.2))
        (fun kv hkv => hd.usable _ (hk ▸ List.mem_map_of_mem hkv))
      have el : lastValue (d.map fun kv => (kv.1, f kv.2)) = fun k => (m k).map f := by
        funext k
        rw [lastValue_of (m := fun k => (m k).map f) (by
          intro kv hkv
          obtain ⟨x, hx, rfl⟩ := List.mem_map.1 hkv
          simp [hd2 x hx]), hk]
        by_cases hkn : k ∈ st.names
        · rw [if_pos hkn]
        · rw [if_neg hkn, hd.absent k hkn]; rfl
      rw [el] at hd'
      simp only [mStep, hg, e, e', specMass, hm]
      exact ⟨h.add hd', .inl trivial⟩
  | subs p g =>
    rcases hg : w.get p with _ | st
    · obtain ⟨-, hm⟩ := h.none hg
      simp only [mStep, hg, specMass, modify_none hm]
      exact ⟨h, .inr trivial⟩
    · obtain ⟨q, m, hq, hm, hd⟩ := h.some hg
      obtain ⟨st', e, hd', -⟩ := Describes.subs (g := g) (m := m) st.names st m hd.nodup hd (fun k hk => ⟨hk, rfl⟩) (fun k hk v hv => by
        refine hx st hg k hk v ?_
        rw [← (hd.there k hk).1]; exact hv)
      have el : (fun k => if k ∈ st.names then (m k).bind fun v => (g v).toOption else m k) = fun k => (m k).bind fun v => (g v).toOption := by
        funext k
        by_cases hkn : k ∈ st.names
        · rw [if_pos hkn]
        · rw [if_neg hkn, hd.absent k hkn]; rfl
      rw [el] at hd'
      simp only [mStep, hg, specMass, e]
      exact ⟨h.put hq hm hd', .inl trivial⟩

theorem run_inv : ∀ (xs : List (MCmd V)) {w : MWorld V} {s : MSpec V}, MInv w s → CleanRun w xs → MInv (mRun w xs) (xs.foldl specMass s)
  | [], _, _, h, _ => h
  | x :: xs, _, _, h, hc => run_inv xs (C115_step h x hc.1).1 hc.2

/-- **C115**, for all clean programs: at every time there are as many points as in the specification, and `internal_masses_dict` of every point is what
the specification says. -/
theorem C115_history_partial (xs : List (MCmd V)) (hc : CleanRun ⟨[], []⟩ xs) :
    (mRun ⟨[], []⟩ xs).pts.length = (xs.foldl specMass ⟨[], []⟩).pts.length ∧
    ∀ p m, (xs.foldl specMass ⟨[], []⟩).pts[p]? = some m →
      ∃ st d, (mRun ⟨[], []⟩ xs).get p = some st ∧ massDict st = some d ∧ ∀ k, inDict d k = m k := by
  have h := run_inv xs MInv.empty hc
  refine ⟨h.np, fun p m hm => ?_⟩
  have hp : p < (mRun ⟨[], []⟩ xs).pts.length := by rw [h.np]; exact (List.getElem?_eq_some_iff.mp hm).1
  obtain ⟨st, m', hg, hm', hd⟩ := h.pt p _ (List.getElem?_eq_getElem hp)
  rw [hm] at hm'
  injection hm' with hm'
  subst hm'
  obtain ⟨d, e, -, -, h'⟩ := hd.dict
  exact ⟨st, d, hg, e, h'⟩

/-! ### What goes wrong -/

/-- **C115** (finding): two points made with the same set. A mass given to the first is registered for the second, which does not have it: its
`internal_masses_dict`, `image`, `copy` and `cluster` raise AttributeError. -/
theorem C115_shared_set {l : List (List Char)} (hn : l.Nodup) (hl : ∀ k ∈ l, Usable k) (vals vals' : List Char → V) {k : List Char} (hk : Usable k)
    (hkl : k ∉ l) (v : V) (f : V → V) :
    ∃ st, (mRun ⟨[], []⟩ [.box .set l, .names 0 vals, .names 0 vals', .assign 0 k v]).get 1 = some st ∧ massDict st = none ∧
      (mStep (mRun ⟨[], []⟩ [.box .set l, .names 0 vals, .names 0 vals', .assign 0 k v]) (.image 1)).2 = some .attributeError ∧
      (mStep (mRun ⟨[], []⟩ [.box .set l, .names 0 vals, .names 0 vals', .assign 0 k v]) (.cluster 1 f)).2 = some .attributeError := by
  obtain ⟨st1, e1, d1⟩ := massInit_names hn hl vals
  have n1 : st1.names = l := by
    have : ∀ (l' : List (List Char × V)) (st : MassState V), (∀ kv ∈ l', kv.1 ∈ st.names) → (massSets st l').1.names = st.names := by
      intro l'
      induction l' with
      | nil => intro st _; rfl
      | cons kv l' ih =>
        intro st h
        have hs : (massSet st kv.1 kv.2).1.names = st.names := by
          have : setAdd st.names kv.1 = st.names := if_pos (h kv (by simp))
          unfold massSet
          repeat' split
          all_goals simp [this]
        rw [massSets]
        rcases hm : massSet st kv.1 kv.2 with ⟨st', _ | e⟩
        · rw [hm] at hs
          simp only at hs ⊢
          rw [ih st' (fun x hx => by rw [hs]; exact h x (by simp [hx])), hs]
        · rw [hm] at hs; exact hs
    have h := this (l.map fun k => (k, vals k)) ⟨.set, (l.map fun k => (k, vals k)).map Prod.fst, true, []⟩ (by
      intro kv hkv; exact List.mem_map_of_mem hkv)
    have e1' : massSets ⟨.set, (l.map fun k => (k, vals k)).map Prod.fst, true, []⟩ (l.map fun k => (k, vals k)) = (st1, none) := e1
    rw [e1'] at h
    simpa [Function.comp_def] using h
  obtain ⟨st2, e2, d2⟩ := massInit_names hn hl vals'
  have n2 : ∀ x, x ∈ st2.names ↔ x ∈ l := by
    intro x
    constructor
    · intro hx
      by_contra hxl
      obtain ⟨h1, h2⟩ := d2.there x hx
      rw [if_neg hxl] at h1
      rw [← h1] at h2; cases h2
    · intro hx
      by_contra hxl
      have := d2.absent x hxl
      rw [if_pos hx] at this; cases this
  obtain ⟨st3, e3, k3, -, n3, -⟩ := massSet_spec ⟨st2.kind, st2.names, false, st1.attrs⟩ d2.set k hk.2 v
  have hw : mRun ⟨[], []⟩ [.box .set l, .names 0 vals, .names 0 vals', .assign 0 k v] =
      ⟨[(st3.kind, st3.names)], [⟨0, st3.attrs⟩, ⟨0, st2.attrs⟩]⟩ := by
    simp only [mRun, mStep, List.nil_append, List.getElem?_cons_zero, e1, List.set_cons_zero, n1, d1.set, e2, MWorld.get, Option.bind_some,
      Option.map_some, List.cons_append, e3, MWorld.put]
  have hkn : k ∈ st3.names := (n3 k).mpr (.inr ⟨rfl, (isMassName_iff k).mpr hk.1⟩)
  have hka : (st2.attrs.find? fun kv => decide (kv.1 = k)) = none := by
    have : attrOf st2 k = none := by
      obtain ⟨st, e, -, -, -, a⟩ := massSets_spec (l.map fun k => (k, vals' k)) (by
        intro kv hkv
        obtain ⟨x, hx, rfl⟩ := List.mem_map.1 hkv
        exact (hl x hx).2) ⟨.set, (l.map fun k => (k, vals' k)).map Prod.fst, true, []⟩ rfl
      have e2' : massSets ⟨.set, (l.map fun k => (k, vals' k)).map Prod.fst, true, []⟩ (l.map fun k => (k, vals' k)) = (st2, none) := e2
      rw [e] at e2'
      injection e2' with e2'
      rw [← e2', a]
      rcases hv : lastValue (l.map fun k => (k, vals' k)) k with _ | u
      · simp [attrOf]
      · have := lastValue_isSome.mp (by rw [hv]; rfl : (lastValue (l.map fun k => (k, vals' k)) k).isSome = true)
        simp [Function.comp_def] at this
        exact absurd this hkl
    unfold attrOf at this
    simpa using this
  have hd : massDict (⟨st3.kind, st3.names, false, st2.attrs⟩ : MassState V) = none := by
    unfold massDict
    simp only
    generalize st3.names = N at hkn
    induction N with
    | nil => simp at hkn
    | cons x N ih =>
      rw [List.mapM_cons]
      rcases List.mem_cons.1 hkn with rfl | hx
      · rw [hka]; rfl
      · rw [ih hx]
        cases h : Option.map (fun kv => (x, kv.2)) (st2.attrs.find? fun kv => decide (kv.1 = x)) <;> rfl
  rw [hw]
  refine ⟨⟨st3.kind, st3.names, false, st2.attrs⟩, rfl, hd, ?_, ?_⟩
  · simp only [mStep, MWorld.get, List.getElem?_cons_succ, List.getElem?_cons_zero, Option.bind_some, Option.map_some, hd]
  · simp only [mStep, MWorld.get, List.getElem?_cons_succ, List.getElem?_cons_zero, Option.bind_some, Option.map_some, hd]

/-- **C115** (finding): assigning `ms` raises AttributeError, and leaves the name registered, so that afterwards `image`, `copy` and `cluster` of the point
raise AttributeError too. The same for `multiplicity`. -/
theorem C115_property_registered {w : MWorld V} {s : MSpec V} (h : MInv w s) {p : ℕ} {st : MassState V} (hg : w.get p = some st) {name : List Char}
    (hm : MassForm name) (hr : name ∈ readOnly) (ha : attrOf st name = none) (v : V) (f : V → V) :
    (mStep w (.assign p name v)).2 = some .attributeError ∧
    (mStep (mStep w (.assign p name v)).1 (.image p)).2 = some .attributeError ∧
    (mStep (mStep w (.assign p name v)).1 (.cluster p f)).2 = some .attributeError := by
  obtain ⟨q, m, hq, -, hd⟩ := h.some hg
  obtain ⟨q', b, hq', hb, e⟩ := get_some hg
  rw [hq] at hq'
  injection hq' with hq'
  subst hq'
  have es : massSet st name v = ({ st with names := setAdd st.names name }, some .attributeError) := by
    rw [massSet, if_pos ((isMassName_iff name).mpr hm), hd.set]
    simp only [if_pos hr]
  have hx : name ∈ setAdd st.names name := (mem_setAdd _ _ _).mpr (.inr rfl)
  have hf : (st.attrs.find? fun kv => decide (kv.1 = name)) = none := by
    unfold attrOf at ha
    simpa using ha
  have hdn : massDict ({ st with names := setAdd st.names name } : MassState V) = none := by
    unfold massDict
    simp only
    generalize setAdd st.names name = N at hx
    induction N with
    | nil => simp at hx
    | cons x N ih =>
      rw [List.mapM_cons]
      rcases List.mem_cons.1 hx with rfl | hx
      · rw [hf]; rfl
      · rw [ih hx]
        cases h : Option.map (fun kv => (x, kv.2)) (st.attrs.find? fun kv => decide (kv.1 = x)) <;> rfl
  have e1 : mStep w (.assign p name v) = (w.put p { st with names := setAdd st.names name }, some .attributeError) := by
    simp only [mStep, hg, es]
  have e2 : (w.put p { st with names := setAdd st.names name }).get p = some { st with names := setAdd st.names name } := by
    have hp := (List.getElem?_eq_some_iff.mp hq).1
    have hbl := (List.getElem?_eq_some_iff.mp hb).1
    simp only [MWorld.put, hq, MWorld.get, List.getElem?_set_self hp, Option.bind_some, List.getElem?_set_self hbl, Option.map_some, e]
  rw [e1]
  refine ⟨rfl, ?_, ?_⟩
  · simp only [mStep, e2, hdn]
  · simp only [mStep, e2, hdn]

end Lips

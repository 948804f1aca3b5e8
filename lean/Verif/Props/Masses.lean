import Verif.Model.Masses
import Mathlib.Data.List.Basic
import Mathlib.Data.List.Nodup

/-!
Property C51: internal masses.
-/

namespace Lips

variable {V : Type*}

/-- The value an attribute has. -/
def attrOf (st : MassState V) (k : List Char) : Option V :=
  (st.attrs.find? fun kv => kv.1 = k).map Prod.snd

theorem mem_setAdd (l : List (List Char)) (x y : List Char) : y ∈ setAdd l x ↔ y ∈ l ∨ y = x := by
  unfold setAdd
  split
  · rename_i h
    constructor
    · exact Or.inl
    · rintro (h' | rfl)
      · exact h'
      · exact h
  · simp

theorem find_dictInsert {α β : Type*} [DecidableEq α] (d : List (α × β)) (k x : α) (v : β) :
    ((dictInsert d k v).find? fun kv => kv.1 = x).map Prod.snd =
      if x = k then some v else (d.find? fun kv => kv.1 = x).map Prod.snd := by
  unfold dictInsert
  split
  · rename_i h
    induction d with
    | nil => simp at h
    | cons y d ih =>
      rw [List.map_cons]
      by_cases hyk : y.1 = k
      · simp only [hyk, if_true]
        by_cases hx : x = k
        · subst hx; simp
        · have hkx : ¬ k = x := fun e => hx e.symm
          rw [if_neg hx, List.find?_cons_of_neg (by simpa using hkx),
            List.find?_cons_of_neg (by simpa [hyk] using hkx)]
          congr 1
          clear ih h
          induction d with
          | nil => rfl
          | cons z d ih =>
            rw [List.map_cons]
            by_cases hz : z.1 = k
            · rw [if_pos hz, List.find?_cons_of_neg (by simpa using hkx),
                List.find?_cons_of_neg (by simpa [hz] using hkx), ih]
            · rw [if_neg hz]
              by_cases hzx : z.1 = x
              · rw [List.find?_cons_of_pos (by simpa using hzx), List.find?_cons_of_pos (by simpa using hzx)]
              · rw [List.find?_cons_of_neg (by simpa using hzx), List.find?_cons_of_neg (by simpa using hzx), ih]
      · rw [if_neg hyk]
        simp only [List.any_cons, hyk, decide_false, Bool.false_or] at h
        by_cases hyx : y.1 = x
        · have : ¬ x = k := fun e => hyk (hyx.trans e)
          rw [List.find?_cons_of_pos (by simpa using hyx), List.find?_cons_of_pos (by simpa using hyx),
            if_neg this]
        · rw [List.find?_cons_of_neg (by simpa using hyx), List.find?_cons_of_neg (by simpa using hyx)]
          exact ih h
  · rename_i h
    simp only [List.any_eq_true, decide_eq_true_eq, not_exists, not_and] at h
    rw [List.find?_append]
    by_cases hx : x = k
    · subst hx
      have : (d.find? fun kv => decide (kv.1 = x)) = none := by
        rw [List.find?_eq_none]; intro y hy; simpa using h y hy
      simp [this]
    · have hkx : ¬ k = x := fun e => hx e.symm
      simp [hkx, hx]

/-- The names of masses: `m`, `M` or `μ`, then possibly an underscore, then letters, then digits. -/
def MassForm (name : List Char) : Prop :=
  ∃ c us a d, name = c :: (us ++ (a ++ d)) ∧ c ∈ ['m', 'M', 'μ'] ∧ us ∈ [[], ['_']] ∧
    (∀ x ∈ a, ('a' ≤ x ∧ x ≤ 'z') ∨ ('A' ≤ x ∧ x ≤ 'Z')) ∧ ∀ x ∈ d, '0' ≤ x ∧ x ≤ '9'

theorem isLetter_iff (x : Char) : isLetter x = true ↔ ('a' ≤ x ∧ x ≤ 'z') ∨ ('A' ≤ x ∧ x ≤ 'Z') := by
  unfold isLetter Char.isAlpha Char.isUpper Char.isLower
  simp only [Bool.or_eq_true, Bool.and_eq_true, decide_eq_true_eq, Char.le_def]
  constructor <;> rintro (h | h) <;> simp_all

theorem isDigit_iff (x : Char) : x.isDigit = true ↔ '0' ≤ x ∧ x ≤ '9' := by
  unfold Char.isDigit
  simp only [Bool.and_eq_true, decide_eq_true_eq, Char.le_def, ge_iff_le]

theorem letters_digits (l : List Char) : (l.dropWhile isLetter).all Char.isDigit = true ↔
    ∃ a d, l = a ++ d ∧ (∀ x ∈ a, isLetter x = true) ∧ ∀ x ∈ d, x.isDigit = true := by
  constructor
  · intro h
    refine ⟨l.takeWhile isLetter, l.dropWhile isLetter, (List.takeWhile_append_dropWhile).symm, ?_, by simpa using h⟩
    intro x hx
    exact List.all_eq_true.mp (List.all_takeWhile (p := isLetter)) x hx
  · rintro ⟨a, d, rfl, ha, hd⟩
    rw [List.dropWhile_append_of_pos ha]
    rw [List.all_eq_true]
    intro x hx
    exact hd x ((List.dropWhile_suffix _).subset hx)

/-- The pattern recognises exactly these names. -/
theorem isMassName_iff (name : List Char) : isMassName name = true ↔ MassForm name := by
  unfold MassForm
  simp only [← isLetter_iff, ← isDigit_iff]
  cases name with
  | nil => simp [isMassName]
  | cons c cs =>
    unfold isMassName
    simp only [Bool.and_eq_true, Bool.or_eq_true, decide_eq_true_eq, letters_digits]
    constructor
    · rintro ⟨hc, a, d, e, ha, hd⟩
      split at e
      · exact ⟨c, ['_'], a, d, by rw [e]; rfl, by simp; tauto, by simp, ha, hd⟩
      · exact ⟨c, [], a, d, by rw [e]; rfl, by simp; tauto, by simp, ha, hd⟩
    · rintro ⟨c', us, a, d, e, hc, hu, ha, hd⟩
      injection e with e1 e2
      subst e1 e2
      refine ⟨by simp at hc; tauto, ?_⟩
      simp only [List.mem_cons, List.not_mem_nil, or_false] at hu
      rcases hu with rfl | rfl
      · refine ⟨a, d, ?_, ha, hd⟩
        rcases a with _ | ⟨x, a⟩
        · rcases d with _ | ⟨x, d⟩
          · rfl
          · have := hd x (by simp)
            simp only [List.nil_append]
            split
            · rename_i e; injection e with e; subst e; simp at this
            · rfl
        · have := ha x (by simp)
          simp only [List.nil_append, List.cons_append]
          split
          · rename_i e; injection e with e; subst e; exact absurd this (by decide)
          · rfl
      · exact ⟨a, d, rfl, ha, hd⟩

/-- One assignment on an object whose container is a set: registers the name exactly if it is a mass
name, makes the attribute readable with the new value, and changes nothing else. -/
theorem massSet_spec (st : MassState V) (hk : st.kind = .set) (name : List Char) (hr : name ∉ readOnly) (v : V) :
    ∃ st', massSet st name v = (st', none) ∧ st'.kind = .set ∧ st'.shared = st.shared ∧
      (∀ k, k ∈ st'.names ↔ k ∈ st.names ∨ (k = name ∧ isMassName name = true)) ∧
      (∀ k, attrOf st' k = if k = name then some v else attrOf st k) := by
  unfold massSet
  cases h : isMassName name with
  | true =>
    rw [if_pos rfl, hk]
    simp only [if_neg hr]
    refine ⟨_, rfl, rfl, rfl, fun k => ?_, fun k => find_dictInsert _ _ _ _⟩
    simp [mem_setAdd]
  | false =>
    simp only [if_neg hr]
    exact ⟨_, rfl, hk, rfl, by simp, fun k => find_dictInsert _ _ _ _⟩

/-- The last value assigned to a name in a history. -/
def lastValue (h : List (List Char × V)) (k : List Char) : Option V :=
  (h.reverse.find? fun kv => kv.1 = k).map Prod.snd

theorem massSets_spec (kvs : List (List Char × V)) (hr : ∀ kv ∈ kvs, kv.1 ∉ readOnly) : ∀ (st : MassState V), st.kind = .set →
    ∃ st', massSets st kvs = (st', none) ∧ st'.kind = .set ∧ st'.shared = st.shared ∧
      (∀ k, k ∈ st'.names ↔ k ∈ st.names ∨ (k ∈ kvs.map Prod.fst ∧ isMassName k = true)) ∧
      (∀ k, attrOf st' k = (lastValue kvs k).or (attrOf st k)) := by
  induction kvs with
  | nil => intro st hk; exact ⟨st, rfl, hk, rfl, by simp, by simp [lastValue]⟩
  | cons kv kvs ih =>
    intro st hk
    obtain ⟨s1, h1, k1, sh1, n1, a1⟩ := massSet_spec st hk kv.1 (hr kv (by simp)) kv.2
    obtain ⟨s2, h2, k2, sh2, n2, a2⟩ := ih (fun x hx => hr x (by simp [hx])) s1 k1
    refine ⟨s2, ?_, k2, sh2.trans sh1, fun k => ?_, fun k => ?_⟩
    · rw [massSets, h1]; exact h2
    · rw [n2, n1, List.map_cons, List.mem_cons]
      constructor
      · rintro ((h | ⟨rfl, h⟩) | ⟨h, h'⟩)
        · exact .inl h
        · exact .inr ⟨.inl rfl, h⟩
        · exact .inr ⟨.inr h, h'⟩
      · rintro (h | ⟨rfl | h, h'⟩)
        · exact .inl (.inl h)
        · exact .inl (.inr ⟨rfl, h'⟩)
        · exact .inr ⟨h, h'⟩
    · rw [a2, a1]
      simp only [lastValue, List.reverse_cons, List.find?_append, List.find?_singleton]
      by_cases hk : k = kv.1
      · subst hk
        cases (kvs.reverse.find? fun x => decide (x.1 = kv.1)) <;> simp
      · have : ¬ kv.1 = k := fun e => hk e.symm
        cases (kvs.reverse.find? fun x => decide (x.1 = k)) <;> simp [hk, this]

/-- C51 for a dictionary or no argument, and every history of later assignments: construction and
assignments never raise, the registered names are exactly the mass names among the keys and the
names assigned later, every name has the value assigned last, and the caller's dictionary keys are
not affected. -/
theorem C51_dict_partial (attrs d later : List (List Char × V)) (hm : ∀ kv ∈ d, MassForm kv.1)
    (hr : ∀ kv ∈ d ++ later, kv.1 ∉ readOnly) :
    ∃ st st', massInit attrs (.dict d) = (st, none) ∧ massSets st later = (st', none) ∧
      (∀ k, k ∈ st.names ↔ k ∈ d.map Prod.fst) ∧
      (∀ k, k ∈ st'.names ↔ k ∈ d.map Prod.fst ∨ (k ∈ later.map Prod.fst ∧ MassForm k)) ∧
      (∀ k ∈ st'.names, attrOf st' k = lastValue (d ++ later) k) ∧
      (∀ orig, callerNames orig st' = orig) := by
  simp only [← isMassName_iff] at hm ⊢
  obtain ⟨s1, h1, k1, sh1, n1, a1⟩ := massSets_spec d (fun x hx => hr x (by simp [hx])) ⟨.set, [], false, attrs⟩ rfl
  obtain ⟨s2, h2, k2, sh2, n2, a2⟩ := massSets_spec later (fun x hx => hr x (by simp [hx])) s1 k1
  have hn : ∀ k, k ∈ s1.names ↔ k ∈ d.map Prod.fst := by
    intro k
    rw [n1]
    simp only [List.not_mem_nil, false_or, and_iff_left_iff_imp]
    intro h
    obtain ⟨kv, hkv, rfl⟩ := List.mem_map.1 h
    exact hm kv hkv
  refine ⟨s1, s2, h1, h2, hn, fun k => by rw [n2, hn], fun k hk => ?_, fun orig => ?_⟩
  · rw [a2, a1]
    simp only [lastValue, List.reverse_append, List.find?_append]
    have : (later.reverse.find? fun kv => decide (kv.1 = k)) ≠ none ∨
        (d.reverse.find? fun kv => decide (kv.1 = k)) ≠ none := by
      rw [n2, hn] at hk
      rcases hk with hk | ⟨hk, -⟩
      · right
        obtain ⟨kv, hkv, rfl⟩ := List.mem_map.1 hk
        intro h
        rw [List.find?_eq_none] at h
        exact h kv (List.mem_reverse.2 hkv) (by simp)
      · left
        obtain ⟨kv, hkv, rfl⟩ := List.mem_map.1 hk
        intro h
        rw [List.find?_eq_none] at h
        exact h kv (List.mem_reverse.2 hkv) (by simp)
    revert this
    cases (later.reverse.find? fun kv => decide (kv.1 = k)) <;>
      cases (d.reverse.find? fun kv => decide (kv.1 = k)) <;> simp
  · rw [callerNames, sh2, sh1]; simp

/-- C51 for a set: construction registers exactly the given names and tracks every later assignment;
but the container is the caller's own set, which grows with them. -/
theorem C51_set_aliased (attrs l later : List (List Char × V)) (hr : ∀ kv ∈ l ++ later, kv.1 ∉ readOnly) :
    ∃ st st', massInit attrs (.names .set l) = (st, none) ∧ massSets st later = (st', none) ∧
      (∀ k, k ∈ st.names ↔ k ∈ l.map Prod.fst) ∧
      (∀ k, k ∈ st'.names ↔ k ∈ l.map Prod.fst ∨ (k ∈ later.map Prod.fst ∧ MassForm k)) ∧
      (∀ k, k ∈ callerNames (l.map Prod.fst) st' ↔
        k ∈ l.map Prod.fst ∨ (k ∈ later.map Prod.fst ∧ MassForm k)) := by
  simp only [← isMassName_iff]
  obtain ⟨s1, h1, k1, sh1, n1, a1⟩ := massSets_spec l (fun x hx => hr x (by simp [hx])) ⟨.set, l.map Prod.fst, true, attrs⟩ rfl
  obtain ⟨s2, h2, k2, sh2, n2, a2⟩ := massSets_spec later (fun x hx => hr x (by simp [hx])) s1 k1
  have hn : ∀ k, k ∈ s1.names ↔ k ∈ l.map Prod.fst := by
    intro k; rw [n1]
    constructor
    · rintro (h | h)
      · exact h
      · exact h.1
    · exact Or.inl
  refine ⟨s1, s2, h1, h2, hn, fun k => by rw [n2, hn], fun k => ?_⟩
  rw [callerNames, sh2, sh1, if_pos rfl, n2, hn]

/-- C51 is false for lists and tuples: as soon as one name is a mass name the construction raises
AttributeError. -/
theorem C51_list_tuple_raise (attrs : List (List Char × V)) (kind : Kind) (hk : kind ≠ .set)
    (l : List (List Char × V)) (h : ∃ kv ∈ l, MassForm kv.1) :
    (massInit attrs (.names kind l)).2 = some .attributeError := by
  simp only [← isMassName_iff] at h
  have key : ∀ (l : List (List Char × V)) (st : MassState V), st.kind = kind →
      (∃ kv ∈ l, isMassName kv.1 = true) → (massSets st l).2 = some .attributeError := by
    intro l
    induction l with
    | nil => rintro st - ⟨kv, hkv, -⟩; simp at hkv
    | cons kv l ih =>
      rintro st hst ⟨x, hx, hm⟩
      rw [massSets]
      cases hkv : isMassName kv.1 with
      | true =>
        have : massSet st kv.1 kv.2 = (st, some .attributeError) := by
          rw [massSet, if_pos hkv]
          cases h : st.kind with
          | set => exact absurd (hst ▸ h) hk
          | list => rfl
          | tuple => rfl
        rw [this]
      | false =>
        by_cases hr : kv.1 ∈ readOnly
        · have : massSet st kv.1 kv.2 = (st, some .attributeError) := by
            rw [massSet, if_neg (by simp [hkv]), if_pos hr]
          rw [this]
        have : massSet st kv.1 kv.2 = ({ st with attrs := dictInsert st.attrs kv.1 kv.2 }, none) := by
          rw [massSet, if_neg (by simp [hkv]), if_neg hr]
        rw [this]
        apply ih
        · exact hst
        · rcases List.mem_cons.1 hx with rfl | hx
          · rw [hkv] at hm; cases hm
          · exact ⟨x, hx, hm⟩
  exact key l _ rfl h

/-- C51 is false for a name that is not of the form of a mass: a dictionary does not register it. -/
theorem C51_other_names_dropped (attrs : List (List Char × V)) (name : List Char) (v : V)
    (h : ¬MassForm name) (hr : name ∉ readOnly) : ∃ st, massInit attrs (.dict [(name, v)]) = (st, none) ∧
      st.names = [] ∧ attrOf st name = some v := by
  rw [← isMassName_iff, Bool.not_eq_true] at h
  refine ⟨⟨.set, [], false, dictInsert attrs name v⟩, ?_, rfl, ?_⟩
  · simp [massInit, massSets, massSet, h, hr]
  · simp [attrOf, find_dictInsert]

/-- C51 is false for a name that is also the name of a property, as `ms`: whatever the argument, the construction raises AttributeError. -/
theorem C51_property_raises (attrs d : List (List Char × V)) (h : ∃ kv ∈ d, kv.1 ∈ readOnly) (kind : Kind) :
    (massInit attrs (.dict d)).2 = some .attributeError ∧ (massInit attrs (.names kind d)).2 = some .attributeError := by
  have key : ∀ (l : List (List Char × V)) (st : MassState V), (∃ kv ∈ l, kv.1 ∈ readOnly) → (massSets st l).2 = some .attributeError := by
    intro l
    induction l with
    | nil => rintro st ⟨kv, hkv, -⟩; simp at hkv
    | cons kv l ih =>
      rintro st ⟨x, hx, hm⟩
      rw [massSets]
      rcases hs : massSet st kv.1 kv.2 with ⟨st', _ | e⟩
      · refine ih st' ⟨x, ?_, hm⟩
        rcases List.mem_cons.1 hx with rfl | hx
        · simp only [massSet, if_pos hm] at hs
          split at hs
          · split at hs <;> simp at hs
          · simp at hs
        · exact hx
      · have : e = .attributeError := by
          unfold massSet at hs
          repeat' split at hs
          all_goals simp_all
        simp [this]
  exact ⟨key _ _ h, key _ _ h⟩

/-! `ms` and `multiplicity` have the form of a mass, so that a strange quark mass cannot be called `ms`. -/
example : isMassName "ms".toList = true ∧ "ms".toList ∈ readOnly ∧ isMassName "multiplicity".toList = true ∧
    "mt2".toList ∉ readOnly := by decide

/-! Names as in the tests: `mt2` given in the constructor, `mh2` assigned later; `Gamma` is not of
the form of a mass. -/
example : isMassName "mt2".toList = true ∧ isMassName "mh2".toList = true ∧
    isMassName "m_top".toList = true ∧ isMassName "Gamma".toList = false := by decide

end Lips

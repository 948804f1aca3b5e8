import Verif.Model.Save

/-! C83: saving points under the name of an invariant. -/

namespace Lips

variable {C : Type*}

theorem fileName_shape (i : List Char) : ∃ base, fileName i = base ++ ['1', '.', 'm'] := by
  unfold fileName
  split
  · exact ⟨_, rfl⟩
  · exact ⟨['N', 'o', 'L', 'i', 'm', 'i', 't'], rfl⟩

theorem second_name (base : List Char) :
    (base ++ ['1', '.', 'm']).take ((base ++ ['1', '.', 'm']).length - 2) ++ ['2', '.', 'm'] = base ++ ['1', '2', '.', 'm'] := by
  have : (base ++ ['1', '.', 'm']).length - 2 = base.length + 1 := by simp
  rw [this, List.take_append, List.take_of_length_le (by omega)]
  simp

theorem name_ne (b b' : List Char) : b ++ ['1', '.', 'm'] ≠ b' ++ ['1', '2', '.', 'm'] := by
  intro h
  rw [show b' ++ ['1', '2', '.', 'm'] = (b' ++ ['1']) ++ ['2', '.', 'm'] by simp] at h
  have := (List.append_inj' h rfl).2
  simp at this

theorem savedName_cases (fs : Files C) (i : List Char) : ∃ base, fileName i = base ++ ['1', '.', 'm'] ∧
    (fs (fileName i) = none ∧ savedName fs i = base ++ ['1', '.', 'm'] ∨
      (fs (fileName i)).isSome ∧ savedName fs i = base ++ ['1', '2', '.', 'm']) := by
  obtain ⟨base, h⟩ := fileName_shape i
  refine ⟨base, h, ?_⟩
  unfold savedName
  rcases hf : fs (fileName i) with _ | x
  · left; exact ⟨rfl, by simpa using h⟩
  · right; exact ⟨rfl, by rw [h, if_pos (by simp), second_name]⟩

/-- C83 (finding): the third point saved for an invariant replaces the second one, for every invariant: of
three saved points only the first and the third are left. -/
theorem C83_third_save_overwrites (fs : Files C) (i : List Char) (x y z : C) (hfs : ∀ name, fs name = none)
    (hx : y ≠ x) (hz : y ≠ z) : ∀ name, saveAll fs [(i, x), (i, y), (i, z)] name ≠ some y := by
  obtain ⟨base, hb⟩ := fileName_shape i
  have s1 : savedName fs i = base ++ ['1', '.', 'm'] := by
    unfold savedName; rw [hfs, hb]; rfl
  have s2 : savedName (savePoint fs i x) i = base ++ ['1', '2', '.', 'm'] := by
    unfold savedName; rw [savePoint, s1, hb, if_pos (by simp), second_name]
  have s3 : savedName (savePoint (savePoint fs i x) i y) i = base ++ ['1', '2', '.', 'm'] := by
    unfold savedName
    rw [savePoint, s2, hb, if_neg (name_ne base base), savePoint, s1, if_pos rfl, if_pos (by simp), second_name]
  intro name
  change savePoint (savePoint (savePoint fs i x) i y) i z name ≠ some y
  unfold savePoint
  rw [show savedName (fun name => if name = savedName (fun name => if name = savedName fs i then some x else fs name) i then some y
    else if name = savedName fs i then some x else fs name) i = base ++ ['1', '2', '.', 'm'] from s3,
    show savedName (fun name => if name = savedName fs i then some x else fs name) i = base ++ ['1', '2', '.', 'm'] from s2, s1]
  split_ifs with h1 h2
  · simpa using hz.symm
  · simpa using hx.symm
  · rw [hfs]; simp

/-- C83, what holds: the first point saved under a name is never overwritten, whatever is saved later. -/
theorem C83_first_save_kept_partial (fs : Files C) (i : List Char) (x : C) (h : fs (fileName i) = some x)
    (later : List (List Char × C)) : saveAll fs later (fileName i) = some x := by
  induction later generalizing fs with
  | nil => exact h
  | cons p later ih =>
    obtain ⟨j, y⟩ := p
    rw [saveAll]
    apply ih
    unfold savePoint
    obtain ⟨base, hb, hc⟩ := savedName_cases fs j
    obtain ⟨base', hb'⟩ := fileName_shape i
    rw [if_neg, h]
    rcases hc with ⟨h1, h2⟩ | ⟨h1, h2⟩
    · intro e; rw [h2, ← hb] at e; rw [← e, h] at h1; cases h1
    · rw [h2, hb']; exact name_ne _ _

/-- C83, what holds: two points saved for an invariant that has no files yet are both there afterwards, and no
other file is changed. -/
theorem C83_two_saves_partial (fs : Files C) (i : List Char) (x y : C) (h : fs (fileName i) = none) :
    ∃ n₁ n₂, n₁ ≠ n₂ ∧ saveAll fs [(i, x), (i, y)] n₁ = some x ∧ saveAll fs [(i, x), (i, y)] n₂ = some y ∧
      ∀ name, name ≠ n₁ → name ≠ n₂ → saveAll fs [(i, x), (i, y)] name = fs name := by
  obtain ⟨base, hb⟩ := fileName_shape i
  have s1 : savedName fs i = base ++ ['1', '.', 'm'] := by
    unfold savedName; rw [h, hb]; rfl
  have s2 : savedName (savePoint fs i x) i = base ++ ['1', '2', '.', 'm'] := by
    unfold savedName; rw [savePoint, s1, hb, if_pos (by simp), second_name]
  refine ⟨base ++ ['1', '.', 'm'], base ++ ['1', '2', '.', 'm'], name_ne _ _, ?_, ?_, ?_⟩
  · change savePoint (savePoint fs i x) i y _ = _
    rw [savePoint, s2, if_neg (name_ne base base), savePoint, s1, if_pos rfl]
  · change savePoint (savePoint fs i x) i y _ = _
    rw [savePoint, s2, if_pos rfl]
  · intro name h1 h2
    change savePoint (savePoint fs i x) i y _ = _
    rw [savePoint, s2, if_neg h2, savePoint, s1, if_neg h1]

theorem save_other (fs : Files C) (i j : List Char) (x : C) (hij : fileName i ≠ fileName j) (name : List Char)
    (hn : ∃ base, fileName i = base ++ ['1', '.', 'm'] ∧ (name = base ++ ['1', '.', 'm'] ∨ name = base ++ ['1', '2', '.', 'm'])) :
    savePoint fs j x name = fs name := by
  obtain ⟨base, hb, hn⟩ := hn
  obtain ⟨base', hb', hc⟩ := savedName_cases fs j
  have hne : base ≠ base' := fun h => hij (by rw [hb, hb', h])
  unfold savePoint
  rw [if_neg]
  rcases hc with ⟨-, h2⟩ | ⟨-, h2⟩ <;> rcases hn with rfl | rfl <;> rw [h2]
  · exact fun e => hne (List.append_inj' e rfl).1
  · exact (name_ne _ _).symm
  · exact name_ne _ _
  · exact fun e => hne (List.append_inj' e rfl).1

/-- A character, with closing brackets replaced by opening ones. -/
def opened (x : Char) : Char := if x = '⟩' then '⟨' else if x = ']' then '[' else x

theorem fileChar_eq_iff {x y : Char} (hx : x ∉ ['A', 'S', 'V']) (hy : y ∉ ['A', 'S', 'V']) :
    fileChar x = fileChar y ↔ opened x = opened y := by
  simp only [List.mem_cons, List.not_mem_nil, or_false, not_or] at hx hy
  have ha : ∀ z : Char, fileChar z = 'A' ↔ z = '⟨' ∨ z = '⟩' ∨ z = 'A' := by
    intro z; unfold fileChar; split_ifs <;> simp_all
  have hs : ∀ z : Char, fileChar z = 'S' ↔ z = '[' ∨ z = ']' ∨ z = 'S' := by
    intro z; unfold fileChar; split_ifs <;> simp_all
  have hv : ∀ z : Char, fileChar z = 'V' ↔ z = '|' ∨ z = 'V' := by
    intro z; unfold fileChar; split_ifs <;> simp_all
  have ho : ∀ z : Char, z ≠ '⟨' → z ≠ '⟩' → z ≠ '[' → z ≠ ']' → z ≠ '|' → fileChar z = z := by
    intro z h1 h2 h3 h4 h5; unfold fileChar; simp [h1, h2, h3, h4, h5]
  have oa : ∀ z : Char, opened z = '⟨' ↔ z = '⟨' ∨ z = '⟩' := by
    intro z; unfold opened; split_ifs <;> simp_all
  have os : ∀ z : Char, opened z = '[' ↔ z = '[' ∨ z = ']' := by
    intro z; unfold opened; split_ifs <;> simp_all
  have oo : ∀ z : Char, z ≠ '⟩' → z ≠ ']' → opened z = z := by
    intro z h1 h2; unfold opened; simp [h1, h2]
  by_cases a1 : x = '⟨' ∨ x = '⟩'
  · rw [(ha x).mpr (by tauto), (oa x).mpr a1, @eq_comm _ 'A', ha, @eq_comm _ '⟨' (opened y), oa]; tauto
  by_cases a2 : x = '[' ∨ x = ']'
  · rw [(hs x).mpr (by tauto), (os x).mpr a2, @eq_comm _ 'S', hs, @eq_comm _ '[' (opened y), os]; tauto
  simp only [not_or] at a1 a2
  rw [oo x a1.2 a2.2]
  by_cases a3 : x = '|'
  · rw [(hv x).mpr (by tauto), a3, eq_comm, hv]
    constructor
    · rintro (h | h)
      · rw [h]; rfl
      · exact absurd h hy.2.2
    · intro h
      left
      unfold opened at h
      split_ifs at h
      · cases h
      · cases h
      · exact h.symm
  · rw [ho x a1.1 a1.2 a2.1 a2.2 a3]
    unfold fileChar opened
    split_ifs <;> simp_all

/-- C83: the names of the files tell invariants apart, up to exchanging an opening with its closing bracket; for
invariants that do not contain the letters `A`, `S` and `V`. -/
theorem C83_names_distinct {i j : List Char} (hi : i ≠ []) (hj : j ≠ []) (ai : ∀ x ∈ i, x ∉ ['A', 'S', 'V'])
    (aj : ∀ x ∈ j, x ∉ ['A', 'S', 'V']) : fileName i = fileName j ↔ i.map opened = j.map opened := by
  unfold fileName
  rw [if_pos hi, if_pos hj, List.append_left_inj]
  clear hi hj
  induction i generalizing j with
  | nil => cases j <;> simp
  | cons x i ih =>
    cases j with
    | nil => simp
    | cons y j =>
      simp only [List.map_cons, List.cons.injEq]
      rw [fileChar_eq_iff (ai x (by simp)) (aj y (by simp)), ih (fun z hz => ai z (by simp [hz])) (fun z hz => aj z (by simp [hz]))]

/-- C83: whatever is saved for other invariants, and however often, the files of an invariant stay as they are. -/
theorem C83_other_invariants_kept (fs : Files C) (i : List Char) (hi : i ≠ []) (ai : ∀ x ∈ i, x ∉ ['A', 'S', 'V'])
    (later : List (List Char × C)) (hl : ∀ jx ∈ later, jx.1 ≠ [] ∧ (∀ x ∈ jx.1, x ∉ ['A', 'S', 'V']) ∧ i.map opened ≠ jx.1.map opened)
    (name : List Char)
    (hn : ∃ base, fileName i = base ++ ['1', '.', 'm'] ∧ (name = base ++ ['1', '.', 'm'] ∨ name = base ++ ['1', '2', '.', 'm'])) :
    saveAll fs later name = fs name := by
  induction later generalizing fs with
  | nil => rfl
  | cons p later ih =>
    obtain ⟨h1, h2, h3⟩ := hl p (by simp)
    rw [saveAll, ih _ fun q hq => hl q (by simp [hq])]
    exact save_other fs i p.1 p.2 (fun e => h3 ((C83_names_distinct hi h1 ai h2).mp e)) name hn

/-- C83: three saves of `⟨1|2⟩`; the names. -/
example : fileName "⟨1|2⟩".toList = "A1V2A1.m".toList ∧
    savedName (savePoint (fun _ => none) "⟨1|2⟩".toList 0) "⟨1|2⟩".toList = "A1V2A12.m".toList ∧
    saveAll (fun _ => none) [("⟨1|2⟩".toList, 0), ("⟨1|2⟩".toList, 1), ("⟨1|2⟩".toList, 2)] "A1V2A12.m".toList = some 2 := by
  decide

/-- C83: after saving `⟨1|2⟩`, saving `[1|2]` twice and `⟨1|2]` leaves its file. -/
example : saveAll (savePoint (fun _ => none) "⟨1|2⟩".toList 0) [("[1|2]".toList, 1), ("[1|2]".toList, 2), ("⟨1|2]".toList, 3)] "A1V2A1.m".toList =
    some 0 := by
  rw [C83_other_invariants_kept _ "⟨1|2⟩".toList (by decide) (by decide) _ (by decide) _ ⟨"A1V2A".toList, by decide, .inl (by decide)⟩]
  decide

end Lips

import Verif.Props.Save

/-! C83: which saved points are left after any history of saves. -/

namespace Lips

variable {C : Type*}

/-- What was saved under the first name of invariant `i`, in order. -/
def savedFor (i : List Char) (h : List (List Char × C)) : List C := (h.filter fun p => fileName p.1 = fileName i).map Prod.snd

theorem second_exists (i : List Char) {base : List Char} (hb : fileName i = base ++ ['1', '.', 'm']) : ∀ (h : List (List Char × C)) (fs : Files C),
    (fs (fileName i)).isSome → saveAll fs h (base ++ ['1', '2', '.', 'm']) = (savedFor i h).getLast?.or (fs (base ++ ['1', '2', '.', 'm']))
  | [], fs, _ => by simp [saveAll, savedFor]
  | (j, x) :: h, fs, hs => by
    obtain ⟨y, hy⟩ := Option.isSome_iff_exists.1 hs
    have keep : savePoint fs j x (fileName i) = some y := C83_first_save_kept_partial fs i y hy [(j, x)]
    rw [saveAll, second_exists i hb h _ (by rw [keep]; rfl)]
    by_cases hj : fileName j = fileName i
    · have e1 : savedName fs j = base ++ ['1', '2', '.', 'm'] := by
        unfold savedName
        rw [hj, if_pos hs, hb, second_name]
      have e2 : savePoint fs j x (base ++ ['1', '2', '.', 'm']) = some x := by rw [savePoint, e1, if_pos rfl]
      have e3 : savedFor i ((j, x) :: h) = x :: savedFor i h := by simp [savedFor, hj]
      rw [e2, e3]
      cases savedFor i h with
      | nil => rfl
      | cons a l => rw [List.getLast?_cons_cons, List.getLast?_eq_some_getLast (by simp)]; rfl
    · have e2 := save_other fs i j x (fun e => hj e.symm) (base ++ ['1', '2', '.', 'm']) ⟨base, hb, .inr rfl⟩
      have e3 : savedFor i ((j, x) :: h) = savedFor i h := by simp [savedFor, hj]
      rw [e2, e3]

/-- C83: after any history of saves, of this and other invariants, the first file of an invariant holds what was saved first under its name, and the
second file what was saved last, if more than one was: of any number of points saved for an invariant exactly the first and the last are left. -/
theorem C83_history (i : List Char) {base : List Char} (hb : fileName i = base ++ ['1', '.', 'm']) : ∀ (h : List (List Char × C)) (fs : Files C),
    fs (fileName i) = none → saveAll fs h (base ++ ['1', '.', 'm']) = (savedFor i h).head? ∧
      saveAll fs h (base ++ ['1', '2', '.', 'm']) = (savedFor i h).tail.getLast?.or (fs (base ++ ['1', '2', '.', 'm']))
  | [], fs, h0 => by
    rw [← hb]
    simp [saveAll, savedFor, h0]
  | (j, x) :: h, fs, h0 => by
    rw [saveAll]
    by_cases hj : fileName j = fileName i
    · have e1 : savedName fs j = base ++ ['1', '.', 'm'] := by
        unfold savedName
        rw [hj, h0, ← hb]
        rfl
      have e2 : savePoint fs j x (fileName i) = some x := by rw [savePoint, e1, ← hb, if_pos rfl]
      have e3 : savedFor i ((j, x) :: h) = x :: savedFor i h := by simp [savedFor, hj]
      have e4 : savePoint fs j x (base ++ ['1', '2', '.', 'm']) = fs (base ++ ['1', '2', '.', 'm']) := by
        rw [savePoint, e1, if_neg (name_ne _ _).symm]
      rw [e3, second_exists i hb h _ (by rw [e2]; rfl), e4, ← hb, C83_first_save_kept_partial _ i x e2 h]
      exact ⟨rfl, rfl⟩
    · have e1 := save_other fs i j x (fun e => hj e.symm) (base ++ ['1', '.', 'm']) ⟨base, hb, .inl rfl⟩
      have e2 := save_other fs i j x (fun e => hj e.symm) (base ++ ['1', '2', '.', 'm']) ⟨base, hb, .inr rfl⟩
      have e3 : savedFor i ((j, x) :: h) = savedFor i h := by simp [savedFor, hj]
      have := C83_history i hb h (savePoint fs j x) (by rw [hb, e1, ← hb]; exact h0)
      rw [e2] at this
      rw [e3]
      exact this

/-- C83: no other file is written. -/
theorem C83_only_these : ∀ (h : List (List Char × C)) (fs : Files C) (name : List Char),
    (∀ p ∈ h, ∀ base, fileName p.1 = base ++ ['1', '.', 'm'] → name ≠ base ++ ['1', '.', 'm'] ∧ name ≠ base ++ ['1', '2', '.', 'm']) →
      saveAll fs h name = fs name
  | [], _, _, _ => rfl
  | (j, x) :: h, fs, name, hn => by
    rw [saveAll, C83_only_these h _ name fun p hp => hn p (List.mem_cons_of_mem _ hp)]
    obtain ⟨base, hb, hc⟩ := savedName_cases fs j
    have := hn (j, x) List.mem_cons_self base hb
    rw [savePoint, if_neg]
    rcases hc with ⟨-, e⟩ | ⟨-, e⟩ <;> rw [e]
    · exact this.1
    · exact this.2

/-- Five saves, two of them of another invariant. -/
example : let h : List (List Char × ℕ) := [("⟨1|2⟩".toList, 0), ("[1|2]".toList, 1), ("⟨1|2⟩".toList, 2), ("[1|2]".toList, 3), ("⟨1|2⟩".toList, 4)]
    saveAll (fun _ => none) h "A1V2A1.m".toList = some 0 ∧ saveAll (fun _ => none) h "A1V2A12.m".toList = some 4 := by
  intro h
  have := C83_history "⟨1|2⟩".toList (base := "A1V2A".toList) (by decide) h (fun _ => none) rfl
  have e : savedFor "⟨1|2⟩".toList h = [0, 2, 4] := by decide
  rw [e] at this
  exact this

end Lips

import Verif.Props.SetOneFree
import Verif.Examples.Set

/-! Concrete cases for C62 with one free label. -/

namespace Lips

variable {m : ℕ}

instance (r l : Fin m → V2 F13) (t : Str m) (p : Fin m) (v : V2 F13) (X : F13) : Decidable (NewHeadOk r l t p v X) := by
  unfold NewHeadOk; infer_instance

theorem of_newHead {r l : Fin m → V2 F13} {t : Str m} {p : Fin m} {X : F13} {e : Except Err (V2 F13)}
    (h : (match e with | .ok v => decide (v 0 ≠ 0 ∧ NewHeadOk r l t p v X) | _ => false) = true) :
    ∃ v, e = .ok v ∧ v 0 ≠ 0 ∧ NewHeadOk r l t p v X := by
  rcases e with e | v
  · simp at h
  · exact ⟨v, rfl, by simpa using h⟩

/-- C62: `⟨1|2|3|4|5]` at six points leaves particle six; asked for 7 it becomes 7. -/
example : ∃ ps', setNB (f13 .symmetric) 1 pt6 ⟨'⟨', 0, [[1], [2], [3]], 4, ']'⟩ 7 true 1 = .ok ps' ∧
    (⟨'⟨', 0, [[1], [2], [3]], 4, ']'⟩ : Str 6).value ps' = .ok 7 := by
  obtain ⟨v, hv, hv0, hd⟩ := of_newHead (r := r6) (l := l6) (t := ⟨'⟨', 0, [[1], [2], [3]], 4, ']'⟩) (p := 5) (X := 7)
    (e := computeOpenBegin pt6 ([[1], [2], [3]].map plusOf) 4 ']') (by decide +kernel)
  obtain ⟨ps', h1, h2, -⟩ := C62_head_one_free (f13 .symmetric) pt6 r6 l6 pt6_massless ⟨'⟨', 0, [[1], [2], [3]], 4, ']'⟩
    (Or.inl ⟨rfl, by decide⟩) (by decide) (by decide) 5 (by decide) (by rfl) 7 hv hv0 0 hd
  exact ⟨ps', h1, h2⟩

/-- C62 (finding): `⟨1|2|3|4|1]` at five points, asked for 7, is `7` times the ratio of two brackets afterwards. -/
example : ∃ ps' x a b, setNB (f13 .symmetric) 1 pt5 ⟨'⟨', 0, [[1], [2], [3]], 0, ']'⟩ 7 true 1 = .ok ps' ∧
    (⟨'⟨', 0, [[1], [2], [3]], 0, ']'⟩ : Str 5).value ps' = .ok x ∧ angle (pt5 4) (pt5 0) = .ok b ∧
    angle (ps' 4) (ps' 0) = .ok a ∧ a ≠ 0 ∧ x * a = 7 * b := by
  obtain ⟨v, hv, hv0, hd⟩ := of_newHead (r := r5) (l := l5) (t := ⟨'⟨', 0, [[1], [2], [3]], 0, ']'⟩) (p := 4) (X := 7)
    (e := computeOpenBegin pt5 ([[1], [2], [3]].map plusOf) 0 ']') (by decide +kernel)
  obtain ⟨ps', x, b, a, h1, h2, h3, h4, h5, h6⟩ := C62_same_end_one_free_partial (f13 .symmetric) pt5 r5 l5 pt5_massless
    pt5_conserves ⟨'⟨', 0, [[1], [2], [3]], 0, ']'⟩ (Or.inl ⟨rfl, by decide⟩) (by decide) rfl rfl 4 (by decide) (by rfl) 7 hv hv0 0 hd
  exact ⟨ps', x, a, b, h1, h2, h3, h4, h5, h6⟩

end Lips

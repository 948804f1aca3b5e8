import Verif.Props.SetText
import Verif.Examples.Set

/-! Concrete cases for C93. -/

namespace Lips

/-- Zero at zero, one elsewhere: with tolerance zero a check passes exactly when its two sides are equal. -/
def abs13 (x : F13) : ℕ := if x = 0 then 0 else 1

instance (ls : List (Fin n)) : Decidable (OneDigit ls) := by unfold OneDigit; infer_instance

/-- C93: `_set("⟨1|2⟩", 7)`. -/
example : ∃ ps', SetsTo abs13 0 (f13 .symmetric) pt5 0 "⟨1|2⟩".toList 7 1 ps' := by
  obtain ⟨ps', h, -⟩ := C93_angle abs13 0 (by decide) (f13 .symmetric) pt5 r5 l5 pt5_massless '⟨' '⟩' (by decide) (by decide)
    0 1 2 3 (by decide) (by decide) 7 (by decide) (by decide) 0 1
  exact ⟨ps', h⟩

/-- C93: `_set("[1|2]", 7)`. -/
example : ∃ ps', SetsTo abs13 0 (f13 .symmetric) pt5 0 "[1|2]".toList 7 1 ps' := by
  obtain ⟨ps', h, -⟩ := C93_square abs13 0 (by decide) (f13 .symmetric) pt5 r5 l5 pt5_massless
    0 1 2 3 (by decide) (by decide) 7 (by decide) (by decide) 0 1
  exact ⟨ps', h⟩

/-- C93: `_set("⟨1|(2+3)|4]", 7)`. -/
example : ∃ ps', SetsTo abs13 0 (f13 .symmetric) pt6 0 "⟨1|(2+3)|4]".toList 7 1 ps' := by
  obtain ⟨v, hv, hv0⟩ := of_headOk (e := computeOpenBegin pt6 ([[1, 2]].map plusOf) 3 ']') (by decide +kernel)
  obtain ⟨ps', h, -⟩ := C93_string_head abs13 0 (by decide) (f13 .symmetric) pt6 r6 l6 pt6_massless '⟨' ']' 0 3 [(true, [1, 2])]
    (Or.inl ⟨rfl, by decide⟩) (by simp) (by simp) (by decide) (by decide) (Or.inl rfl) 4 5 (by decide) 7 hv hv0 (by decide) 0
  exact ⟨ps', h⟩

/-- C93: `_set("⟨1|2+3|2+4|1⟩", 4)`. -/
example : ∃ ps', SetsTo abs13 0 (f13 .symmetric) pt6 0 "⟨1|2+3|2+4|1⟩".toList 4 1 ps' := by
  obtain ⟨ps', h, -⟩ := C93_string_quadratic abs13 0 (by decide) (f13 .symmetric) pt6 r6 l6 pt6_massless '⟨' '⟩' 0
    [(false, [1, 2]), (false, [1, 3])] (Or.inl ⟨rfl, by decide⟩) (by simp) (by simp) (by decide) (by decide) rfl 4 5 (by decide) 4 1
    rfl ⟨fun _ => by decide +kernel, fun h => by simp at h⟩ (by decide) 0
  exact ⟨ps', h⟩

/-- C93: `_set("⟨1|2+3|4]", 7, mode=2)` goes through particle two. -/
example : ∃ ps', SetsTo abs13 0 (f13 .symmetric) pt6 0 "⟨1|2+3|4]".toList 7 2 ps' := by
  obtain ⟨y, hy, hy0⟩ := of_numOk (e := endOfPart pt6 '⟨' 1 [] 3 ']') (by decide +kernel)
  obtain ⟨ps', h, -⟩ := C93_string_middle abs13 0 (by decide) (f13 .symmetric) pt6 r6 l6 pt6_massless '⟨' ']' 0 3
    [(false, [1, 2])] (Or.inl ⟨rfl, by decide⟩) (by simp) (by simp) (by decide) [] [2] 1 ⟨rfl, by decide, by decide⟩ (by decide)
    (by decide) 2 (Or.inl (by decide)) 4 5 (by decide) 7 y hy hy0 (fun _ => by decide) (fun h => by simp at h) (by decide) 0
  exact ⟨ps', h⟩

/-- C93 (finding): `_set("⟨1|1+2|2+3|4⟩", 7)` raises, the value is -7. -/
example : setText abs13 0 (f13 .symmetric) pt6 0 "⟨1|1+2|2+3|4⟩".toList 7 true 1 = some (.error .exception) := by
  obtain ⟨v, hv, hv0⟩ := of_headOk (e := computeOpenBegin pt6
    ((Str.reverse (n := 6) ⟨'⟨', 0, [[0, 1], [1, 2]], 3, '⟩'⟩).ms.map plusOf) 0
    (Str.reverse (n := 6) ⟨'⟨', 0, [[0, 1], [1, 2]], 3, '⟩'⟩).last) (by decide +kernel)
  exact C93_string_tail_raises abs13 0 (by decide) (f13 .symmetric) pt6 r6 l6 pt6_massless '⟨' '⟩' 0 3
    [(false, [0, 1]), (false, [1, 2])] (Or.inl ⟨rfl, by decide⟩) (by simp) (by simp) (by decide) (by decide) (by decide) rfl 4 5
    (by decide) 7 hv hv0 (by decide) (by decide) 0

/-- C93: `_set("s_123", 7, mode=2)`. -/
example : ∃ ps', SetsTo abs13 0 (f13 .symmetric) pt6 0 "s_123".toList 7 2 ps' := by
  obtain ⟨v, hv, hv0⟩ := of_headOk (e := computeOpenBegin pt6 [plusOf [1, 2]] 0 (if 2 = 1 then ']' else '⟩')) (by decide +kernel)
  obtain ⟨ps', h, -⟩ := C93_mandelstam abs13 0 (by decide) (f13 .symmetric) pt6 r6 l6 pt6_massless "s_".toList (by decide) 0 [1, 2]
    (by decide) (by decide) (by decide) 2 (Or.inr rfl) 3 4 (by decide) 7 hv hv0 (by decide) 0
  exact ⟨ps', h⟩

/-- C93 (finding): `_set("s_12", X)` leaves the point alone; it raises unless the value happens to be `X`. -/
example : ∃ e, setText abs13 0 (f13 .symmetric) pt6 0 "s_12".toList (computeS pt6 [0, 1] + 1) true 1 = some (.error e) :=
  (C93_two_labels abs13 0 (f13 .symmetric) pt6 "s_".toList (by decide) 0 1 (by decide) (computeS pt6 [0, 1] + 1) true 1 0).2
    (by decide +kernel)

/-- C93: the corners of `Ω_135` at six points, and what setting it gives. -/
example : (∃ w, (f13 .symmetric).sqrt w = none ∧
      setText abs13 0 (f13 .symmetric) pt6 6 "Ω_135".toList 7 true 1 = some (.error .valueError)) ∨
    ∃ ps', SetsTo abs13 0 (f13 .symmetric) pt6 6 "Ω_135".toList 7 1 ps' := by
  rcases C93_omega abs13 0 (by decide) (f13 .symmetric) pt6 r6 l6 pt6_massless 0 2 4 (by decide) 6 4 5 0 1 2 3
    (by decide +kernel) (by decide) 7 (by decide +kernel) (by decide) 1 with h | ⟨ps', h, -⟩
  · exact Or.inl h
  · exact Or.inr ⟨ps', h⟩

example : ∃ ps', SetsTo abs13 0 (f13 .symmetric) pt6 6 "Π_135".toList 7 1 ps' := by
  obtain ⟨ps', h, -⟩ := C93_pi abs13 0 (by decide) (f13 .symmetric) pt6 r6 l6 pt6_massless 0 2 4 (by decide) 6 4 5 0 1 2 3
    (by decide +kernel) (by decide) 7 (by decide +kernel) (by decide) 1
  exact ⟨ps', h⟩

/-- C93: `Δ_12|34|56` and `Δ_135`. -/
theorem leg6 (ls : List (Fin 6)) (h : ls ≠ []) : ∃ Q, clusterLeg (f13 .symmetric) pt6 ls = some Q := by
  obtain ⟨s, hs⟩ := C06_sum_total (f13 .symmetric) rfl (ls.map pt6) (by simpa using h)
  exact ⟨s, by simp [clusterLeg, hs]⟩

example : (∃ D, (f13 .symmetric).sqrt D = none ∧
      setText abs13 0 (f13 .symmetric) pt6 0 "Δ_12|34|56".toList 7 true 1 = some (.error .valueError)) ∨
    ∃ ps', SetsTo abs13 0 (f13 .symmetric) pt6 0 "Δ_12|34|56".toList 7 1 ps' := by
  obtain ⟨Q1, h1⟩ := leg6 [1] (by simp)
  obtain ⟨Q2, h2⟩ := leg6 [2, 3] (by simp)
  obtain ⟨Q3, h3⟩ := leg6 [4, 5] (by simp)
  rcases C93_delta abs13 0 (by decide) (f13 .symmetric) pt6 r6 l6 pt6_massless [0, 1] [2, 3] [] 5 4 0 1 (by decide) (by decide)
    (by simp) rfl (by decide) 7 h1 h2 h3 (by rw [(clusterLeg_spec (fun k => (pt6_massless k).cons) h2).2]; decide +kernel)
    (by decide) 0 with h | ⟨ps', h, -⟩
  · exact Or.inl h
  · exact Or.inr ⟨ps', h⟩

example : (∃ D, (f13 .symmetric).sqrt D = none ∧
      setText abs13 0 (f13 .symmetric) pt6 6 "Δ_135".toList 7 true 1 = some (.error .valueError)) ∨
    ∃ ps', SetsTo abs13 0 (f13 .symmetric) pt6 6 "Δ_135".toList 7 1 ps' := by
  obtain ⟨Q1, h1⟩ := leg6 [1] (by simp)
  obtain ⟨Q2, h2⟩ := leg6 [2, 3] (by simp)
  obtain ⟨Q3, h3⟩ := leg6 [4, 5] (by simp)
  rcases C93_delta_short abs13 0 (by decide) (f13 .symmetric) pt6 r6 l6 pt6_massless 0 2 4 (by decide) 6 [0, 1] [2, 3] [] 5 4 0 1
    (by decide +kernel) (by decide) rfl (by decide) 7 h1 h2 h3
    (by rw [(clusterLeg_spec (fun k => (pt6_massless k).cons) h2).2]; decide +kernel) (by decide) with h | ⟨ps', h, -⟩
  · exact Or.inl h
  · exact Or.inr ⟨ps', h⟩

/-- C93: `_set("tr5(1|2|3|4)", 7)` and `_set("tr5_1234", 7)` at six points. -/
example : ∃ ps', SetsTo abs13 0 (f13 .symmetric) pt6 0 "tr5(1|2|3|4)".toList 7 1 ps' ∧
    setText abs13 0 (f13 .symmetric) pt6 0 "tr5_1234".toList 7 true 1 = some (.ok ps') := by
  obtain ⟨ps', h, -⟩ := C93_tr5 (m := 0) abs13 0 (by decide) (f13 .symmetric) pt6 r6 l6 pt6_massless (single 0) (single 1)
    (single 2) (single 3) (single 1) (single 2) (single 3) ⟨⟨_, _, rfl⟩, ⟨_, _, rfl⟩, ⟨_, _, rfl⟩, ⟨_, _, rfl⟩⟩ 0 4 5 (by rfl)
    (by decide) 7 (by decide) (by simp only [slotMom_single]; rw [specTr5_expand]; decide +kernel) (by decide) 0 1
  refine ⟨ps', h, ?_⟩
  rw [← h.1]
  exact C93_tr5_spellings abs13 0 (f13 .symmetric) pt6 0 0 1 2 3 (by decide) 7 true 1

/-- C93 (finding): at five points `_set("tr5(2|1|3|4)", 7)` raises. -/
example : setText abs13 0 (f13 .symmetric) pt5 0 "tr5(2|1|3|4)".toList 7 true 1 = some (.error .exception) := by
  obtain ⟨ps', h⟩ := C67_five_points_returns (f13 .symmetric) pt5 r5 l5 pt5_massless 1 0 2 3 7 true
    (by decide +kernel) (by decide +kernel) (by decide +kernel) (by decide +kernel) (by decide) (by decide)
  exact (C93_tr5_five_partial abs13 0 (by decide) (f13 .symmetric) pt5 r5 l5 pt5_massless (Equiv.swap 0 1) 7 ps' h 0 1).2
    (Equiv.Perm.sign_swap (by decide)) (by decide)

/-- C93: `_set_inner` of a difference of five-brackets. -/
example : ∃ ps' u v, setInner (f13 .symmetric) pt6 0 "(⟨1|2|(3+4)|5|1]-⟨2|6|(3+4)|5|2])".toList 7 true 1 = some (.ok ps') ∧
    computeText ps' 0 "⟨1|2|(3+4)|5|1]".toList = some (.ok (.num u)) ∧
    computeText ps' 0 "⟨2|6|(3+4)|5|2]".toList = some (.ok (.num v)) ∧ u - v = 7 := by
  obtain ⟨ps', u, v, h1, -, h2, h3, h4, -⟩ := C93_five_brackets_inner pt6_massless pt6_conserves (a := 0) (b := 1) (x := 2)
    (y := 3) (e := 4) (f := 5) (by decide) (by decide) (by decide) (by decide) 7 (by decide) (by decide) true 0 1
  exact ⟨ps', u, v, h1, h2, h3, h4⟩

/-- C93: `_set` of the same text. -/
example : ∃ ps', SetsTo abs13 0 (f13 .symmetric) pt6 0 "(⟨1|2|(3+4)|5|1]-⟨2|6|(3+4)|5|2])".toList 7 1 ps' := by
  obtain ⟨ps', h, -⟩ := C93_five_brackets abs13 0 (by decide) pt6_massless pt6_conserves (a := 0) (b := 1) (x := 2)
    (y := 3) (e := 4) (f := 5) (by decide) (by decide) (by decide) (by decide) (by decide) 7 (by decide) (by decide) true 0 1
  exact ⟨ps', h⟩

/-- C93: `_set("tr5_", X)` raises an IndexError. -/
example (X : F13) : setText abs13 0 (f13 .symmetric) pt6 0 "tr5_".toList X true 1 = some (.error .indexError) :=
  C93_refused _ _ _ _ _ _ (by decide) (.inr (.inr (by decide))) _ _ _

/-- C93 (finding): `_set_inner("⟨1|2⟩+1", X)` does nothing. -/
example (X : F13) : setInner (f13 .symmetric) pt6 0 "⟨1|2⟩+1".toList X true 1 = some (.ok pt6) :=
  C93_unknown _ _ _ _ _ _ _ (by decide) (by rfl) ((C93_ignored _).mp (by decide +kernel))

end Lips

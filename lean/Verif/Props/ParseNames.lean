import Verif.Spec.Leaves
import Verif.Props.Patterns
import Verif.Props.SlotTexts

/-! C94: the names under which `_parse` hands over the invariants of an expression are ones `compute` reads. -/

namespace Lips

open Computability

/-- What an invariant is. -/
def Leaf.form : Leaf → Form
  | .two sq _ a b => if sq then .square a b else .angle a b
  | .mandel _ ds => .mandelstam ds
  | .omega ds => .omega ds
  | .pi ds => .pi ds
  | .tr5l ds => .tr5 ds
  | .tr5s s ss => .tr5 (['|'].intercalate ((s :: ss).map WSlot.body))
  | .trace s ss => .tr ((s :: ss).map WSlot.body)
  | .delta c cs => .delta (c :: cs)
  | .str o a ss b c => .string o [a] (ss.map WSlot.text) [b] c

theorem joined_eq (s : List Char) (ss : List (List Char)) : s ++ ss.flatMap (fun k => '|' :: k) = ['|'].intercalate (s :: ss) := by
  induction ss generalizing s with
  | nil => simp
  | cons u us ih => rw [List.intercalate_cons_cons, List.flatMap_cons, ← ih u]; simp

theorem joined_texts (s : WSlot) (ss : List WSlot) : s.text ++ joined ss = ['|'].intercalate ((s :: ss).map WSlot.text) := by
  rw [List.map_cons, ← joined_eq, joined, List.flatMap_map]

theorem digits_lang {ds : List Char} (h : Digits ds) : ds ∈ plus digitL :=
  (isDigits_lang ds).mp (by rw [isDigits_iff]; exact h)

theorem one_lang {c : Char} (h : c.isDigit = true) : [c] ∈ plus digitL := digits_lang ⟨by simp, by simpa using h⟩

theorem wbody_chars {s : WSlot} (h : s.Ok) : ∀ c ∈ s.body, c.isDigit = true ∨ c = '+' ∨ c = '-' := by
  intro c hc
  simp only [WSlot.body, List.mem_cons, List.mem_flatMap, List.not_mem_nil, or_false] at hc
  rcases hc with rfl | ⟨x, hx, rfl | rfl⟩
  · exact .inl h.1
  · have := (h.2.1 x hx).1
    simp only [List.mem_cons, List.not_mem_nil, or_false] at this
    exact .inr this
  · exact .inl (h.2.1 x hx).2

theorem wbody_bar {s : WSlot} (h : s.Ok) : '|' ∉ s.body := by
  intro hc
  rcases wbody_chars h _ hc with h | h | h
  · exact absurd h (by decide)
  · exact absurd h (by decide)
  · exact absurd h (by decide)

theorem plain_texts {s : WSlot} {ss : List WSlot} (h : ∀ x ∈ s :: ss, x.Ok ∧ x.par = false) :
    (s :: ss).map WSlot.text = (s :: ss).map WSlot.body :=
  List.map_congr_left fun x hx => by rw [WSlot.text, (h x hx).2]; rfl

theorem bodies_chars {s : WSlot} {ss : List WSlot} (h : ∀ x ∈ s :: ss, x.Ok ∧ x.par = false) :
    ['|'].intercalate ((s :: ss).map WSlot.body) ∈ plus (digitL + opL) := by
  refine (trChars_lang _).mp ⟨?_, ?_⟩
  · rw [List.map_cons, ← joined_eq, WSlot.body]; simp
  · rw [List.all_eq_true]
    intro c hc
    rw [List.map_cons, ← joined_eq, List.mem_append, List.mem_flatMap] at hc
    have key : ∀ x ∈ s :: ss, c ∈ x.body → (c.isDigit || isOp c) = true := by
      intro x hx hcx
      rcases wbody_chars (h x hx).1 c hcx with h | rfl | rfl
      · simp [h]
      · decide
      · decide
    rcases hc with hc | ⟨k, hk, hc⟩
    · exact key s (by simp) hc
    · obtain ⟨x, hx, rfl⟩ := List.mem_map.mp hk
      rcases List.mem_cons.mp hc with rfl | hc
      · decide
      · exact key x (by simp [hx]) hc

theorem plus_tr {m : List Char} (h : m ∈ plus (digitL + opL)) : m ∈ trLang := by
  rw [trLang]
  have h1 : m ∈ (ch '(' * plus (digitL + opL) * ch ')' + plus (digitL + opL)) := Or.inr h
  exact le_kstar (a := (ch '(' * plus (digitL + opL) * ch ')' + plus (digitL + opL))) h1

theorem pyStr_char {c : Char} (h : c.isDigit = true) : pyStr (c.toNat - 48) = [c] := by
  obtain ⟨h1, h2⟩ := digitChar_toNat h
  rw [pyStr_digit h1, h2]

/-- A slot with its labels as numbers. -/
def WSlot.nums (s : WSlot) : Bool × List (Bool × ℕ) :=
  (s.par, (true, s.d.toNat - 48) :: s.rest.map fun x => (decide (x.1 = '+'), x.2.toNat - 48))

theorem nums_text {s : WSlot} (h : s.Ok) : slotText s.nums = s.text := by
  have hb : slotBody s.nums.2 = s.body := by
    rw [WSlot.nums, slotBody, pyStr_char h.1, WSlot.body, List.flatMap_map]
    simp only [List.singleton_append, List.cons.injEq, true_and]
    obtain ⟨-, h2, -⟩ := h
    generalize s.rest = r at h2
    induction r with
    | nil => rfl
    | cons x r ih =>
      rw [List.flatMap_cons, List.flatMap_cons, ih fun y hy => h2 y (List.mem_cons_of_mem _ hy), pyStr_char (h2 x (by simp)).2]
      have := (h2 x (by simp)).1
      simp only [List.mem_cons, List.not_mem_nil, or_false] at this
      rcases this with e | e <;> simp [e]
  rw [slotText, hb, WSlot.text]
  rfl

/-- C94: the name of an invariant is read by `compute` as this invariant. -/
theorem C94_names {l : Leaf} (h : l.Ok) : ReadsAs l.name l.form := by
  cases l with
  | two sq bar a b =>
    have ha := digits_lang h.1
    have hb := digits_lang h.2.1
    cases sq
    · have := ReadsAs.angle (o := '⟨') (c := '⟩') (by simp) (by simp) ha hb
      simpa [Leaf.name, Leaf.form, openBr, closeBr] using this
    · have := ReadsAs.square ha hb
      simpa [Leaf.name, Leaf.form, openBr, closeBr] using this
  | mandel pre ds => exact ReadsAs.mandelstam (c := 's') (us := ['_']) (by simp) (by simp) (digits_lang h.2)
  | omega ds => exact .omega (digits_lang h)
  | pi ds => exact .pi (digits_lang h)
  | tr5l ds => exact .tr5Labels (digits_lang h)
  | tr5s s ss =>
    rw [Leaf.name, Leaf.form, List.append_assoc "tr5(".toList, joined_texts, plain_texts h, List.append_assoc]
    exact .tr5 (bodies_chars h)
  | trace s ss =>
    have hm := bodies_chars h
    have := ReadsAs.tr (plus_tr hm)
    rw [Leaf.name, Leaf.form, List.append_assoc "tr(".toList, joined_texts, plain_texts h, List.append_assoc]
    rw [List.filter_eq_self.mpr, List.splitOn_intercalate] at this
    · exact this
    · intro t ht
      obtain ⟨x, hx, rfl⟩ := List.mem_map.mp ht
      exact wbody_bar (h x hx).1
    · simp
    · intro c hc
      have hcc := (List.all_eq_true.mp ((trChars_lang _).mpr hm).2) c hc
      have hne : c ≠ '(' ∧ c ≠ ')' := by
        constructor <;> rintro rfl <;> exact absurd hcc (by decide)
      simp [hne]
  | delta c cs =>
    rw [Leaf.name, Leaf.form, List.append_assoc, joined_eq]
    exact .delta (by simp) fun k hk => digits_lang (h.2 k hk).1
  | str o a ss b c =>
    obtain ⟨ho, hc, ha, hb, hne, hs⟩ := h
    have hmap : (ss.map WSlot.nums).map slotText = ss.map WSlot.text := by
      rw [List.map_map]
      exact List.map_congr_left fun s hss => nums_text (hs s hss)
    have hm := matchNB_text o (a.toNat - 48) (ss.map WSlot.nums) (b.toNat - 48) c
      (by revert ho; simp; rintro (rfl | rfl) <;> simp) (by revert hc; simp; rintro (rfl | rfl) <;> simp) (by simpa using hne)
      (by intro s hs'; obtain ⟨x, -, rfl⟩ := List.mem_map.mp hs'; simp [WSlot.nums])
    rw [pyStr_char ha, pyStr_char hb, hmap] at hm
    have ht : stringText o (a.toNat - 48) (ss.map WSlot.nums) (b.toNat - 48) c = Leaf.name (.str o a ss b c) := by
      rw [stringText, hmap, pyStr_char ha, pyStr_char hb, ← joined_eq, Leaf.name, joined, List.flatMap_append, List.flatMap_map]
      simp
    rw [ht] at hm
    rw [reads_iff, Leaf.form]
    simp only [Form.tag, formOf, hm, Option.map_some]

end Lips

import Verif.Lemmas.RenameText
import Verif.Props.RelabelText
import Verif.Props.Parse

/-!
C126 for expressions as they are written: with the labels of its invariants renamed an expression has, on the image of a point, the
value the expression itself has on the point.
-/

namespace Lips

variable {K : Type*} [Field K] {n : ℕ}

theorem WSlot.body_relabel {m : Char → Char} (h : DigitMap m) {s : WSlot} (hs : s.Ok) : (s.relabel m).body = s.body.map m := by
  unfold WSlot.body WSlot.relabel
  rw [List.map_cons, List.map_flatMap, List.flatMap_map]
  congr 1
  refine List.flatMap_congr fun x hx => ?_
  have h1 : m x.1 = x.1 := h.other _ (by rcases List.mem_pair.1 (hs.2.1 x hx).1 with e | e <;> rw [e] <;> decide)
  simp only [List.map_cons, List.map_nil, h1]

theorem WSlot.text_relabel {m : Char → Char} (h : DigitMap m) {s : WSlot} (hs : s.Ok) : (s.relabel m).text = s.text.map m := by
  unfold WSlot.text
  rw [show (s.relabel m).par = s.par from rfl, WSlot.body_relabel h hs]
  have h1 : m '(' = '(' := h.other _ (by decide)
  have h2 : m ')' = ')' := h.other _ (by decide)
  split <;> simp [h1, h2]

theorem joined_relabel {m : Char → Char} (h : DigitMap m) {ss : List WSlot} (hs : ∀ s ∈ ss, s.Ok) :
    joined (ss.map (WSlot.relabel m)) = (joined ss).map m := by
  unfold joined
  rw [List.map_flatMap, List.flatMap_map]
  refine List.flatMap_congr fun s hm => ?_
  have h1 : m '|' = '|' := h.other _ (by decide)
  simp only [List.map_cons, h1, WSlot.text_relabel h (hs s hm)]

theorem WSlot.ok_relabel {m : Char → Char} (h : DigitMap m) {s : WSlot} (hs : s.Ok) : (s.relabel m).Ok := by
  refine ⟨h.digit _ hs.1, ?_, fun hp e => hs.2.2 hp (List.map_eq_nil_iff.1 e)⟩
  intro x hx
  obtain ⟨y, hy, rfl⟩ := List.mem_map.1 hx
  exact ⟨(hs.2.1 y hy).1, h.digit _ (hs.2.1 y hy).2⟩

theorem digits_relabel {m : Char → Char} (h : DigitMap m) {ds : List Char} (hd : Digits ds) : Digits (ds.map m) := by
  refine ⟨fun e => hd.1 (List.map_eq_nil_iff.1 e), ?_⟩
  intro c hc
  obtain ⟨d, hd', rfl⟩ := List.mem_map.1 hc
  exact h.digit _ (hd.2 d hd')

theorem Leaf.ok_relabel {m : Char → Char} (h : DigitMap m) {l : Leaf} (hl : l.Ok) : (l.relabel m).Ok := by
  cases l with
  | two sq bar a b => exact ⟨digits_relabel h hl.1, digits_relabel h hl.2.1, fun e => by simpa using hl.2.2 e⟩
  | mandel pre ds => exact ⟨hl.1, digits_relabel h hl.2⟩
  | omega ds => exact digits_relabel h hl
  | pi ds => exact digits_relabel h hl
  | tr5l ds => exact digits_relabel h hl
  | tr5s s ss =>
    intro x hx
    rw [← List.map_cons (f := WSlot.relabel m)] at hx
    obtain ⟨y, hy, rfl⟩ := List.mem_map.1 hx
    exact ⟨WSlot.ok_relabel h (hl y hy).1, (hl y hy).2⟩
  | trace s ss =>
    intro x hx
    rw [← List.map_cons (f := WSlot.relabel m)] at hx
    obtain ⟨y, hy, rfl⟩ := List.mem_map.1 hx
    exact ⟨WSlot.ok_relabel h (hl y hy).1, (hl y hy).2⟩
  | delta c cs =>
    refine ⟨fun e => hl.1 (List.map_eq_nil_iff.1 e), ?_⟩
    intro x hx
    rw [← List.map_cons (f := List.map m)] at hx
    obtain ⟨y, hy, rfl⟩ := List.mem_map.1 hx
    exact ⟨digits_relabel h (hl.2 y hy).1, by rw [List.length_map]; exact (hl.2 y hy).2⟩
  | str o a ss b c =>
    obtain ⟨h1, h2, h3, h4, h5, h6⟩ := hl
    refine ⟨h1, h2, h.digit _ h3, h.digit _ h4, fun e => h5 (List.map_eq_nil_iff.1 e), ?_⟩
    intro x hx
    obtain ⟨y, hy, rfl⟩ := List.mem_map.1 hx
    exact WSlot.ok_relabel h (h6 y hy)

/-- The name of a renamed invariant is the renamed name. -/
theorem Leaf.name_relabel (hn : n ≤ 9) (σ : Equiv.Perm (Fin n)) {l : Leaf} (hl : l.Ok) : (l.relabel (relabelChar σ)).name = relabelName σ l.name := by
  have h := relabelChar_map hn σ
  have hk : ∀ c : Char, c.isDigit = false → relabelChar σ c = c := h.other
  have plain : ∀ t : List Char, "tr".toList.isPrefixOf t = false → isMassName t = false → relabelName σ t = t.map (relabelChar σ) := by
    intro t h1 h2
    unfold relabelName
    rw [h1, h2]; rfl
  cases l with
  | two sq bar a b =>
    rw [plain _ (by cases sq <;> rfl) (by cases sq <;> rfl)]
    cases sq <;> simp [Leaf.relabel, Leaf.name, openBr, closeBr, hk]
  | mandel pre ds =>
    rw [plain _ rfl rfl]
    simp [Leaf.relabel, Leaf.name, hk]
  | omega ds =>
    rw [plain _ rfl rfl]
    simp [Leaf.relabel, Leaf.name, hk]
  | pi ds =>
    rw [plain _ rfl rfl]
    simp [Leaf.relabel, Leaf.name, hk]
  | tr5l ds =>
    have e : relabelName σ (Leaf.tr5l ds).name = "tr5".toList ++ ('_' :: ds).map (relabelChar σ) := rfl
    rw [e]
    simp [Leaf.relabel, Leaf.name, hk]
  | tr5s s ss =>
    have hs := fun x hx => (hl x hx).1
    have e : relabelName σ (Leaf.tr5s s ss).name = "tr5".toList ++ ('(' :: (s.text ++ joined ss ++ [')'])).map (relabelChar σ) := rfl
    rw [e]
    simp [Leaf.relabel, Leaf.name, hk, WSlot.text_relabel h (hs s List.mem_cons_self), joined_relabel h fun x hx => hs x (List.mem_cons_of_mem _ hx)]
  | trace s ss =>
    have hs := fun x hx => (hl x hx).1
    have e : relabelName σ (Leaf.trace s ss).name = "tr(".toList ++ (s.text ++ joined ss ++ [')']).map (relabelChar σ) := rfl
    rw [e]
    simp [Leaf.relabel, Leaf.name, hk, WSlot.text_relabel h (hs s List.mem_cons_self), joined_relabel h fun x hx => hs x (List.mem_cons_of_mem _ hx)]
  | delta c cs =>
    rw [plain _ rfl rfl]
    simp [Leaf.relabel, Leaf.name, hk, List.map_flatMap, List.flatMap_map]
  | str o a ss b c =>
    obtain ⟨h1, h2, h3, h4, h5, h6⟩ := hl
    have ho : relabelChar σ o = o := hk o (by rcases List.mem_pair.1 h1 with e | e <;> rw [e] <;> decide)
    have hc : relabelChar σ c = c := hk c (by rcases List.mem_pair.1 h2 with e | e <;> rw [e] <;> decide)
    rw [plain _ (by rcases List.mem_pair.1 h1 with e | e <;> rw [e] <;> rfl) (by rcases List.mem_pair.1 h1 with e | e <;> rw [e] <;> rfl)]
    simp [Leaf.relabel, Leaf.name, ho, hc, hk, joined_relabel h h6]

theorem Leaf.not_shorthand {l : Leaf} (hl : l.Ok) (hs : l.shorthand = false) : ¬ Shorthand l.name := by
  cases l with
  | two sq bar a b => rintro (h | h | h | ⟨h, -⟩) <;> revert h <;> cases sq <;> simp [Leaf.name, openBr]
  | mandel pre ds => rintro (h | h | h | ⟨h, -⟩) <;> revert h <;> simp [Leaf.name]
  | omega ds => cases hs
  | pi ds => cases hs
  | tr5l ds => rintro (h | h | h | ⟨h, -⟩) <;> revert h <;> simp [Leaf.name]
  | tr5s s ss => rintro (h | h | h | ⟨h, -⟩) <;> revert h <;> simp [Leaf.name]
  | trace s ss => rintro (h | h | h | ⟨h, -⟩) <;> revert h <;> simp [Leaf.name]
  | delta c cs =>
    obtain ⟨k, ks, rfl⟩ := List.exists_cons_of_ne_nil hl.1
    rintro (h | h | h | ⟨-, h⟩) <;> revert h <;> simp [Leaf.name]
  | str o a ss b c => rintro (h | h | h | ⟨h, -⟩) <;> revert h <;> rcases List.mem_pair.1 hl.1 with e | e <;> simp [Leaf.name, e]

theorem Expression.relabel {m : Char → Char} (h : DigitMap m) {ts : List WTok} (he : Expression ts) : Expression (ts.map (WTok.relabel m)) := by
  refine ⟨?_, ?_⟩
  · intro t ht
    obtain ⟨u, hu, rfl⟩ := List.mem_map.1 ht
    have := he.1 u hu
    cases u with
    | ch c => exact this
    | leaf l => exact Leaf.ok_relabel h this
  · have e : (ts.map (WTok.relabel m)).filter (fun t => !t.blank) = (ts.filter fun t => !t.blank).map (WTok.relabel m) := by
      rw [List.filter_map]
      congr 1
      refine List.filter_congr fun t _ => ?_
      cases t <;> rfl
    rw [e, List.isChain_map]
    refine he.2.imp ?_
    intro a b hab
    cases a with
    | ch c => trivial
    | leaf l =>
      cases b with
      | leaf k => trivial
      | ch c =>
        intro ho
        refine hab ?_
        cases l <;> first | rfl | exact ho

/-- C126: an expression as it is written, with the labels of its invariants renamed. -/
theorem C126_written (hn : n ≤ 9) (ps : Point K n) (σ : Equiv.Perm (Fin n)) (fuel : ℕ) {ts : List WTok} (h : Expression ts)
    (hs : ∀ l, .leaf l ∈ ts → l.shorthand = false) :
    evalChars (leafNum (moved ps σ) fuel) (exprText (ts.map (WTok.relabel (relabelChar σ)))) = evalChars (leafNum ps fuel) (exprText ts) := by
  rw [C94_eval _ h, C94_eval _ (h.relabel (relabelChar_map hn σ))]
  have e : (ts.map (WTok.relabel (relabelChar σ))).map WTok.sym = (ts.map WTok.sym).map (Sym.rename (relabelName σ)) := by
    rw [List.map_map, List.map_map]
    refine List.map_congr_left fun t ht => ?_
    cases t with
    | ch c => rfl
    | leaf l => exact congrArg Sym.leaf (Leaf.name_relabel hn σ (h.1 _ ht))
  rw [e, evalText_rename (leaf := leafNum ps fuel)]
  intro i hi
  obtain ⟨t, ht, hti⟩ := List.mem_map.1 hi
  cases t with
  | ch c => cases hti
  | leaf l =>
    injection hti with hti
    subst hti
    have hl : l.Ok := h.1 _ ht
    unfold leafNum
    rw [C126_names hn ps σ fuel _ (name_plain hl) (Leaf.not_shorthand hl (hs l ht))]

/-- C126: so does the call of the point with it. -/
theorem C126_call (hn : n ≤ 9) (ps : Point K n) (σ : Equiv.Perm (Fin n)) (fuel : ℕ) {ts : List WTok} (h : Expression ts)
    (hs : ∀ l, .leaf l ∈ ts → l.shorthand = false) (hx : classify (exprText ts) = .expression)
    (hx' : classify (exprText (ts.map (WTok.relabel (relabelChar σ)))) = .expression) :
    callText (moved ps σ) fuel (exprText (ts.map (WTok.relabel (relabelChar σ)))) = callText ps fuel (exprText ts) ∧
    callNumber (moved ps σ) fuel (exprText (ts.map (WTok.relabel (relabelChar σ)))) = callNumber ps fuel (exprText ts) := by
  have key : callText (moved ps σ) fuel (exprText (ts.map (WTok.relabel (relabelChar σ)))) = callText ps fuel (exprText ts) := by
    unfold callText
    rw [rsubs_plain _ (expr_plain h), rsubs_plain _ (expr_plain (h.relabel (relabelChar_map hn σ)))]
    simp only [hx, hx', if_true, C126_written hn ps σ fuel h hs]
  refine ⟨key, ?_⟩
  unfold callNumber
  rw [key]

end Lips

import Verif.Lemmas.ParseStars

/-! Products left out, on the parts of an expression. -/

namespace Lips

open RE

/-- A product sign between neighbours of a kind. -/
def insTok (P : WTok → WTok → Bool) : List WTok → List WTok
  | [] => []
  | [x] => [x]
  | x :: y :: s => if P x y then x :: .ch '*' :: insTok P (y :: s) else x :: insTok P (y :: s)

theorem insTok_cons (P : WTok → WTok → Bool) (x y : WTok) (s : List WTok) :
    insTok P (x :: y :: s) = x :: ((if P x y then [WTok.ch '*'] else []) ++ insTok P (y :: s)) := by
  rw [insTok]
  split <;> simp

theorem insTok_head (P : WTok → WTok → Bool) (x : WTok) (s : List WTok) : ∃ u, insTok P (x :: s) = x :: u := by
  rcases s with _ | ⟨y, s⟩
  · exact ⟨[], rfl⟩
  · exact ⟨_, insTok_cons P x y s⟩

theorem mem_insTok {P : WTok → WTok → Bool} {ts : List WTok} {t : WTok} (h : t ∈ insTok P ts) : t ∈ ts ∨ t = .ch '*' := by
  induction ts with
  | nil => simp [insTok] at h
  | cons x ts ih =>
    rcases ts with _ | ⟨y, ts⟩
    · exact .inl h
    · rw [insTok_cons, List.mem_cons, List.mem_append] at h
      rcases h with rfl | h | h
      · simp
      · split at h
        · right; simpa using h
        · simp at h
      · rcases ih h with h | h
        · exact .inl (List.mem_cons_of_mem _ h)
        · exact .inr h

theorem chain_insTok {P : WTok → WTok → Bool} {ts : List WTok} (h : ts.IsChain WTok.Apart) : (insTok P ts).IsChain WTok.Apart := by
  induction ts with
  | nil => exact h
  | cons x ts ih =>
    rcases ts with _ | ⟨y, ts⟩
    · exact h
    · rw [List.isChain_cons_cons] at h
      have hi := ih h.2
      obtain ⟨u, hu⟩ := insTok_head P y ts
      rw [insTok_cons]
      rw [hu] at hi ⊢
      split
      · rw [List.singleton_append, List.isChain_cons_cons, List.isChain_cons_cons]
        refine ⟨?_, trivial, hi⟩
        cases x with
        | ch c => trivial
        | leaf l => exact fun _ => by decide
      · rw [List.nil_append, List.isChain_cons_cons]
        exact ⟨h.1, hi⟩

theorem good_insTok {P : WTok → WTok → Bool} {ts : List WTok} (h : GoodToks ts) : GoodToks (insTok P ts) := by
  refine ⟨fun t ht => ?_, chain_insTok h.2⟩
  rcases mem_insTok ht with h' | rfl
  · exact h.1 t h'
  · exact (by decide : '*' ∈ rawChars)

/-- Signs put in one after the other are put in at once. -/
theorem insTok_insTok {P Q : WTok → WTok → Bool} (h1 : ∀ x, P x (.ch '*') = false) (h2 : ∀ y, P (.ch '*') y = false) (ts : List WTok) :
    insTok P (insTok Q ts) = insTok (fun x y => P x y || Q x y) ts := by
  induction ts with
  | nil => rfl
  | cons x ts ih =>
    rcases ts with _ | ⟨y, ts⟩
    · rfl
    · rw [insTok_cons, insTok_cons, ← ih]
      obtain ⟨u, hu⟩ := insTok_head Q y ts
      rw [hu]
      cases hQ : Q x y
      · simp only [Bool.false_eq_true, if_false, List.nil_append, Bool.or_false]
        rw [insTok_cons]
      · simp only [if_true, List.singleton_append, Bool.or_true]
        rw [insTok_cons, h1, insTok_cons, h2]
        simp

theorem insTok_congr {P Q : WTok → WTok → Bool} {ts : List WTok} (h : ∀ x ∈ ts, ∀ y ∈ ts, P x y = Q x y) : insTok P ts = insTok Q ts := by
  induction ts with
  | nil => rfl
  | cons x ts ih =>
    rcases ts with _ | ⟨y, ts⟩
    · rfl
    · rw [insTok_cons, insTok_cons, h x (by simp) y (by simp), ih fun a ha b hb => h a (List.mem_cons_of_mem _ ha) b (List.mem_cons_of_mem _ hb)]

/-! ### Before `oPs` -/

def WTok.endsAl : WTok → Bool
  | .ch c => isAlnum c
  | .leaf l => decide (5 < l.stage) && l.open

def WTok.beginsO : WTok → Bool
  | .ch _ => false
  | .leaf l => decide (l.stage ≤ 5)

theorem name_no {l : Leaf} (h : l.Ok) {c : Char} (hc : c ∉ "0123456789⟨|⟩[]sS_ΩΠtr5()+-Δ".toList) : c ∉ l.text ∧ c ∉ l.name := by
  have key : ∀ t ∈ ["⟨|⟩", "[|]", "sS_", "Ω_", "Π_", "tr5_", "tr5(|+-)", "tr(|+-)", "Δ_|", "|()+-", "⟨[", "⟩]", "0123456789"],
      ∀ x ∈ t.toList, x ∈ "0123456789⟨|⟩[]sS_ΩΠtr5()+-Δ".toList := by decide
  have hal : ∀ x ∈ l.alphabet, x ∈ "0123456789⟨|⟩[]sS_ΩΠtr5()+-Δ".toList := by
    cases l with
    | two sq bar a b =>
      cases sq
      · exact key "⟨|⟩" (by simp)
      · exact key "[|]" (by simp)
    | str o a ss b c =>
      obtain ⟨ho, hc, -⟩ := h
      intro x hx
      rcases List.mem_cons.mp hx with rfl | hx
      · exact key "⟨[" (by simp) _ ho
      · rcases List.mem_cons.mp hx with rfl | hx
        · exact key "⟩]" (by simp) _ hc
        · exact key "|()+-" (by simp) _ hx
    | mandel p ds => exact key "sS_" (by simp)
    | omega ds => exact key "Ω_" (by simp)
    | pi ds => exact key "Π_" (by simp)
    | tr5l ds => exact key "tr5_" (by simp)
    | tr5s s ss => exact key "tr5(|+-)" (by simp)
    | trace s ss => exact key "tr(|+-)" (by simp)
    | delta c cs => exact key "Δ_|" (by simp)
  have hall : c ∉ l.text ++ l.name := by
    intro hx
    apply hc
    rcases text_name_only h c hx with h' | h'
    · exact key "0123456789" (by simp) c (digit_mem h')
    · exact hal c h'
  exact ⟨fun hx => hall (List.mem_append_left _ hx), fun hx => hall (List.mem_append_right _ hx)⟩

theorem getLast_digits {w ds : List Char} (h : Digits ds) : ∃ c, (w ++ ds).getLast? = some c ∧ c.isDigit = true := by
  refine ⟨ds.getLast h.1, ?_, h.2 _ (List.getLast_mem _)⟩
  rw [List.getLast?_append, List.getLast?_eq_some_getLast h.1]
  rfl

/-- How the text of an invariant that has not been found ends. -/
theorem text_last {l : Leaf} (h : l.Ok) : ∃ c, l.text.getLast? = some c ∧ isAlnum c = l.open ∧ (l.open = true → c.isDigit = true) ∧
    (l.open = false → c ∈ "⟩])".toList) := by
  have dig : ∀ c : Char, c.isDigit = true → isAlnum c = true := fun c hc => by simp [isAlnum, hc]
  cases l with
  | two sq bar a b =>
    refine ⟨closeBr sq, List.getLast?_concat, ?_, by simp [Leaf.open], ?_⟩
    · cases sq <;> rfl
    · cases sq <;> exact fun _ => by decide
  | mandel p ds => obtain ⟨c, h1, h2⟩ := getLast_digits (w := p) h.2; exact ⟨c, h1, dig c h2, fun _ => h2, by simp [Leaf.open]⟩
  | omega ds => obtain ⟨c, h1, h2⟩ := getLast_digits (w := "Ω_".toList) h; exact ⟨c, h1, dig c h2, fun _ => h2, by simp [Leaf.open]⟩
  | pi ds => obtain ⟨c, h1, h2⟩ := getLast_digits (w := "Π_".toList) h; exact ⟨c, h1, dig c h2, fun _ => h2, by simp [Leaf.open]⟩
  | tr5l ds => obtain ⟨c, h1, h2⟩ := getLast_digits (w := "tr5_".toList) h; exact ⟨c, h1, dig c h2, fun _ => h2, by simp [Leaf.open]⟩
  | tr5s s ss => exact ⟨')', List.getLast?_concat, rfl, by simp [Leaf.open], fun _ => by decide⟩
  | trace s ss => exact ⟨')', List.getLast?_concat, rfl, by simp [Leaf.open], fun _ => by decide⟩
  | delta c cs =>
    obtain ⟨hne, hd⟩ := h
    obtain ⟨k, hk⟩ : ∃ k, cs.getLast? = some k := ⟨cs.getLast hne, List.getLast?_eq_some_getLast hne⟩
    obtain ⟨cs', rfl⟩ := List.getLast?_eq_some_iff.mp hk
    obtain ⟨x, h1, h2⟩ := getLast_digits (w := "Δ_".toList ++ c ++ cs'.flatMap (fun k => '|' :: k) ++ ['|']) (hd k (by simp)).1
    refine ⟨x, ?_, dig x h2, fun _ => h2, by simp [Leaf.open]⟩
    rw [← h1]
    congr 1
    simp [Leaf.text, Leaf.name]
  | str o a ss b c =>
    obtain ⟨-, hc, -⟩ := h
    refine ⟨c, ?_, ?_, by simp [Leaf.open], fun _ => (by decide : ∀ x ∈ ['⟩', ']'], x ∈ "⟩])".toList) c hc⟩
    · change (o :: a :: (joined ss ++ ['|', b, c])).getLast? = some c
      have : o :: a :: (joined ss ++ ['|', b, c]) = (o :: a :: joined ss ++ ['|', b]) ++ [c] := by simp
      rw [this, List.getLast?_append]
      rfl
    · exact (by decide : ∀ x ∈ ['⟩', ']'], isAlnum x = false) c hc

theorem shown5 {l : Leaf} : (l.stage ≤ 5 ∧ l.shown 5 = wrap l.name) ∨ (5 < l.stage ∧ l.shown 5 = l.text) := by
  cases l with
  | two sq bar a b => cases sq <;> exact .inl ⟨by simp [Leaf.stage], rfl⟩
  | mandel p ds => exact .inl ⟨by simp [Leaf.stage], rfl⟩
  | _ => exact .inr ⟨by simp [Leaf.stage], rfl⟩

theorem wrap_cons (n : List Char) : wrap n = 'o' :: 'P' :: 's' :: '(' :: ('\'' :: (n ++ ['\'', ')'])) := rfl

theorem wrap_last (n : List Char) : (wrap n).getLast? = some ')' := by
  have : wrap n = ("oPs('".toList ++ n ++ ['\'']) ++ [')'] := by simp [wrap]
  rw [this, List.getLast?_concat]

theorem starO_shown {t : WTok} (h : t.Ok) (b : Bool) :
    starO b (t.shown 5) = (if b && t.beginsO then ['*'] else []) ++ t.shown 5 ∧ lastAl b (t.shown 5) = t.endsAl := by
  cases t with
  | ch c =>
    have hc : c ≠ 'o' := by rintro rfl; exact absurd h (by decide : 'o' ∉ rawChars)
    exact ⟨by simp [WTok.shown, starO, hc, WTok.beginsO], rfl⟩
  | leaf l =>
    change starO b (l.shown 5) = _ ++ l.shown 5 ∧ lastAl b (l.shown 5) = _
    rcases shown5 (l := l) with ⟨h1, h2⟩ | ⟨h1, h2⟩
    · have h3 : (WTok.leaf l).beginsO = true := by simpa [WTok.beginsO] using h1
      have h4 : (WTok.leaf l).endsAl = false := by simp only [WTok.endsAl]; rw [show decide (5 < l.stage) = false by simpa using h1]; rfl
      have ho : 'o' ∉ 'P' :: 's' :: '(' :: ('\'' :: (l.name ++ ['\'', ')'])) := by
        have := (name_no h (c := 'o') (by decide)).2
        simp [this]
      rw [h2, h3, h4]
      constructor
      · rw [wrap_cons, starO, starO_none _ ho]
        cases b <;> rfl
      · unfold lastAl
        rw [wrap_last]
        rfl
    · have h3 : (WTok.leaf l).beginsO = false := by simpa [WTok.beginsO] using h1
      have h4 : (WTok.leaf l).endsAl = l.open := by simp only [WTok.endsAl]; rw [show decide (5 < l.stage) = true by simpa using h1]; rfl
      rw [h2, h3, h4]
      constructor
      · rw [starO_none _ (name_no h (c := 'o') (by decide)).1]
        simp
      · obtain ⟨c, h5, h6, -⟩ := text_last h
        unfold lastAl
        rw [h5]
        exact h6

theorem starO_tokens (ts : List WTok) (h : ∀ t ∈ ts, t.Ok) :
    starO false (shownAll 5 ts) = shownAll 5 (insTok (fun x y => x.endsAl && y.beginsO) ts) := by
  have gen : ∀ (ts : List WTok) (t : WTok) (b : Bool), (∀ x ∈ t :: ts, x.Ok) → starO b (shownAll 5 (t :: ts)) =
      (if b && t.beginsO then ['*'] else []) ++ shownAll 5 (insTok (fun x y => x.endsAl && y.beginsO) (t :: ts)) := by
    intro ts
    induction ts with
    | nil =>
      intro t b h
      have := (starO_shown (h t (by simp)) b).1
      simpa [shownAll, insTok] using this
    | cons u ts ih =>
      intro t b h
      obtain ⟨h1, h2⟩ := starO_shown (h t (by simp)) b
      have e : shownAll 5 (t :: u :: ts) = t.shown 5 ++ shownAll 5 (u :: ts) := by simp [shownAll]
      rw [e, starO_append, h1, h2, ih u _ fun x hx => h x (List.mem_cons_of_mem _ hx), insTok_cons]
      simp only [shownAll, List.flatMap_cons, List.flatMap_append, List.append_assoc]
      congr 2
      split <;> simp [WTok.shown]
  rcases ts with _ | ⟨t, ts⟩
  · rfl
  · simpa using gen ts t false h

theorem OPs_append {a b : List Char} (ha : OPs a) (hb : OPs b) : OPs (a ++ b) := by
  intro p q h
  rcases List.append_eq_append_iff.mp h with ⟨c, rfl, h2⟩ | ⟨c, h1, h2⟩
  · exact hb _ _ h2
  · rcases c with _ | ⟨x, c⟩
    · exact hb [] q (by simpa using h2.symm)
    · simp only [List.cons_append, List.cons.injEq] at h2
      obtain ⟨rfl, h2⟩ := h2
      obtain ⟨q', h3⟩ := ha _ _ h1
      exact ⟨q' ++ b, by rw [h2, h3]; rfl⟩

theorem OPs_none {a : List Char} (h : 'o' ∉ a) : OPs a := fun p q e => absurd (by rw [e]; simp) h

theorem OPs_tokens {ts : List WTok} (h : ∀ t ∈ ts, t.Ok) : OPs (shownAll 5 ts) := by
  induction ts with
  | nil => exact OPs_none (by simp [shownAll])
  | cons t ts ih =>
    have e : shownAll 5 (t :: ts) = t.shown 5 ++ shownAll 5 ts := by simp [shownAll]
    rw [e]
    refine OPs_append ?_ (ih fun x hx => h x (by simp [hx]))
    have ht := h t (by simp)
    cases t with
    | ch c =>
      apply OPs_none
      simp only [WTok.shown, List.mem_singleton]
      rintro rfl
      exact absurd ht (by decide : 'o' ∉ rawChars)
    | leaf l =>
      change OPs (l.shown 5)
      rcases shown5 (l := l) with ⟨h1, h2⟩ | ⟨h1, h2⟩
      · rw [h2, wrap_cons]
        have ho : 'o' ∉ 'P' :: 's' :: '(' :: ('\'' :: (l.name ++ ['\'', ')'])) := by
          have := (name_no (l := l) ht (c := 'o') (by decide)).2
          simp [this]
        intro p q e
        rcases p with _ | ⟨x, p⟩
        · simp only [List.nil_append, List.cons.injEq, true_and] at e
          exact ⟨_, e.symm⟩
        · simp only [List.cons_append, List.cons.injEq] at e
          exact absurd (by rw [e.2]; simp) ho
      · rw [h2]
        exact OPs_none (name_no ht (c := 'o') (by decide)).1

/-- Lines 130-145: the invariants are found, and products before some of them. -/
theorem names_pass {ts : List WTok} (h : GoodToks ts) :
    runPasses passesNames (shownAll 0 ts) = shownAll 11 (insTok (fun x y => x.endsAl && y.beginsO) ts) := by
  have hg := good_insTok (P := fun x y => x.endsAl && y.beginsO) h
  have h22 := sub_beforeO _ (shownAll 5 ts) [] le_rfl (OPs_tokens h.1)
  rw [starO_tokens ts h.1] at h22
  simp only [runPasses, passesNames, List.foldl_cons, List.foldl_nil]
  rw [pass_tokens (by decide) steps_A2bis ts h, pass_tokens (by decide) steps_A2 ts h, pass_tokens (by decide) steps_S2bis ts h,
    pass_tokens (by decide) steps_S2 ts h, pass_tokens (by decide) steps_Sijk ts h,
    sub_absent (r := eMi) (by decide) (shownAll_chars h.1 5)]
  change eNB.sub wrap 0 [] (eDnon.sub wrap 0 [] (eDadj.sub wrap 0 [] (etr.sub wrap 0 [] (etr5.sub wrap 0 [] (ePijk.sub wrap 0 [] (eOijk.sub wrap 0 []
    (eMVar.sub wrap 0 [] (eBeforeO.sub (fun m => m.take (m.length - 3) ++ "*oPs".toList) 0 [] (shownAll 5 ts))))))))) = _
  rw [h22, sub_absent (r := eMVar) (by decide) (shownAll_chars hg.1 5), pass_tokens (by decide) steps_O _ hg, pass_tokens (by decide) steps_P _ hg,
    pass_tokens (by decide) steps_tr5 _ hg, pass_tokens (by decide) steps_tr _ hg, pass_tokens (by decide) steps_Dadj _ hg,
    pass_tokens (by decide) steps_Dnon _ hg, pass_tokens (by decide) steps_NB _ hg]

end Lips

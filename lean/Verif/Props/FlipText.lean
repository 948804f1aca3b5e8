import Verif.Lemmas.SubstText
import Verif.Spec.Flip
import Verif.Props.Relabel
import Verif.Props.RelabelWritten
import Verif.Props.LorentzText

/-!
C127: on the point with angle and square brackets exchanged, an expression has the value the expression with its brackets exchanged
has on the point.
-/

namespace Lips

variable {K : Type*} [Field K] {n : ℕ}

/-! ### Names -/

/-- `flip` on names. -/
def flipName (t : List Char) : List Char :=
  if "tr(".toList.isPrefixOf t then "tr(".toList ++ ['|'].intercalate (((t.drop 3).dropLast.splitOn '|').rotate 1) ++ [')']
  else t.map flipChar

/-- `odd` on names. -/
def oddName (t : List Char) : Bool :=
  (t.head? = some '⟨' && t.getLast? = some '⟩') || (t.head? = some '[' && t.getLast? = some ']') || "tr5".toList.isPrefixOf t

theorem oddName_ends {o : Char} (ho : o ∈ ['⟨', '[']) (u : List Char) (e : Char) (he : e ∈ ['⟩', ']']) :
    oddName (o :: (u ++ [e])) = (decide (o = '⟨') == decide (e = '⟩')) := by
  have h : (o :: (u ++ [e])).getLast? = some e := by rw [← List.cons_append]; exact List.getLast?_concat
  unfold oddName
  rw [h, List.head?_cons]
  rcases List.mem_pair.1 ho with rfl | rfl <;> rcases List.mem_pair.1 he with rfl | rfl <;> rfl

theorem flipChar_digit {c : Char} (h : c.isDigit = true) : flipChar c = c := by
  have : c ≠ '⟨' ∧ c ≠ '[' ∧ c ≠ '⟩' ∧ c ≠ ']' := ⟨by rintro rfl; exact absurd h (by decide), by rintro rfl; exact absurd h (by decide),
    by rintro rfl; exact absurd h (by decide), by rintro rfl; exact absurd h (by decide)⟩
  simp [flipChar, this]

theorem map_flip {t : List Char} (h : ∀ c ∈ t, c ∉ ['⟨', '[', '⟩', ']']) : t.map flipChar = t := by
  refine (List.map_congr_left (g := id) fun c hc => ?_).trans (List.map_id t)
  have := h c hc
  simp only [List.mem_cons, List.not_mem_nil, or_false, not_or] at this
  simp [flipChar, this]

theorem digits_noBracket {ds : List Char} (h : ∀ c ∈ ds, c.isDigit = true) : ∀ c ∈ ds, c ∉ ['⟨', '[', '⟩', ']'] := by
  intro c hc hm
  have := h c hc
  simp only [List.mem_cons, List.not_mem_nil, or_false] at hm
  rcases hm with rfl | rfl | rfl | rfl <;> exact absurd this (by decide)

theorem wtext_noBracket {s : WSlot} (h : s.Ok) : ∀ c ∈ s.text, c ∉ ['⟨', '[', '⟩', ']'] := by
  have hb : ∀ c ∈ s.body, c ∉ ['⟨', '[', '⟩', ']'] := by
    intro c hc
    rcases wbody_chars h c hc with e | rfl | rfl
    · exact digits_noBracket (ds := [c]) (by simpa using e) c (by simp)
    · decide
    · decide
  intro c hc
  unfold WSlot.text at hc
  split at hc
  · simp only [List.cons_append, List.mem_cons, List.mem_append, List.not_mem_nil, or_false] at hc
    rcases hc with rfl | hc | rfl
    · decide
    · exact hb c hc
    · decide
  · exact hb c hc

theorem joined_noBracket {ss : List WSlot} (h : ∀ s ∈ ss, s.Ok) : ∀ c ∈ joined ss, c ∉ ['⟨', '[', '⟩', ']'] := by
  intro c hc
  obtain ⟨s, hs, hc⟩ := List.mem_flatMap.1 hc
  rcases List.mem_cons.1 hc with rfl | hc
  · decide
  · exact wtext_noBracket (h s hs) c hc

theorem Leaf.name_flip {l : Leaf} (hl : l.Ok) : l.flip.name = flipName l.name ∧ l.odd = oddName l.name := by
  have plain : ∀ t : List Char, "tr(".toList.isPrefixOf t = false → (∀ c ∈ t, c ∉ ['⟨', '[', '⟩', ']']) → flipName t = t := by
    intro t h1 h2
    unfold flipName
    rw [h1]
    exact map_flip h2
  have even : ∀ t : List Char, "tr5".toList.isPrefixOf t = false → (∀ c ∈ t, c ∉ ['⟨', '[', '⟩', ']']) → oddName t = false := by
    intro t h1 h2
    unfold oddName
    have a : t.head? ≠ some '⟨' := fun e => h2 _ (List.mem_of_head? e) (by decide)
    have b : t.head? ≠ some '[' := fun e => h2 _ (List.mem_of_head? e) (by decide)
    rw [h1]
    simp [a, b]
  have pre : ∀ (x y : Char) (ds : List Char), x ∉ ['⟨', '[', '⟩', ']'] → y ∉ ['⟨', '[', '⟩', ']'] → (∀ c ∈ ds, c ∉ ['⟨', '[', '⟩', ']']) →
      ∀ c ∈ [x, y] ++ ds, c ∉ ['⟨', '[', '⟩', ']'] := by
    intro x y ds hx hy hd c hc
    simp only [List.cons_append, List.nil_append, List.mem_cons] at hc
    rcases hc with rfl | rfl | hc
    · exact hx
    · exact hy
    · exact hd c hc
  cases l with
  | two sq bar a b =>
    have ha := map_flip (digits_noBracket hl.1.2)
    have hb := map_flip (digits_noBracket hl.2.1.2)
    have h1 : flipChar '|' = '|' := by decide
    refine ⟨?_, ?_⟩
    · unfold flipName
      cases sq <;> simp [Leaf.flip, Leaf.name, openBr, closeBr, ha, hb, h1] <;> decide
    · have e : (Leaf.two sq bar a b).name = openBr sq :: ((a ++ ['|'] ++ b) ++ [closeBr sq]) := by simp [Leaf.name]
      rw [e, oddName_ends (by cases sq <;> decide) _ _ (by cases sq <;> decide)]
      cases sq <;> rfl
  | mandel p ds =>
    have := pre 's' '_' ds (by decide) (by decide) (digits_noBracket hl.2.2)
    exact ⟨(plain _ rfl this).symm, (even _ rfl this).symm⟩
  | omega ds =>
    have := pre 'Ω' '_' ds (by decide) (by decide) (digits_noBracket hl.2)
    exact ⟨(plain _ rfl this).symm, (even _ rfl this).symm⟩
  | pi ds =>
    have := pre 'Π' '_' ds (by decide) (by decide) (digits_noBracket hl.2)
    exact ⟨(plain _ rfl this).symm, (even _ rfl this).symm⟩
  | tr5l ds =>
    have := pre 't' 'r' ('5' :: '_' :: ds) (by decide) (by decide) (by
      intro c hc
      rcases List.mem_cons.1 hc with rfl | hc
      · decide
      · rcases List.mem_cons.1 hc with rfl | hc
        · decide
        · exact digits_noBracket hl.2 c hc)
    exact ⟨(plain _ rfl this).symm, by simp [oddName, Leaf.name, Leaf.odd]⟩
  | tr5s s ss =>
    have hs := fun x hx => (hl x hx).1
    have := pre 't' 'r' ('5' :: '(' :: (s.text ++ joined ss ++ [')'])) (by decide) (by decide) (by
      intro c hc
      rcases List.mem_cons.1 hc with rfl | hc
      · decide
      · rcases List.mem_cons.1 hc with rfl | hc
        · decide
        · rcases List.mem_append.1 hc with hc | hc
          · rcases List.mem_append.1 hc with hc | hc
            · exact wtext_noBracket (hs s (by simp)) c hc
            · exact joined_noBracket (fun x hx => hs x (by simp [hx])) c hc
          · rw [List.mem_singleton.1 hc]; decide)
    have e : (Leaf.tr5s s ss).name = ['t', 'r'] ++ '5' :: '(' :: (s.text ++ joined ss ++ [')']) := by simp [Leaf.name]
    exact ⟨by rw [show (Leaf.tr5s s ss).flip = .tr5s s ss from rfl, e]; exact (plain _ rfl this).symm, by simp [oddName, Leaf.name, Leaf.odd]⟩
  | trace s ss =>
    have hb : ∀ t ∈ (s :: ss).map WSlot.text, '|' ∉ t := by
      rw [plain_texts hl]
      intro t ht
      obtain ⟨x, hx, rfl⟩ := List.mem_map.1 ht
      exact wbody_bar (hl x hx).1
    have e : ∀ (x : WSlot) (xs : List WSlot), (Leaf.trace x xs).name = "tr(".toList ++ (['|'].intercalate ((x :: xs).map WSlot.text) ++ [')']) := by
      intro x xs
      rw [Leaf.name, List.append_assoc "tr(".toList, joined_texts, List.append_assoc]
    have e2 : flipName (Leaf.trace s ss).name = "tr(".toList ++ (['|'].intercalate (((s :: ss).map WSlot.text).rotate 1) ++ [')']) := by
      rw [e]
      have e3 : ("tr(".toList ++ (['|'].intercalate ((s :: ss).map WSlot.text) ++ [')'])).drop 3 = ['|'].intercalate ((s :: ss).map WSlot.text) ++ [')'] := rfl
      unfold flipName
      rw [e3, List.dropLast_concat, List.splitOn_intercalate _ hb (by simp), if_pos (by rfl), List.append_assoc]
    refine ⟨?_, ?_⟩
    · rw [e2]
      rcases ss with _ | ⟨s', ss⟩
      · rw [Leaf.flip, e]; simp
      · rw [Leaf.flip, e]
        simp [List.rotate]
    · rfl
  | delta c cs =>
    have : ∀ x ∈ (Leaf.delta c cs).name, x ∉ ['⟨', '[', '⟩', ']'] := by
      intro x hx
      simp only [Leaf.name] at hx
      rcases List.mem_append.1 hx with hx | hx
      · exact pre 'Δ' '_' c (by decide) (by decide) (digits_noBracket (hl.2 c (by simp)).1.2) x hx
      · obtain ⟨k, hk, hx⟩ := List.mem_flatMap.1 hx
        rcases List.mem_cons.1 hx with rfl | hx
        · decide
        · exact digits_noBracket (hl.2 k (by simp [hk])).1.2 x hx
    exact ⟨(plain _ rfl this).symm, (even _ rfl this).symm⟩
  | str o a ss b c =>
    obtain ⟨h1, h2, h3, h4, -, h6⟩ := hl
    have hj := map_flip (joined_noBracket h6)
    have hbar : flipChar '|' = '|' := by decide
    refine ⟨?_, ?_⟩
    · unfold flipName
      rcases List.mem_pair.1 h1 with rfl | rfl <;> simp [Leaf.flip, Leaf.name, hj, hbar, flipChar_digit h3, flipChar_digit h4]
    · have e : (Leaf.str o a ss b c).name = o :: ((a :: (joined ss ++ ['|', b])) ++ [c]) := by simp [Leaf.name]
      rw [e, oddName_ends h1 _ _ h2]
      rfl

theorem flipChar_open {o : Char} (h : o ∈ ['⟨', '[']) : flipChar o ∈ ['⟨', '['] := by
  rcases List.mem_pair.1 h with rfl | rfl <;> decide

theorem flipChar_close {o : Char} (h : o ∈ ['⟩', ']']) : flipChar o ∈ ['⟩', ']'] := by
  rcases List.mem_pair.1 h with rfl | rfl <;> decide

theorem Leaf.ok_flip {l : Leaf} (hl : l.Ok) : l.flip.Ok := by
  cases l with
  | two sq bar a b => exact hl
  | trace s ss =>
    rcases ss with _ | ⟨s', ss⟩
    · exact hl
    · intro x hx
      refine hl x ?_
      simp only [List.mem_cons, List.mem_append, List.not_mem_nil, or_false] at hx ⊢
      tauto
  | str o a ss b c => exact ⟨flipChar_open hl.1, flipChar_close hl.2.1, hl.2.2⟩
  | _ => exact hl

theorem Leaf.open_flip (l : Leaf) : l.flip.open = l.open := by
  cases l with
  | trace s ss => cases ss <;> rfl
  | _ => rfl

theorem flip_sym {ts : List WTok} (h : Expression ts) : (flipExpr ts).map WTok.sym = (ts.map WTok.sym).flatMap (Sym.subst oddName flipName) := by
  unfold flipExpr
  rw [List.map_flatMap, List.flatMap_map]
  refine List.flatMap_congr fun t ht => ?_
  cases t with
  | ch c => rfl
  | leaf l =>
    obtain ⟨h1, h2⟩ := Leaf.name_flip (h.1 _ ht)
    simp only [WTok.flip, WTok.sym, Sym.subst, ← h1, ← h2]
    cases l.odd <;> rfl

theorem flip_expression {ts : List WTok} (h : Expression ts) : Expression (flipExpr ts) := by
  refine ⟨?_, ?_⟩
  · intro t ht
    obtain ⟨u, hu, ht⟩ := List.mem_flatMap.1 ht
    have := h.1 u hu
    cases u with
    | ch c => rw [List.mem_singleton.1 ht]; exact this
    | leaf l =>
      have hf := Leaf.ok_flip (l := l) this
      cases ho : l.odd
      · rw [show (WTok.leaf l).flip = [.leaf l.flip] by simp [WTok.flip, ho]] at ht
        rw [List.mem_singleton.1 ht]; exact hf
      · simp only [WTok.flip, ho, if_true, List.mem_cons, List.not_mem_nil, or_false] at ht
        rcases ht with rfl | rfl | rfl | rfl
        · simp [WTok.Fit]
        · simp [WTok.Fit]
        · exact hf
        · simp [WTok.Fit]
  · have e : (flipExpr ts).filter (fun t => !t.blank) = (ts.filter fun t => !t.blank).flatMap WTok.flip := by
      unfold flipExpr
      generalize ts = us
      induction us with
      | nil => rfl
      | cons u us ih =>
        rw [List.flatMap_cons, List.filter_append, ih]
        cases u with
        | ch c => by_cases hc : c = ' ' <;> simp [WTok.flip, WTok.blank, hc]
        | leaf l => cases ho : l.odd <;> simp [WTok.flip, WTok.blank, ho]
    rw [e]
    have key : ∀ us : List WTok, us.IsChain WTok.Apart → (us.flatMap WTok.flip).IsChain WTok.Apart ∧
        ∀ l : Leaf, (∀ u ∈ us.head?, WTok.Apart (.leaf l) u) → ∀ v ∈ (us.flatMap WTok.flip).head?, WTok.Apart (.leaf l) v := by
      intro us
      induction us with
      | nil => intro _; exact ⟨by simp, by simp⟩
      | cons u us ih =>
        intro hch
        obtain ⟨hu, hus⟩ := List.isChain_cons.1 hch
        obtain ⟨i1, i2⟩ := ih hus
        rw [List.flatMap_cons]
        cases u with
        | ch c =>
          refine ⟨?_, ?_⟩
          · exact List.isChain_cons.2 ⟨fun v hv => trivial, i1⟩
          · intro l hl v hv
            have : v = .ch c := by simpa [WTok.flip] using hv.symm
            rw [this]
            exact hl _ rfl
        | leaf k =>
          cases ho : k.odd
          · have ef : (WTok.leaf k).flip = [.leaf k.flip] := by simp [WTok.flip, ho]
            rw [ef]
            refine ⟨List.isChain_cons.2 ⟨?_, i1⟩, ?_⟩
            · intro v hv
              have := i2 k hu v hv
              cases v with
              | leaf m => trivial
              | ch c => intro hop; rw [Leaf.open_flip] at hop; exact this hop
            · intro l hl v hv
              have : v = .leaf k.flip := by simpa using hv.symm
              rw [this]; trivial
          · have ef : (WTok.leaf k).flip = [.ch '(', .ch '-', .leaf k.flip, .ch ')'] := by simp [WTok.flip, ho]
            rw [ef]
            refine ⟨?_, ?_⟩
            · refine List.isChain_cons.2 ⟨fun _ _ => trivial, List.isChain_cons.2 ⟨fun _ _ => trivial, List.isChain_cons.2 ⟨?_, List.isChain_cons.2 ⟨fun _ _ => trivial, i1⟩⟩⟩⟩
              intro v hv
              have : v = .ch ')' := by simpa using hv.symm
              rw [this]
              intro _; decide
            · intro l hl v hv
              have : v = .ch '(' := by simpa using hv.symm
              rw [this]
              intro _; decide
    exact (key _ h.2).1

/-! ### Values -/

/-- A list that is read with its first entry at the end. -/
theorem mapM_rotate {α β : Type*} {h : α → Except Err β} {e0 : Err} (b : α) (bs : List α) (he : ∀ x ∈ b :: bs, ∀ e, h x = .error e → e = e0) :
    (∃ y ys, (b :: bs).mapM h = .ok (y :: ys) ∧ (bs ++ [b]).mapM h = .ok (ys ++ [y])) ∨
    ((b :: bs).mapM h = .error e0 ∧ (bs ++ [b]).mapM h = .error e0) := by
  have one : ∀ l : List α, (∀ x ∈ l, ∀ e, h x = .error e → e = e0) → (∃ ys, l.mapM h = .ok ys) ∨ l.mapM h = .error e0 := by
    intro l
    induction l with
    | nil => intro _; exact .inl ⟨[], rfl⟩
    | cons x l ih =>
      intro hl
      rw [List.mapM_cons]
      rcases hx : h x with e | y
      · right; rw [hl x (by simp) e hx]; rfl
      · rcases ih fun z hz => hl z (by simp [hz]) with ⟨ys, e⟩ | e
        · left; exact ⟨y :: ys, by rw [e]; rfl⟩
        · right; rw [e]; rfl
  rw [List.mapM_cons, List.mapM_append]
  have e1 : [b].mapM h = (do let y ← h b; pure [y]) := by rw [List.mapM_cons]; rfl
  rw [e1]
  rcases one bs fun x hx => he x (by simp [hx]) with ⟨ys, e⟩ | e
  · rcases hb : h b with e' | y
    · right; rw [he b (by simp) e' hb, e]; exact ⟨rfl, rfl⟩
    · left; exact ⟨y, ys, by rw [e]; rfl, by rw [e]; rfl⟩
  · right
    rcases hb : h b with e' | y
    · rw [he b (by simp) e' hb, e]; exact ⟨rfl, rfl⟩
    · rw [e]; exact ⟨rfl, rfl⟩

theorem readSlot_error {s : WSlot} (hs : s.Ok) (e : Err) (h : readSlot n s.text = .error e) : e = .indexError := by
  rw [← nums_text hs, readSlot, stripParens_slot] at h
  rw [WSlot.nums, if_neg (slotBody_ne_nil _ _), termsFrom_body, List.mapM_map] at h
  have key : ∀ (l : List (Bool × ℕ)), l.mapM (fun u => readTerm n (u.1, pyStr u.2)) = .error e → e = .indexError := by
    intro l
    induction l with
    | nil => intro h; cases h
    | cons u l ih =>
      intro h
      rw [List.mapM_cons] at h
      rcases hx : readTerm n (u.1, pyStr u.2) with e' | y
      · rw [hx] at h
        have : e' = e := by injection h
        subst this
        unfold readTerm at hx
        have hlit : literalOk (pyStr u.2) = true := by
          rcases Nat.eq_zero_or_pos u.2 with h0 | h0
          · rw [h0]; decide
          · exact literalOk_pyStr _ h0
        simp only [isDigits_pyStr, hlit, Bool.and_self, if_true] at hx
        unfold label at hx
        split at hx
        · cases hx
        · rename_i heq
          split at heq
          · cases heq
          · cases heq; cases hx; rfl
      · rw [hx] at h
        rcases hl : l.mapM (fun u => readTerm n (u.1, pyStr u.2)) with e' | ys
        · rw [hl] at h
          have : e' = e := by injection h
          subst this
          exact ih hl
        · rw [hl] at h; cases h
  exact key _ h

/-- A number with its sign changed, an exception as it is. -/
def negIf (b : Bool) (r : Except Err K) : Except Err K := if b then r.map (- ·) else r

omit [Field K] in
theorem negIf_error [Neg K] (b : Bool) (e : Err) : (if b = true then (.error e : Except Err K).map (- ·) else .error e) = .error e := by cases b <;> rfl

section
variable [NeZero (2 : K)] (c : Ctx K) (ps : Point K n) {r l : Fin n → V2 K} (hs : ∀ k, HasSpinors c (ps k) (r k) (l k))
include hs

theorem two_flip (a b : Fin n) : angle (swapped c ps a) (swapped c ps b) = (square (ps a) (ps b)).map (- ·) ∧
    square (swapped c ps a) (swapped c ps b) = (angle (ps a) (ps b)).map (- ·) := by
  have h := fun k => swapped_hasSpinors (hs k)
  simp only [angle, square, (h a).r_u, (h b).r_d, (h a).l_d, (h b).l_u, (hs a).r_u, (hs b).r_d, (hs a).l_d, (hs b).l_u, Except.map, dot2]
  constructor <;> simp

theorem evalString_flip {o e : Char} (ho : o ∈ ['⟨', '[']) (he : e ∈ ['⟩', ']']) (a : List Char) (ms : List (List Char)) (d : List Char) :
    evalString (swapped c ps) o a ms d e = negIf (decide (o = '⟨') == decide (e = '⟩')) (evalString ps (flipChar o) a ms d (flipChar e)) := by
  unfold evalString
  have hc := fun k => (hs k).cons
  have hsyn : nbSyntaxError ms.length (flipChar o) (flipChar e) = nbSyntaxError ms.length o e := by
    rcases List.mem_pair.1 ho with rfl | rfl <;> rcases List.mem_pair.1 he with rfl | rfl <;> simp [nbSyntaxError, flipChar]
  rw [hsyn]
  by_cases hn : nbSyntaxError ms.length o e = true
  · rw [if_pos hn, if_pos hn]; exact (negIf_error _ _).symm
  · rw [if_neg hn, if_neg hn]
    rcases readLabel n a with e1 | a
    · exact (negIf_error _ _).symm
    · rcases hr : readSlots n ms with e2 | ks
      · exact (negIf_error _ _).symm
      · rcases readLabel n d with e3 | d
        · exact (negIf_error _ _).symm
        · have hlen := readSlots_length hr
          obtain ⟨h0, h1⟩ := C35_swap_strings c ps hc (hs a) (hs d) ks
          rw [hlen] at h0 h1
          rcases Nat.mod_two_eq_zero_or_one ms.length with hm | hm
          · rcases List.mem_pair.1 ho with rfl | rfl <;> rcases List.mem_pair.1 he with rfl | rfl
            · exact (h0 hm).1
            · exact absurd (by simp [nbSyntaxError, hm]) hn
            · exact absurd (by simp [nbSyntaxError, hm]) hn
            · exact (h0 hm).2
          · rcases List.mem_pair.1 ho with rfl | rfl <;> rcases List.mem_pair.1 he with rfl | rfl
            · exact absurd (by simp [nbSyntaxError, hm]) hn
            · exact (h1 hm).1
            · exact (h1 hm).2
            · exact absurd (by simp [nbSyntaxError, hm]) hn

omit hs [NeZero (2 : K)] in
theorem evalStringText_mixed {o e : Char} (h : (o = '[' ∧ e = '⟩') ∨ (o = '⟨' ∧ e = ']')) (u : List Char) :
    evalStringText ps (o :: (u ++ [e])) = match matchNB (o :: (u ++ [e])) with
      | some (o, a, ms, d, c) => some (evalString ps o a ms d c)
      | none => none := by
  unfold evalStringText
  rw [classify_bracket o _ (by rcases h with ⟨rfl, rfl⟩ | ⟨rfl, rfl⟩ <;> decide)]
  have t1 : matchTwo ['⟨', '<'] ['⟩', '>'] (o :: (u ++ [e])) = none := by
    rcases hx : matchTwo ['⟨', '<'] ['⟩', '>'] (o :: (u ++ [e])) with _ | ⟨a, b⟩
    · rfl
    · obtain ⟨o', c', h1, h2, -, -, h3⟩ := matchTwo_iff.1 hx
      injection h3 with h3 h4
      have h5 := (List.append_inj' h4 rfl).2
      injection h5 with h5
      subst h3 h5
      rcases h with ⟨rfl, rfl⟩ | ⟨rfl, rfl⟩ <;> first | exact absurd h1 (by decide) | exact absurd h2 (by decide)
  have t2 : matchTwo ['['] [']'] (o :: (u ++ [e])) = none := by
    rcases hx : matchTwo ['['] [']'] (o :: (u ++ [e])) with _ | ⟨a, b⟩
    · rfl
    · obtain ⟨o', c', h1, h2, -, -, h3⟩ := matchTwo_iff.1 hx
      injection h3 with h3 h4
      have h5 := (List.append_inj' h4 rfl).2
      injection h5 with h5
      subst h3 h5
      rcases h with ⟨rfl, rfl⟩ | ⟨rfl, rfl⟩ <;> first | exact absurd h1 (by decide) | exact absurd h2 (by decide)
  have t3 : ∀ os cs, (∀ x, x = o → x ∈ os → e ∉ cs) → matchOne os cs (o :: (u ++ [e])) = none := by
    intro os cs hh
    rcases hx : matchOne os cs (o :: (u ++ [e])) with _ | a
    · rfl
    · obtain ⟨o', c', h1, h2, -, h3⟩ := matchOne_iff.1 hx
      injection h3 with h3 h4
      have h5 := (List.append_inj' h4 rfl).2
      injection h5 with h5
      subst h3 h5
      exact absurd h2 (hh _ rfl h1)
  unfold classifyBracket
  rw [t1, t2, t3 ['⟨', '<'] ['|'] (by rintro x - -; rcases h with ⟨rfl, rfl⟩ | ⟨rfl, rfl⟩ <;> decide),
    t3 ['|'] ['⟩', '>'] (by rintro x rfl; rcases h with ⟨rfl, rfl⟩ | ⟨rfl, rfl⟩ <;> decide),
    t3 ['|'] [']'] (by rintro x rfl; rcases h with ⟨rfl, rfl⟩ | ⟨rfl, rfl⟩ <;> decide),
    t3 ['['] ['|'] (by rintro x - -; rcases h with ⟨rfl, rfl⟩ | ⟨rfl, rfl⟩ <;> decide)]
  simp only
  rcases matchNB (o :: (u ++ [e])) with _ | ⟨o', a, ms, d, c'⟩
  · simp only
    have hne : o ≠ '|' := by rcases h with ⟨rfl, rfl⟩ | ⟨rfl, rfl⟩ <;> decide
    rcases matchOpenBegin (o :: (u ++ [e])) with _ | _
    · rcases matchOpenEnd (o :: (u ++ [e])) with _ | _
      · rcases matchDoubleOpen (o :: (u ++ [e])) with _ | _
        · simp only; cases isMassName (o :: (u ++ [e])) <;> rfl
        · rfl
      · rfl
    · rfl
  · rfl

theorem evalTr5_flip (m : List Char) : evalTr5 (swapped c ps) m = (evalTr5 ps m).map (Except.map (- ·)) := by
  unfold evalTr5
  rcases unpack4 m with e | q
  · rfl
  · simp only
    rcases rotateText 4 q with _ | ⟨a, b, x, d⟩
    · rfl
    · simp only
      have e1 : ∀ o e, tr5Text o a b x d e = o :: (['|'].intercalate [a, b, x, d, a] ++ [e]) := fun o e => by simp [tr5Text]
      have nb : ∀ u : List Char, (∀ A ms D, matchNB ('[' :: (u ++ ['⟩'])) = some ('[', A, ms, D, '⟩') ↔ matchNB ('⟨' :: (u ++ [']'])) = some ('⟨', A, ms, D, ']')) := by
        intro u A ms D
        rw [matchNB_iff, matchNB_iff]
        constructor
        · rintro ⟨-, -, h1, h2, M, h3, h4, h5⟩
          injection h5 with _ h5
          exact ⟨by decide, by decide, h1, h2, M, h3, h4, by rw [(List.append_inj' h5 rfl).1]⟩
        · rintro ⟨-, -, h1, h2, M, h3, h4, h5⟩
          injection h5 with _ h5
          exact ⟨by decide, by decide, h1, h2, M, h3, h4, by rw [(List.append_inj' h5 rfl).1]⟩
      have ends : ∀ (o e : Char) (u : List Char) o' A ms D e', matchNB (o :: (u ++ [e])) = some (o', A, ms, D, e') → o' = o ∧ e' = e := by
        intro o e u o' A ms D e' h
        obtain ⟨-, -, -, -, M, -, -, h5⟩ := matchNB_iff.1 h
        injection h5 with h5 h6
        exact ⟨h5.symm, (List.singleton_inj.1 (List.append_inj' h6 rfl).2).symm⟩
      rw [e1, e1, evalStringText_mixed _ (.inl ⟨rfl, rfl⟩), evalStringText_mixed _ (.inr ⟨rfl, rfl⟩), evalStringText_mixed _ (.inl ⟨rfl, rfl⟩),
        evalStringText_mixed _ (.inr ⟨rfl, rfl⟩)]
      generalize ['|'].intercalate [a, b, x, d, a] = u
      rcases h1 : matchNB ('[' :: (u ++ ['⟩'])) with _ | ⟨o', A, ms, D, e'⟩
      · rcases h2 : matchNB ('⟨' :: (u ++ [']'])) with _ | ⟨o', A, ms, D, e'⟩
        · rfl
        · obtain ⟨rfl, rfl⟩ := ends _ _ _ _ _ _ _ _ h2
          rw [(nb u A ms D).2 h2] at h1
          cases h1
      · obtain ⟨rfl, rfl⟩ := ends _ _ _ _ _ _ _ _ h1
        rw [(nb u A ms D).1 h1]
        simp only
        have s1 := evalString_flip c ps hs (o := '[') (e := '⟩') (by decide) (by decide) A ms D
        have s2 := evalString_flip c ps hs (o := '⟨') (e := ']') (by decide) (by decide) A ms D
        have n1 : (decide ('[' = '⟨') == decide ('⟩' = '⟩')) = false := by decide
        have n2 : (decide ('⟨' = '⟨') == decide (']' = '⟩')) = false := by decide
        rw [n1] at s1
        rw [n2] at s2
        have f1 : evalString (swapped c ps) '[' A ms D '⟩' = evalString ps '⟨' A ms D ']' := s1
        have f2 : evalString (swapped c ps) '⟨' A ms D ']' = evalString ps '[' A ms D '⟩' := s2
        have same : ∀ e e', evalString ps '[' A ms D '⟩' = .error e → evalString ps '⟨' A ms D ']' = .error e' → e = e' := by
          unfold evalString
          have : nbSyntaxError ms.length '⟨' ']' = nbSyntaxError ms.length '[' '⟩' := by simp [nbSyntaxError]
          rw [this]
          by_cases hn : nbSyntaxError ms.length '[' '⟩' = true
          · rw [if_pos hn, if_pos hn]; intro e e' h h'; cases h; cases h'; rfl
          · rw [if_neg hn, if_neg hn]
            rcases readLabel n A with e1 | a
            · intro e e' h h'; cases h; cases h'; rfl
            · rcases hr : readSlots n ms with e2 | ks
              · intro e e' h h'; cases h; cases h'; rfl
              · rcases readLabel n D with e3 | d
                · intro e e' h h'; cases h; cases h'; rfl
                · intro e e' h h'
                  have hodd : ks.length % 2 = 1 := by
                    rw [readSlots_length hr]
                    by_contra hm
                    exact hn (by simp [nbSyntaxError, show ms.length % 2 = 0 by omega])
                  obtain ⟨-, k2, -, k4⟩ := computeNB_ok c ps (hs a) (hs d) ks
                  simp only [k4 hodd] at h
                  cases h
        have okok : (∃ x, evalString ps '[' A ms D '⟩' = .ok x) → ∃ y, evalString ps '⟨' A ms D ']' = .ok y := by
          unfold evalString
          have : nbSyntaxError ms.length '⟨' ']' = nbSyntaxError ms.length '[' '⟩' := by simp [nbSyntaxError]
          rw [this]
          by_cases hn : nbSyntaxError ms.length '[' '⟩' = true
          · rw [if_pos hn]; rintro ⟨x, h⟩; cases h
          · rw [if_neg hn, if_neg hn]
            rcases readLabel n A with e1 | a
            · rintro ⟨x, h⟩; cases h
            · rcases hr : readSlots n ms with e2 | ks
              · rintro ⟨x, h⟩; cases h
              · rcases readLabel n D with e3 | d
                · rintro ⟨x, h⟩; cases h
                · intro _
                  have hodd : ks.length % 2 = 1 := by
                    rw [readSlots_length hr]
                    by_contra hm
                    exact hn (by simp [nbSyntaxError, show ms.length % 2 = 0 by omega])
                  obtain ⟨-, k2, -, k4⟩ := computeNB_ok c ps (hs a) (hs d) ks
                  exact ⟨_, k2 hodd⟩
        rw [f1, f2]
        rcases g1 : evalString ps '[' A ms D '⟩' with ε | x
        · rcases g2 : evalString ps '⟨' A ms D ']' with ε' | y
          · rw [same ε ε' g1 g2]; rfl
          · rfl
        · obtain ⟨y, g2⟩ := okok ⟨x, g1⟩
          rw [g2]
          simp [Except.map]

/-- C127: the value of an invariant on the point with brackets exchanged. -/
theorem C127_invariant (fuel : ℕ) {i : Leaf} (hi : i.Ok) (ht : i.EvenTrace) :
    leafNum (swapped c ps) fuel i.name = if i.odd then (leafNum ps fuel i.flip.name).map (- ·) else leafNum ps fuel i.flip.name := by
  have hc := fun k => (hs k).cons
  obtain ⟨hS, hTr, hD, -, hO, hP, -, -⟩ := C35_swap_invariants c ps hc
  unfold leafNum
  rw [C94_leaf _ _ hi, C94_leaf _ _ (Leaf.ok_flip hi)]
  cases i with
  | two sq bar a b =>
    cases sq
    · simp only [Leaf.form, Leaf.flip, Leaf.odd, if_true, Bool.not_false, evalForm, Bool.false_eq_true, if_false]
      rcases readLabel n a with e | a
      · rfl
      · rcases readLabel n b with e | b
        · rfl
        · simp only [(two_flip c ps hs a b).1]
          rcases square (ps a) (ps b) with e | x <;> rfl
    · simp only [Leaf.form, Leaf.flip, Leaf.odd, if_true, Bool.not_true, evalForm, Bool.false_eq_true, if_false]
      rcases readLabel n a with e | a
      · rfl
      · rcases readLabel n b with e | b
        · rfl
        · simp only [(two_flip c ps hs a b).2]
          rcases angle (ps a) (ps b) with e | x <;> rfl
  | mandel p ds =>
    simp only [Leaf.form, Leaf.flip, Leaf.odd, evalForm, hS]
    rfl
  | omega ds =>
    simp only [Leaf.form, Leaf.flip, Leaf.odd, evalForm, hO]
    rfl
  | pi ds =>
    simp only [Leaf.form, Leaf.flip, Leaf.odd, evalForm, hP]
    rfl
  | tr5l ds =>
    simp only [Leaf.form, Leaf.flip, Leaf.odd, evalForm, evalTr5_flip c ps hs, if_true]
    rcases evalTr5 ps ds with _ | _ | x <;> rfl
  | tr5s s ss =>
    simp only [Leaf.form, Leaf.flip, Leaf.odd, evalForm, evalTr5_flip c ps hs, if_true]
    rcases evalTr5 ps (['|'].intercalate ((s :: ss).map WSlot.body)) with _ | _ | x <;> rfl
  | trace s ss =>
    rcases ss with _ | ⟨s', ss⟩
    · exact absurd ht (by simp [Leaf.EvenTrace])
    · have hlen : (s' :: ss).length % 2 = 1 := ht
      have he : ∀ x ∈ s.body :: (s' :: ss).map WSlot.body, ∀ e, readSlot n x = .error e → e = .indexError := by
        intro x hx
        rw [← List.map_cons (f := WSlot.body)] at hx
        obtain ⟨w, hw, rfl⟩ := List.mem_map.1 hx
        have : w.text = w.body := by rw [WSlot.text, (hi w hw).2]; rfl
        rw [← this]
        exact readSlot_error (hi w hw).1
      simp only [Leaf.form, Leaf.flip, Leaf.odd, evalForm, readSlots]
      have e2 : (s' :: (ss ++ [s])).map WSlot.body = (s' :: ss).map WSlot.body ++ [s.body] := by simp
      rw [e2, List.map_cons]
      rcases mapM_rotate s.body ((s' :: ss).map WSlot.body) he with ⟨y, ys, h1, h2⟩ | ⟨h1, h2⟩
      · rw [h1, h2]
        have hl : ys.length % 2 = 1 := by
          have := readSlots_length (n := n) (es := s.body :: (s' :: ss).map WSlot.body) h1
          simp only [List.length_cons, List.length_map] at this hlen
          omega
        simp only [hTr y ys (by simp only [List.length_cons]; omega)]
        rfl
      · rw [h1, h2]; rfl
  | delta d ds =>
    obtain ⟨k, ks, rfl⟩ := List.exists_cons_of_ne_nil hi.1
    simp only [Leaf.form, Leaf.flip, Leaf.odd, evalForm, evalDelta]
    rcases (d :: k :: ks).mapM (readDigits n) with e | ⟨_ | ⟨c0, _ | ⟨c1, cs⟩⟩⟩
    · rfl
    · rfl
    · rfl
    · simp only [hD]; rfl
  | str o a ss b e =>
    simp only [Leaf.form, Leaf.flip, evalForm]
    rw [evalString_flip c ps hs hi.1 hi.2.1]
    have ho : (decide (o = '⟨') == decide (e = '⟩')) = (Leaf.str o a ss b e).odd := rfl
    rw [ho]
    unfold negIf
    by_cases hb : (Leaf.str o a ss b e).odd = true
    · rw [if_pos hb, if_pos hb]
      rcases evalString ps (flipChar o) [a] (ss.map WSlot.text) [b] (flipChar e) with e' | x <;> rfl
    · rw [if_neg hb, if_neg hb]

/-- C127: an expression as it is written. -/
theorem C127_written (fuel : ℕ) {ts : List WTok} (h : Expression ts) (ht : ∀ i, .leaf i ∈ ts → i.EvenTrace) {e : Ast EAtom}
    (he : readText (ts.map WTok.sym) = .ok e) :
    evalChars (leafNum (swapped c ps) fuel) (exprText ts) = evalChars (leafNum ps fuel) (exprText (flipExpr ts)) := by
  rw [C94_eval _ h, C94_eval _ (flip_expression h), flip_sym h, evalText_subst he]
  intro i hi
  obtain ⟨t, ht', hti⟩ := List.mem_map.1 hi
  cases t with
  | ch c => cases hti
  | leaf j =>
    injection hti with hti
    subst hti
    have hj : j.Ok := h.1 _ ht'
    rw [C127_invariant c ps hs fuel hj (ht j ht'), (Leaf.name_flip hj).1, (Leaf.name_flip hj).2]

/-- C127: the call of the point with it. -/
theorem C127_call (fuel : ℕ) {ts : List WTok} (h : Expression ts) (ht : ∀ i, .leaf i ∈ ts → i.EvenTrace) {e : Ast EAtom}
    (he : readText (ts.map WTok.sym) = .ok e) (hx : classify (exprText ts) = .expression) (hx' : classify (exprText (flipExpr ts)) = .expression) :
    callNumber (swapped c ps) fuel (exprText ts) = callNumber ps fuel (exprText (flipExpr ts)) := by
  have key : callText (swapped c ps) fuel (exprText ts) = callText ps fuel (exprText (flipExpr ts)) := by
    unfold callText
    rw [rsubs_plain _ (expr_plain h), rsubs_plain _ (expr_plain (flip_expression h))]
    simp only [hx, hx', if_true, C127_written c ps hs fuel h ht he]
  unfold callNumber
  rw [key]

omit hs [NeZero (2 : K)] in
theorem flip_relabel (m : Char → Char) (ts : List WTok) : flipExpr (ts.map (WTok.relabel m)) = (flipExpr ts).map (WTok.relabel m) := by
  unfold flipExpr
  rw [List.flatMap_map, List.map_flatMap]
  refine List.flatMap_congr fun t _ => ?_
  cases t with
  | ch c => rfl
  | leaf i =>
    have h1 : (i.relabel m).odd = i.odd := by cases i <;> rfl
    have h2 : (i.relabel m).flip = i.flip.relabel m := by
      cases i with
      | trace s ss => cases ss <;> simp [Leaf.relabel, Leaf.flip]
      | _ => rfl
    simp only [WTok.relabel, WTok.flip, h1, h2]
    cases i.odd <;> rfl

/-- C127: images under a permutation together with the exchange of brackets. -/
theorem C127_image (hn : n ≤ 9) (h0 : 0 < n) (eq : Particle K → Particle K → Bool) (hr : ∀ x, eq x x = true)
    (hd : ∀ i j, i ≠ j → eq (ps i) (ps j) = false) (σ : Equiv.Perm (Fin n)) :
    ∃ ps' : Point K n, imageRule eq (anglesForSquares c) (List.ofFn ps) (permString σ, true) = .ok (List.ofFn ps') ∧
      ∀ (fuel : ℕ) (ts : List WTok) (e : Ast EAtom), Expression ts → (∀ i, .leaf i ∈ ts → i.EvenTrace ∧ i.shorthand = false) → readText (ts.map WTok.sym) = .ok e →
        evalChars (leafNum ps' fuel) (exprText (ts.map (WTok.relabel (relabelChar σ)))) = evalChars (leafNum ps fuel) (exprText (flipExpr ts)) := by
  refine ⟨swapped c (moved ps σ), ?_, ?_⟩
  · unfold imageRule
    rw [C32_image_moves hn h0 eq hr ps hd σ]
    simp only [if_true, List.map_ofFn]
    rfl
  · intro fuel ts e hx ht he
    have hm := relabelChar_map hn σ
    have hs' : ∀ k, HasSpinors c (moved ps σ k) (r (σ.symm k)) (l (σ.symm k)) := fun k => hs _
    have e1 : (ts.map (WTok.relabel (relabelChar σ))).map WTok.sym = (ts.map WTok.sym).map (Sym.rename (relabelName σ)) := by
      rw [List.map_map, List.map_map]
      refine List.map_congr_left fun t ht => ?_
      cases t with
      | ch c => rfl
      | leaf l => exact congrArg Sym.leaf (Leaf.name_relabel hn σ (hx.1 _ ht))
    have he' : readText ((ts.map (WTok.relabel (relabelChar σ))).map WTok.sym) = .ok (e.map (EAtom.rename (relabelName σ))) := by
      rw [e1, readText_rename, he]; rfl
    rw [C127_written c (moved ps σ) hs' fuel (hx.relabel hm) ?_ he', flip_relabel, C126_written hn ps σ fuel (flip_expression hx)]
    · intro i hi
      obtain ⟨t, htm, hti⟩ := List.mem_flatMap.1 hi
      cases t with
      | ch c => rw [WTok.flip, List.mem_singleton] at hti; cases hti
      | leaf j =>
        have hj : j.flip = i := by
          unfold WTok.flip at hti
          cases ho : j.odd
          · simp only [ho] at hti
            exact (by simpa using hti : i = j.flip).symm
          · simp only [ho, if_true] at hti
            exact (by simpa using hti : i = j.flip).symm
        rw [← hj]
        have := (ht j htm).2
        cases j with
        | trace s ss => cases ss <;> rfl
        | omega _ => cases this
        | pi _ => cases this
        | _ => rfl
    · intro i hi
      obtain ⟨t, htm, hti⟩ := List.mem_map.1 hi
      cases t with
      | ch c => cases hti
      | leaf j =>
        injection hti with hti
        rw [← hti]
        have := (ht j htm).1
        cases j with
        | trace s ss => simpa [Leaf.relabel, Leaf.EvenTrace] using this
        | _ => trivial

end

end Lips

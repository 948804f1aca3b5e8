import Verif.Props.Eval
import Verif.Spec.Taken
import Mathlib.Algebra.Field.ZMod

/-!
C81, all texts: how an expression is read in which quotients of literals stand anywhere.
-/

namespace Lips

/-! ### A quotient of literals can always be taken first -/

theorem split_three {α : Type*} {ts us pre post : List α} {o x y z : α} (h : ts ++ o :: us = pre ++ x :: y :: z :: post) (hx : o ≠ x) (hz : o ≠ z) :
    (∃ as, pre = ts ++ o :: as ∧ us = as ++ x :: y :: z :: post) ∨
    (∃ post', ts = pre ++ x :: y :: z :: post' ∧ post = post' ++ o :: us) ∨ (o = y ∧ ts = pre ++ [x] ∧ us = z :: post) := by
  rcases List.append_eq_append_iff.mp h with ⟨as, h1, h2⟩ | ⟨bs, h1, h2⟩
  · cases as with
    | nil => simp at h2; exact absurd h2.1 hx
    | cons w as =>
      simp only [List.cons_append, List.cons.injEq] at h2
      obtain ⟨rfl, h2⟩ := h2
      exact Or.inl ⟨as, h1, h2⟩
  · match bs, h2 with
    | [], h2 => simp at h2; exact absurd h2.1.symm hx
    | [w], h2 =>
      simp at h2
      obtain ⟨rfl, rfl, h3⟩ := h2
      exact Or.inr (Or.inr ⟨rfl, h1, h3.symm⟩)
    | [w, v], h2 =>
      simp at h2
      exact absurd h2.2.2.1.symm hz
    | w :: v :: u :: bs, h2 =>
      simp at h2
      obtain ⟨rfl, rfl, rfl, h3⟩ := h2
      exact Or.inr (Or.inl ⟨bs, h1, h3⟩)

theorem endsPower_weaken {xs : List (Tok EAtom)} {d : Bool} (h : endsPower d xs = false) : endsPower false xs = false := by
  cases xs with
  | nil => rfl
  | cons => exact h

theorem endsPower_tail {ts as : List (Tok EAtom)} {o : Tok EAtom} (h : endsPower false (ts ++ o :: as) = false) : endsPower false as = false := by
  rw [endsPower_append] at h
  exact endsPower_weaken (d := decide (o = .dstar)) h

/-- The last number of a phrase, unless it is directly an exponent, may be replaced by a number or a power of one. -/
theorem Reads.lastNumber {L : Level} {ts : List (Tok EAtom)} {e : Ast EAtom} (h : Reads L ts e) (hL : L ≠ .atom) (pre : List (Tok EAtom)) (k : ℕ)
    (ht : ts = pre ++ [.atom (.num k)]) (hp : endsPower false pre = false) (us : List (Tok EAtom)) (e1 : Ast EAtom)
    (hu : Reads .power us e1) : ∃ e2, Reads L (pre ++ us) e2 := by
  induction h generalizing pre with
  | atom x => exact absurd rfl hL
  | paren => exact absurd rfl hL
  | ofAtom h ih =>
    cases h with
    | atom x =>
      cases pre with
      | nil => exact ⟨_, hu⟩
      | cons => simp at ht
    | paren h =>
      rw [← List.cons_append] at ht
      have := congrArg List.getLast? ht
      rw [List.getLast?_concat, List.getLast?_concat] at this
      cases this
  | pow h1 h2 ih1 ih2 =>
    obtain ⟨ws, hws, rfl⟩ := snoc_of_append ht h2.shape.ne
    obtain ⟨e2, h3⟩ := ih2 (by simp) ws hws (endsPower_tail hp)
    rw [List.append_assoc, List.cons_append]
    exact ⟨_, .pow h1 h3⟩
  | ofPower _ ih => obtain ⟨e2, h3⟩ := ih (by simp) pre ht hp; exact ⟨e2, .ofPower h3⟩
  | neg h ih =>
    obtain ⟨ws, hws, rfl⟩ := snoc_of_append (xs := []) ht h.shape.ne
    obtain ⟨e2, h3⟩ := ih (by simp) ws hws (endsPower_tail (ts := []) hp)
    exact ⟨_, .neg h3⟩
  | pos h ih =>
    obtain ⟨ws, hws, rfl⟩ := snoc_of_append (xs := []) ht h.shape.ne
    obtain ⟨e2, h3⟩ := ih (by simp) ws hws (endsPower_tail (ts := []) hp)
    exact ⟨_, .pos h3⟩
  | ofFactor _ ih => obtain ⟨e2, h3⟩ := ih (by simp) pre ht hp; exact ⟨e2, .ofFactor h3⟩
  | mul h1 h2 ih1 ih2 =>
    obtain ⟨ws, hws, rfl⟩ := snoc_of_append ht h2.shape.ne
    obtain ⟨e2, h3⟩ := ih2 (by simp) ws hws (endsPower_tail hp)
    rw [List.append_assoc, List.cons_append]
    exact ⟨_, .mul h1 h3⟩
  | div h1 h2 ih1 ih2 =>
    obtain ⟨ws, hws, rfl⟩ := snoc_of_append ht h2.shape.ne
    obtain ⟨e2, h3⟩ := ih2 (by simp) ws hws (endsPower_tail hp)
    rw [List.append_assoc, List.cons_append]
    exact ⟨_, .div h1 h3⟩
  | ofTerm _ ih => obtain ⟨e2, h3⟩ := ih (by simp) pre ht hp; exact ⟨e2, .ofTerm h3⟩
  | add h1 h2 ih1 ih2 =>
    obtain ⟨ws, hws, rfl⟩ := snoc_of_append ht h2.shape.ne
    obtain ⟨e2, h3⟩ := ih2 (by simp) ws hws (endsPower_tail hp)
    rw [List.append_assoc, List.cons_append]
    exact ⟨_, .add h1 h3⟩
  | sub h1 h2 ih1 ih2 =>
    obtain ⟨ws, hws, rfl⟩ := snoc_of_append ht h2.shape.ne
    obtain ⟨e2, h3⟩ := ih2 (by simp) ws hws (endsPower_tail hp)
    rw [List.append_assoc, List.cons_append]
    exact ⟨_, .sub h1 h3⟩

/-- A factor that begins with a number is that number or a power of it; so is the same with another number first. -/
theorem Reads.firstNumber {L : Level} {us : List (Tok EAtom)} {e : Ast EAtom} (h : Reads L us e) (hL : L.Tight) (x y : EAtom)
    (post : List (Tok EAtom)) (hu : us = .atom x :: post) : (L = .atom → post = []) ∧ ∃ e1, Reads .power (.atom y :: post) e1 := by
  induction h generalizing post with
  | atom z => simp at hu; exact ⟨fun _ => hu.2, by rw [hu.2]; exact ⟨_, .ofAtom (.atom y)⟩⟩
  | paren => simp at hu
  | ofAtom h ih => exact ⟨by simp, (ih trivial post hu).2⟩
  | @pow ts us a b h1 h2 ih1 ih2 =>
    obtain ⟨t, ts', rfl⟩ := List.exists_cons_of_ne_nil h1.shape.ne
    simp at hu
    obtain ⟨rfl, rfl⟩ := hu
    have := (ih1 trivial ts' rfl).1 rfl
    subst this
    exact ⟨by simp, _, .pow (.atom y) h2⟩
  | ofPower _ ih => exact ⟨by simp, (ih trivial post hu).2⟩
  | neg => simp at hu
  | pos => simp at hu
  | ofFactor => exact hL.elim
  | mul => exact hL.elim
  | div => exact hL.elim
  | ofTerm => exact hL.elim
  | add => exact hL.elim
  | sub => exact hL.elim

/-- A quotient of two literals in a phrase may be replaced by one number unless the numerator is directly an exponent. -/
theorem Reads.take {L : Level} {ts : List (Tok EAtom)} {e : Ast EAtom} (h : Reads L ts e) (pre : List (Tok EAtom)) (a b : ℕ)
    (post : List (Tok EAtom)) (ht : ts = pre ++ .atom (.num a) :: .slash :: .atom (.num b) :: post) (hp : endsPower false pre = false) :
    ∃ e', Reads L (pre ++ .atom (.rat a b) :: post) e' := by
  induction h generalizing pre post with
  | atom x =>
    have := congrArg List.length ht
    simp at this; omega
  | @paren ts e h ih =>
    rw [← List.cons_append] at ht
    cases pre with
    | nil => simp at ht
    | cons w pre =>
      simp only [List.cons_append, List.cons.injEq] at ht
      obtain ⟨rfl, ht⟩ := ht
      obtain ⟨t, post', rfl⟩ : ∃ t post', post = post' ++ [t] := by
        rcases List.eq_nil_or_concat post with rfl | ⟨p', t, rfl⟩
        · have := congrArg List.getLast? ht
          rw [List.getLast?_concat] at this
          simp at this
        · exact ⟨t, p', by simp⟩
      rw [← List.cons_append, ← List.cons_append, ← List.cons_append, ← List.append_assoc] at ht
      obtain ⟨h1, h2⟩ := List.append_inj' ht rfl
      simp at h2
      obtain ⟨e', h3⟩ := ih pre post' h1 (endsPower_tail (ts := []) hp)
      refine ⟨e', ?_⟩
      have := Reads.paren h3
      rw [← h2]
      simpa using this
  | ofAtom _ ih => obtain ⟨e', h3⟩ := ih pre post ht hp; exact ⟨e', .ofAtom h3⟩
  | pow h1 h2 ih1 ih2 =>
    rcases split_three ht (by simp) (by simp) with ⟨as, rfl, h3⟩ | ⟨post', h3, rfl⟩ | ⟨h3, -, -⟩
    · obtain ⟨e', h4⟩ := ih2 as post h3 (endsPower_tail hp)
      rw [List.append_assoc, List.cons_append]
      exact ⟨_, .pow h1 h4⟩
    · obtain ⟨e', h4⟩ := ih1 pre post' h3 hp
      rw [← List.cons_append, ← List.append_assoc]
      exact ⟨_, .pow h4 h2⟩
    · simp at h3
  | ofPower _ ih => obtain ⟨e', h3⟩ := ih pre post ht hp; exact ⟨e', .ofPower h3⟩
  | neg h ih =>
    cases pre with
    | nil => simp at ht
    | cons w pre =>
      simp only [List.cons_append, List.cons.injEq] at ht
      obtain ⟨rfl, ht⟩ := ht
      obtain ⟨e', h3⟩ := ih pre post ht (endsPower_tail (ts := []) hp)
      exact ⟨_, .neg h3⟩
  | pos h ih =>
    cases pre with
    | nil => simp at ht
    | cons w pre =>
      simp only [List.cons_append, List.cons.injEq] at ht
      obtain ⟨rfl, ht⟩ := ht
      obtain ⟨e', h3⟩ := ih pre post ht (endsPower_tail (ts := []) hp)
      exact ⟨_, .pos h3⟩
  | ofFactor _ ih => obtain ⟨e', h3⟩ := ih pre post ht hp; exact ⟨e', .ofFactor h3⟩
  | mul h1 h2 ih1 ih2 =>
    rcases split_three ht (by simp) (by simp) with ⟨as, rfl, h3⟩ | ⟨post', h3, rfl⟩ | ⟨h3, -, -⟩
    · obtain ⟨e', h4⟩ := ih2 as post h3 (endsPower_tail hp)
      rw [List.append_assoc, List.cons_append]
      exact ⟨_, .mul h1 h4⟩
    · obtain ⟨e', h4⟩ := ih1 pre post' h3 hp
      rw [← List.cons_append, ← List.append_assoc]
      exact ⟨_, .mul h4 h2⟩
    · simp at h3
  | div h1 h2 ih1 ih2 =>
    rcases split_three ht (by simp) (by simp) with ⟨as, rfl, h3⟩ | ⟨post', h3, rfl⟩ | ⟨-, h3, h4⟩
    · obtain ⟨e', h4⟩ := ih2 as post h3 (endsPower_tail hp)
      rw [List.append_assoc, List.cons_append]
      exact ⟨_, .div h1 h4⟩
    · obtain ⟨e', h4⟩ := ih1 pre post' h3 hp
      rw [← List.cons_append, ← List.append_assoc]
      exact ⟨_, .div h4 h2⟩
    · obtain ⟨-, e1, h5⟩ := h2.firstNumber trivial (.num b) (.rat a b) post h4
      exact h1.lastNumber (by simp) pre a h3 hp _ e1 h5
  | ofTerm _ ih => obtain ⟨e', h3⟩ := ih pre post ht hp; exact ⟨e', .ofTerm h3⟩
  | add h1 h2 ih1 ih2 =>
    rcases split_three ht (by simp) (by simp) with ⟨as, rfl, h3⟩ | ⟨post', h3, rfl⟩ | ⟨h3, -, -⟩
    · obtain ⟨e', h4⟩ := ih2 as post h3 (endsPower_tail hp)
      rw [List.append_assoc, List.cons_append]
      exact ⟨_, .add h1 h4⟩
    · obtain ⟨e', h4⟩ := ih1 pre post' h3 hp
      rw [← List.cons_append, ← List.append_assoc]
      exact ⟨_, .add h4 h2⟩
    · simp at h3
  | sub h1 h2 ih1 ih2 =>
    rcases split_three ht (by simp) (by simp) with ⟨as, rfl, h3⟩ | ⟨post', h3, rfl⟩ | ⟨h3, -, -⟩
    · obtain ⟨e', h4⟩ := ih2 as post h3 (endsPower_tail hp)
      rw [List.append_assoc, List.cons_append]
      exact ⟨_, .sub h1 h4⟩
    · obtain ⟨e', h4⟩ := ih1 pre post' h3 hp
      rw [← List.cons_append, ← List.append_assoc]
      exact ⟨_, .sub h4 h2⟩
    · simp at h3

theorem Reads.taken (d : Bool) (ts : List (Tok EAtom)) : ∀ (pre : List (Tok EAtom)) (e : Ast EAtom), d = endsPower false pre →
    Reads .expr (pre ++ ts) e → ∃ e', Reads .expr (pre ++ taken d ts) e' := by
  induction d, ts using Lips.taken.induct with
  | case1 a b ts ih =>
    intro pre e h hr
    rw [Lips.taken, if_pos rfl]
    obtain ⟨e', h3⟩ := ih (pre ++ [.atom (.num a), .slash]) e (by rw [endsPower_append]; simp [endsPower]) (by simpa using hr)
    exact ⟨e', by simpa using h3⟩
  | case2 d a b ts hd ih =>
    intro pre e h hr
    rw [Lips.taken, if_neg hd]
    obtain ⟨e1, h1⟩ := hr.take pre a b ts rfl (by rw [← h]; simpa using hd)
    obtain ⟨e', h3⟩ := ih (pre ++ [.atom (.rat a b)]) e1 (by rw [endsPower_append]; simp [endsPower]) (by simpa using h1)
    exact ⟨e', by simpa using h3⟩
  | case3 d t ts hne ih =>
    intro pre e h hr
    rw [Lips.taken.eq_2 _ _ _ hne]
    obtain ⟨e', h3⟩ := ih (pre ++ [t]) e (by rw [endsPower_append]; simp [endsPower]) (by simpa using hr)
    exact ⟨e', by simpa using h3⟩
  | case4 d =>
    intro pre e h hr
    exact ⟨e, hr⟩

/-! ### What the text becomes -/

theorem taken_flat (d : Bool) (ts : List (Tok EAtom)) (hn : ∀ a b, .atom (.rat a b) ∉ ts) : (taken d ts).flatMap flatTok = ts := by
  induction d, ts using Lips.taken.induct with
  | case1 a b ts ih =>
    rw [taken, if_pos rfl, List.flatMap_cons, List.flatMap_cons, ih fun a b h => hn a b (by simp at h ⊢; exact h)]
    rfl
  | case2 d a b ts hd ih =>
    rw [taken, if_neg hd, List.flatMap_cons, ih fun a b h => hn a b (by simp at h ⊢; exact h)]
    rfl
  | case3 d t ts hne ih =>
    rw [taken.eq_2 _ _ _ hne, List.flatMap_cons, ih fun a b h => hn a b (List.mem_cons_of_mem _ h)]
    have ht := hn
    rcases t with (k | ⟨a, b⟩ | i) | _ | _ | _ | _ | _ | _ | _ <;> first | rfl | exact absurd List.mem_cons_self (hn a b)
  | case4 d => rfl

/-- Does a text begin with a quotient sign and a literal; taking quotients does not change that. -/
theorem taken_slash (d : Bool) (ts : List (Tok EAtom)) (hn : ∀ a b, .atom (.rat a b) ∉ ts)
    (h : ∃ u us, taken d ts = .slash :: u :: us ∧ u.Digits) : ∃ b us, ts = .slash :: .atom (.num b) :: us := by
  obtain ⟨u, us, h, hu⟩ := h
  have e := taken_flat d ts hn
  rw [h] at e
  have hr := hn
  rcases u with (k | ⟨a, b⟩ | i) | _ | _ | _ | _ | _ | _ | _ <;> first | exact hu.elim | skip
  · exact ⟨k, us.flatMap flatTok, by rw [← e]; rfl⟩
  · exact ⟨a, .slash :: .atom (.num b) :: us.flatMap flatTok, by rw [← e]; rfl⟩

theorem taken_numbers (d : Bool) (ts : List (Tok EAtom)) (hn : ∀ a b, .atom (.rat a b) ∉ ts) (hl : ¬ LongExponent ts)
    (hd : d = true → ∀ a b post, ts = .atom (.num a) :: .slash :: .atom (.num b) :: post → a < 10) : NumbersOk d (taken d ts) := by
  have hl' : ∀ t us, ¬ LongExponent (t :: us) → ¬ LongExponent us := by
    rintro t us h ⟨pre, a, b, post, rfl, ha⟩
    exact h ⟨t :: pre, a, b, post, rfl, ha⟩
  induction d, ts using Lips.taken.induct with
  | case1 a b ts ih =>
    rw [taken, if_pos rfl]
    have h10 := hd rfl a b ts rfl
    refine ⟨fun k hk _ => ⟨rfl, ?_⟩, by simp, by simp, by simp, ?_⟩
    · cases hk; exact h10
    · exact ih (fun a b h => hn a b (by simp at h ⊢; exact h)) (hl' _ _ (hl' _ _ hl)) (by simp)
  | case2 d a b ts hd' ih =>
    rw [taken, if_neg hd']
    exact ⟨by simp, fun _ _ _ => by simpa using hd', ih (fun a b h => hn a b (by simp at h ⊢; exact h)) (hl' _ _ (hl' _ _ (hl' _ _ hl))) (by simp)⟩
  | case3 d t ts hne ih =>
    rw [taken.eq_2 _ _ _ hne]
    have hn' : ∀ a b, .atom (.rat a b) ∉ ts := fun a b h => hn a b (List.mem_cons_of_mem _ h)
    refine ⟨fun k hk hs => ?_, fun a b h => absurd (by simp [h]) (hn a b), ih hn' (hl' _ _ hl) ?_⟩
    · obtain ⟨b, us, rfl⟩ := taken_slash _ _ hn' hs
      exact absurd rfl (hne k b us hk)
    · intro ht a b post hts
      by_contra ha
      exact hl ⟨[], a, b, post, by rw [hts, decide_eq_true_iff.mp ht]; rfl, by omega⟩
  | case4 d => trivial

/-- The text before quotients are taken. -/
theorem plain_written {e : Ast EAtom} (lead : ℕ) (its : List Item) (hr : Reads .expr (its.map Item.tok) e)
    (hh : HiddenOk (its.map fun i => (i.tok, i.hidden))) :
    implicitProducts (powerSigns (noBlanks (written lead its))) = (its.map Item.tok).flatMap tokSyms := by
  rw [signs_written, implicit_text _ hh (by simpa [Function.comp_def] using hr.shape.chain)]
  simp [Function.comp_def]

/-- C81: how a text of ordinary arithmetic is read, wherever quotients of literals stand in it, unless an exponent of several digits is
divided by a literal: as the text in which the quotients of literals are taken first. -/
theorem C81_reading (lead : ℕ) (its : List Item) (e : Ast EAtom) (hr : Reads .expr (its.map Item.tok) e)
    (hn : ∀ i ∈ its, ∀ a b, i.tok ≠ .atom (.rat a b)) (hh : HiddenOk (its.map fun i => (i.tok, i.hidden)))
    (hl : ¬ LongExponent (its.map Item.tok)) :
    ∃ e', Reads .expr (taken false (its.map Item.tok)) e' ∧ readText (written lead its) = .ok e' := by
  have hn' : ∀ a b, .atom (.rat a b) ∉ its.map Item.tok := by
    intro a b hm
    obtain ⟨i, hi, h⟩ := List.mem_map.mp hm
    exact hn i hi a b h
  obtain ⟨e', he⟩ := Reads.taken false (its.map Item.tok) [] e rfl (by simpa using hr)
  rw [List.nil_append] at he
  refine ⟨e', he, ?_⟩
  have h1 : implicitProducts (powerSigns (noBlanks (written lead its))) = (taken false (its.map Item.tok)).flatMap tokSyms := by
    rw [plain_written lead its hr hh, ← flat_syms (taken _ _), taken_flat _ _ hn']
  have hs := he.shape
  have h2 : prepare (written lead its) = (taken false (its.map Item.tok)).flatMap tokEmit := by
    simp only [prepare]
    rw [h1]
    exact fractions_text _ hs.chain false false (taken_numbers _ _ hn' hl (by simp)) (fun _ _ _ => rfl) _ le_rfl none none ⟨by simp, by simp⟩
  rw [readText, h2, lexer_text _ hs.chain]
  exact (C81_grammar _ e').mpr he

/-! ### Exponents of several digits -/

theorem fractions_star (A : List Sym) (f : ℕ) (p q : Option Sym) (R : List Sym) (hf : (A ++ .ch '*' :: R).length ≤ f) :
    ∃ A' f' p', R.length ≤ f' ∧ fractions f p q (A ++ .ch '*' :: R) = A' ++ .ch '*' :: fractions f' p' (some (.ch '*')) R := by
  induction hk : A.length using Nat.strong_induction_on generalizing A f p q with
  | _ k ih =>
    subst hk
    cases f with
    | zero => simp at hf
    | succ f =>
      cases A with
      | nil =>
        refine ⟨[], f, q, by simpa using hf, ?_⟩
        rw [List.nil_append, fractions, if_neg (by simp [Sym.isDigit])]
        rfl
      | cons x A =>
        rw [List.cons_append, fractions]
        split_ifs with hc
        · obtain ⟨hx, -, hs, he⟩ := hc
          -- the digits of the numerator end in A, the sign is in A, and so are the digits of the denominator
          have hstar : Sym.isDigit (.ch '*') = false := by decide
          obtain ⟨B, hB, hlen⟩ : ∃ B, (x :: (A ++ .ch '*' :: R)).dropWhile Sym.isDigit = B ++ .ch '*' :: R ∧ B.length ≤ A.length := by
            rw [List.dropWhile_cons_of_pos hx]
            refine ⟨A.dropWhile Sym.isDigit, ?_, (List.dropWhile_sublist _).length_le⟩
            rw [List.dropWhile_append]
            split_ifs with h0
            · rw [List.isEmpty_iff] at h0
              rw [h0, List.dropWhile_cons_of_neg (by simp [hstar])]; rfl
            · rfl
          rw [hB] at hs he ⊢
          cases B with
          | nil => simp at hs
          | cons y B =>
            simp only [List.cons_append, List.tail_cons] at he ⊢
            have hC : (B ++ .ch '*' :: R).dropWhile Sym.isDigit = B.dropWhile Sym.isDigit ++ .ch '*' :: R := by
              rw [List.dropWhile_append]
              split_ifs with h0
              · rw [List.isEmpty_iff] at h0
                rw [h0, List.dropWhile_cons_of_neg (by simp [hstar])]; rfl
              · rfl
            rw [hC]
            have hl2 := (List.dropWhile_sublist (l := B) Sym.isDigit).length_le
            simp only [List.length_cons, List.length_append] at hlen hf
            obtain ⟨A', f', p', h1, h2⟩ := ih (B.dropWhile Sym.isDigit).length (by simp only [List.length_cons]; omega) (B.dropWhile Sym.isDigit) f
              (some (.ch '/')) (((B ++ .ch '*' :: R).takeWhile Sym.isDigit).getLast?)
              (by simp only [List.length_cons, List.length_append]; omega) rfl
            rw [h2]
            exact ⟨_ :: A', f', p', h1, rfl⟩
        · obtain ⟨A', f', p', h1, h2⟩ := ih A.length (by simp) A f q (some x) (by simp only [List.cons_append, List.length_cons] at hf; omega) rfl
          rw [h2]
          exact ⟨x :: A', f', p', h1, rfl⟩

theorem pyStr_long {a : ℕ} (ha : 10 ≤ a) : ∃ c d s, pyStr a = c :: d :: s := by
  have h : ¬ (pyStr a).length ≤ 1 := by
    rw [pyStr, Nat.length_toDigits_le_iff (by omega) (by omega)]; omega
  match hs : pyStr a, h with
  | [], h => simp at h
  | [_], h => simp at h
  | c :: d :: s, _ => exact ⟨c, d, s, rfl⟩

theorem flushNum_ok {ds : List Char} {r : Except Err (List (Tok EAtom))} {us : List (Tok EAtom)} (h : flushNum ds r = .ok us) :
    ∃ ts, r = .ok ts ∧ ((ds = [] ∧ us = ts) ∨ ∃ k, us = .atom (.num k) :: ts) := by
  unfold flushNum at h
  split at h
  · cases h
  · next ts =>
    refine ⟨ts, rfl, ?_⟩
    split_ifs at h with hd
    · cases h; exact Or.inl ⟨hd, rfl⟩
    · split at h
      · next k _ => cases h; exact Or.inr ⟨k, rfl⟩
      · cases h

/-- A literal next to a fraction stays so. -/
theorem lexer_adjacent (A : List Sym) (c : Char) (hc : c.isDigit = true) (x y : List Char) (B : List Sym) (ds : List Char) (us : List (Tok EAtom))
    (h : lexer ds (A ++ .ch c :: .frac x y :: B) = .ok us) :
    ∃ pre k a b post, us = pre ++ .atom (.num k) :: .atom (.rat a b) :: post := by
  have step : ∀ (ds : List Char) (us : List (Tok EAtom)) (s : List Sym)
      (ih : ∀ vs, lexer [] s = .ok vs → ∃ pre k a b post, vs = pre ++ .atom (.num k) :: .atom (.rat a b) :: post) (r : Except Err (List (Tok EAtom)))
      (hr : ∀ vs, r = .ok vs → ∃ t ws, lexer [] s = .ok ws ∧ vs = t :: ws),
      flushNum ds r = .ok us → ∃ pre k a b post, us = pre ++ .atom (.num k) :: .atom (.rat a b) :: post := by
    intro ds us s ih r hr h
    obtain ⟨vs, h1, h2⟩ := flushNum_ok h
    obtain ⟨t, ws, h3, rfl⟩ := hr vs h1
    obtain ⟨pre, k, a, b, post, rfl⟩ := ih ws h3
    rcases h2 with ⟨-, rfl⟩ | ⟨m, rfl⟩
    · exact ⟨t :: pre, k, a, b, post, rfl⟩
    · exact ⟨.atom (.num m) :: t :: pre, k, a, b, post, rfl⟩
  induction hk : A.length using Nat.strong_induction_on generalizing A ds us with
  | _ n ih =>
    subst hk
    rcases A with _ | ⟨z, A⟩
    · rw [List.nil_append, lexer.eq_def] at h
      split at h
      · next heq => cases heq
      · next heq => cases heq
      · next heq => cases heq
      · next heq => simp at heq
      · next heq =>
        cases heq
        rw [if_pos hc, lexer] at h
        obtain ⟨ts, h1, h2⟩ := flushNum_ok h
        split at h1
        · next a b us' _ _ _ =>
          cases h1
          rcases h2 with ⟨h2, -⟩ | ⟨k, rfl⟩
          · simp at h2
          · exact ⟨[], k, a, b, us', rfl⟩
        · cases h1
    · have ih' : ∀ ds us, lexer ds (A ++ .ch c :: .frac x y :: B) = .ok us →
          ∃ pre k a b post, us = pre ++ .atom (.num k) :: .atom (.rat a b) :: post := fun ds us h => ih A.length (by simp) A ds us h rfl
      rw [List.cons_append, lexer.eq_def] at h
      split at h
      · next heq => cases heq
      · next heq =>
        cases heq
        refine step _ _ _ (ih' []) _ ?_ h
        intro vs hv
        split at hv
        · next ts hts => cases hv; exact ⟨_, _, hts, rfl⟩
        · cases hv
      · next heq =>
        cases heq
        refine step _ _ _ (ih' []) _ ?_ h
        intro vs hv
        split at hv
        · next ts _ _ hts => cases hv; exact ⟨_, _, hts, rfl⟩
        · cases hv
      · next s heq =>
        simp only [List.cons.injEq] at heq
        rcases A with _ | ⟨w, A⟩
        · simp only [List.nil_append, List.cons.injEq, Sym.ch.injEq] at heq
          rw [heq.2.1] at hc
          exact absurd hc (by decide)
        · simp only [List.cons_append, List.cons.injEq] at heq
          rw [← heq.2.2] at h
          refine step _ _ _ (fun vs hv => ih A.length (by simp only [List.length_cons]; omega) A [] vs hv rfl) _ ?_ h
          intro vs hv
          split at hv
          · next ts hts => cases hv; exact ⟨_, _, hts, rfl⟩
          · cases hv
      · next _ _ _ c' _ _ heq =>
        cases heq
        by_cases hd : c'.isDigit = true
        · rw [if_pos hd] at h
          exact ih' _ _ h
        · rw [if_neg hd] at h
          split at h
          · cases h
          · refine step _ _ _ (ih' []) _ ?_ h
            intro vs hv
            split at hv
            · next ts hts => cases hv; exact ⟨_, _, hts, rfl⟩
            · cases hv

theorem pyLiteral_error {ds : List Char} {e : Err} (h : pyLiteral ds = .error e) : e = .syntaxError := by
  unfold pyLiteral at h
  split_ifs at h
  cases h; rfl

theorem flushNum_error {ds : List Char} {r : Except Err (List (Tok EAtom))} (hr : ∀ e, r = .error e → e = .syntaxError) {e : Err}
    (h : flushNum ds r = .error e) : e = .syntaxError := by
  unfold flushNum at h
  split at h
  · cases h; exact hr _ rfl
  · split_ifs at h
    split at h
    · cases h
    · next hp => cases h; exact pyLiteral_error hp

theorem lexer_error (ds : List Char) (s : List Sym) (e : Err) (h : lexer ds s = .error e) : e = .syntaxError := by
  induction ds, s using lexer.induct generalizing e with
  | case1 ds =>
    rw [lexer] at h
    exact flushNum_error (r := .ok []) (fun e he => by cases he) h
  | case2 ds i s ih =>
    rw [lexer] at h
    exact flushNum_error (fun e' he => by split at he <;> cases he; exact ih _ ‹_›) h
  | case3 ds a b s ih =>
    rw [lexer] at h
    exact flushNum_error (fun e' he => by split at he <;> cases he; rfl) h
  | case4 ds s ih =>
    rw [lexer] at h
    exact flushNum_error (fun e' he => by split at he <;> cases he; exact ih _ ‹_›) h
  | case5 ds c s hne hd ih =>
    rw [lexer.eq_5 _ _ _ hne, if_pos hd] at h
    exact ih _ h
  | case6 ds c s hne hd hm =>
    rw [lexer.eq_5 _ _ _ hne, if_neg hd, hm] at h
    cases h; rfl
  | case7 ds c s hne hd t hm ih =>
    rw [lexer.eq_5 _ _ _ hne, if_neg hd, hm] at h
    exact flushNum_error (fun e' he => by split at he <;> cases he; exact ih _ ‹_›) h

/-- Whatever is wrong with a text is a SyntaxError. -/
theorem readText_error (s : List Sym) (e : Err) (h : readText s = .error e) : e = .syntaxError := by
  unfold readText at h
  split at h
  · next h' => cases h; exact lexer_error _ _ _ h'
  · unfold astParse at h
    split at h <;> cases h
    rfl

/-- C81: where an exponent of several digits is divided by a literal, as in `x**12/3`, the text is not read: SyntaxError. -/
theorem C81_long_exponent (lead : ℕ) (its : List Item) (e : Ast EAtom) (hr : Reads .expr (its.map Item.tok) e)
    (hh : HiddenOk (its.map fun i => (i.tok, i.hidden))) (hl : LongExponent (its.map Item.tok)) :
    readText (written lead its) = .error .syntaxError := by
  rcases h : readText (written lead its) with err | e'
  · rw [readText_error _ _ h]
  · exfalso
    unfold readText at h
    split at h
    · cases h
    next us hus =>
    have hu := (C81_grammar _ _).mp h
    obtain ⟨pre, a, b, post, ht, ha⟩ := hl
    have h1 := plain_written lead its hr hh
    rw [ht] at h1
    obtain ⟨c, d, s, hs⟩ := pyStr_long ha
    obtain ⟨s', c', hs', hc'⟩ := pyStr_first b
    have hda : c.isDigit = true ∧ d.isDigit = true := by
      have := pyStr_digits a
      rw [hs] at this
      exact ⟨this c (by simp), this d (by simp)⟩
    have h2 : implicitProducts (powerSigns (noBlanks (written lead its))) = (pre.flatMap tokSyms) ++ .ch '*' :: .ch '*' :: .ch c :: .ch d ::
        (chs s ++ .ch '/' :: (.ch c' :: (chs s' ++ post.flatMap tokSyms))) := by
      rw [h1]
      simp [tokSyms, hs, hs', chs]
    unfold prepare at hus
    simp only at hus
    rw [h2] at hus
    obtain ⟨A', f', p', h3, h4⟩ := fractions_star (pre.flatMap tokSyms) _ none none (.ch '*' :: .ch c :: .ch d ::
        (chs s ++ .ch '/' :: (.ch c' :: (chs s' ++ post.flatMap tokSyms)))) le_rfl
    rw [h4] at hus
    obtain ⟨g, rfl⟩ : ∃ g, f' = g + 3 := ⟨f' - 3, by simp only [List.length_cons] at h3; omega⟩
    rw [fractions, if_neg (by simp [Sym.isDigit]), fractions, if_neg (by simp), fractions, if_pos] at hus
    · have assoc : ∀ X : List Sym, A' ++ .ch '*' :: .ch '*' :: .ch c :: X = (A' ++ [.ch '*', .ch '*']) ++ .ch c :: X := by simp
      rw [assoc] at hus
      obtain ⟨pre', k, a', b', post', rfl⟩ := lexer_adjacent _ c hda.1 _ _ _ _ _ hus
      have := hu.shape.chain
      rw [List.isChain_append] at this
      have := this.2.1
      rw [List.isChain_cons_cons] at this
      exact this.1.1 ⟨trivial, trivial⟩
    · have t1 := takeWhile_digits (d :: s) (fun z hz => pyStr_digits a z (by rw [hs]; exact List.mem_cons_of_mem _ hz))
        (.ch '/' :: (.ch c' :: (chs s' ++ post.flatMap tokSyms))) (by
          intro z hz; simp at hz; subst hz; decide)
      simp only [chs, List.map_cons, List.cons_append] at t1
      refine ⟨hda.2, ?_, ?_, ?_⟩
      · simp
        rintro rfl
        exact absurd hda.1 (by decide)
      · simp only [chs]
        rw [t1.2]; rfl
      · simp only [chs]
        rw [t1.2, List.tail_cons, List.takeWhile_cons_of_pos (p := Sym.isDigit) (a := .ch c') hc']
        simp

/-- C81: a text of ordinary arithmetic is read exactly when no exponent of several digits is divided by a literal; else SyntaxError. -/
theorem C81_read_iff (lead : ℕ) (its : List Item) (e : Ast EAtom) (hr : Reads .expr (its.map Item.tok) e)
    (hn : ∀ i ∈ its, ∀ a b, i.tok ≠ .atom (.rat a b)) (hh : HiddenOk (its.map fun i => (i.tok, i.hidden))) :
    readText (written lead its) ≠ .error .syntaxError ↔ ¬ LongExponent (its.map Item.tok) := by
  refine ⟨fun h hl => h (C81_long_exponent lead its e hr hh hl), fun hl h => ?_⟩
  obtain ⟨e', -, h'⟩ := C81_reading lead its e hr hn hh hl
  rw [h] at h'
  cases h'

variable {K : Type*} [Field K]

/-- C81, wherever quotients of literals stand: unless an exponent of several digits is divided by a literal, evaluating a text whose
value is defined once the quotients of literals are taken first succeeds, and unless the result is a float it is this value. In
characteristic zero, conversely, this value is then defined. -/
theorem C81_exact (leaf : List Char → Except Err K) (lead : ℕ) (its : List Item) (e : Ast EAtom) (hr : Reads .expr (its.map Item.tok) e)
    (hn : ∀ i ∈ its, ∀ a b, i.tok ≠ .atom (.rat a b)) (hh : HiddenOk (its.map fun i => (i.tok, i.hidden)))
    (hl : ¬ LongExponent (its.map Item.tok)) :
    ∃ e', Reads .expr (taken false (its.map Item.tok)) e' ∧
      (∀ v, e'.value (atomValue fun i => (leaf i).toOption) atomInt = some v →
        ∃ w, evalText leaf (written lead its) = .ok w ∧ (e'.ty = none ↔ w = .other) ∧ (e'.ty ≠ none → w.toField = .ok v)) ∧
      (CharZero K → ∀ w, evalText leaf (written lead its) = .ok w → w ≠ .other →
        ∃ v, e'.value (atomValue fun i => (leaf i).toOption) atomInt = some v ∧ w.toField = .ok v) := by
  obtain ⟨e', he, h1⟩ := C81_reading lead its e hr hn hh hl
  refine ⟨e', he, fun v hv => ?_, fun _ w hw ho => ?_⟩
  · obtain ⟨w, h3, h4, h5⟩ := evalNode_value leaf e' v hv
    refine ⟨w, by rw [evalText, h1]; exact h3, ?_, h5⟩
    rw [← h4]
    cases w <;> simp [EVal.tag]
  · rw [evalText, h1] at hw
    exact value_of_evalNode leaf e' w hw ho

/-- The number thirteen is prime. -/
theorem thirteen_prime : Nat.Prime 13 := by decide

/-- C81: over the field of thirteen elements `13/26` is one half, although 13 and 26 are zero there and the quotient is not
defined: the fraction is reduced before it meets the field. -/
theorem C81_characteristic (lead p q r : ℕ) (leaf : List Char → Except Err (ZMod 13)) :
    haveI := Fact.mk thirteen_prime
    Ast.value (α := EAtom) (K := ZMod 13) (atomValue fun i => (leaf i).toOption) atomInt (.div (.atom (.num 13)) (.atom (.num 26))) = none ∧
    ∃ w : EVal (ZMod 13), evalText leaf (written lead [{ tok := .atom (.num 13), blanks := p }, { tok := .slash, blanks := q },
      { tok := .atom (.num 26), blanks := r }]) = .ok w ∧ w.toField = .ok (1 / 2) := by
  have := Fact.mk thirteen_prime
  have z : ((26 : ℕ) : ZMod 13) = 0 := by rfl
  refine ⟨?_, _, C81_rational leaf 13 26 (by norm_num) lead p q r, ?_⟩
  · simp only [Ast.value, atomValue, Option.bind_some, quotient, z, if_true]
  · have e : (((13 : ℕ) : ℚ) / ((26 : ℕ) : ℚ)) = 1 / 2 := by norm_num
    have h2 : ((1 / 2 : ℚ).den) = 2 := by decide +kernel
    have h1 : ((1 / 2 : ℚ).num) = 1 := by decide +kernel
    rw [e, EVal.toField, ratField_ok, Rat.cast_def, h1, h2]
    exact ⟨by decide +kernel, by simp⟩

end Lips

import Verif.Props.PolyImage
import Verif.Props.Generators
import Mathlib.Data.List.Chain

/-!
C73 for polynomials in the brackets, and C75.
-/

namespace Lips

open Matrix

set_option linter.unusedSectionVars false

variable {K : Type*} [Field K] {n : ℕ}

/-! ### Pairs of labels -/

theorem mem_pairsList {n i j : ℕ} : (i, j) ∈ pairsList n ↔ 1 ≤ i ∧ i < j ∧ j ≤ n := by
  simp only [pairsList, List.mem_flatMap, List.mem_map, List.mem_filter, List.mem_range'_1, decide_eq_true_eq, Prod.mk.injEq]
  constructor
  · rintro ⟨a, ha, b, hb, rfl, rfl⟩; omega
  · rintro ⟨h1, h2, h3⟩; exact ⟨i, by omega, j, by omega, rfl, rfl⟩

theorem pairsList_nodup (n : ℕ) : (pairsList n).Nodup := by
  unfold pairsList
  rw [List.nodup_flatMap]
  refine ⟨fun i _ => ((List.nodup_range' (step := 1)).filter _).map fun a b h => (Prod.mk.inj h).2, ?_⟩
  refine (List.nodup_range' (step := 1)).pairwise_of_forall_ne ?_
  intro a _ b _ hab x hx hy
  simp only [List.mem_map] at hx hy
  obtain ⟨_, _, rfl⟩ := hx
  obtain ⟨_, _, h⟩ := hy
  exact hab (Prod.mk.inj h).1.symm

theorem length_filter_range' (i : ℕ) : ∀ m a : ℕ, a ≤ i + 1 → i + 1 ≤ a + m →
    ((List.range' a m).filter (i < ·)).length = a + m - (i + 1)
  | 0, a, h1, h2 => by simp; omega
  | m + 1, a, h1, h2 => by
    rw [List.range'_succ]
    by_cases h : i < a
    · have e : (List.range' (a + 1) m).filter (i < ·) = List.range' (a + 1) m :=
        List.filter_eq_self.mpr fun x hx => by rw [List.mem_range'_1] at hx; simp; omega
      simp only [List.filter_cons, h, decide_true, if_true, List.length_cons, e, List.length_range']
      omega
    · simp only [List.filter_cons, h, decide_false, Bool.false_eq_true, if_false]
      rw [length_filter_range' i m (a + 1) (by omega) (by omega)]
      omega

theorem length_pairsList (n : ℕ) : (pairsList n).length = n * (n - 1) / 2 := by
  unfold pairsList
  rw [List.length_flatMap]
  have e : ((List.range' 1 n).map fun i => (((List.range' 1 n).filter (i < ·)).map fun j => (i, j)).length) =
      (List.range' 1 n).map fun i => n - i := by
    refine List.map_congr_left fun i hi => ?_
    rw [List.mem_range'_1] at hi
    rw [List.length_map, length_filter_range' i n 1 (by omega) (by omega)]
    omega
  rw [e]
  have key : ∀ m : ℕ, ((List.range' 1 m).map fun i => m - i).sum = m * (m - 1) / 2 := by
    intro m
    rw [← Finset.sum_range_id, ← Finset.sum_range_reflect, List.range'_eq_map_range, List.map_map,
      Finset.sum_range, ← List.sum_ofFn, List.ofFn_eq_map, ← List.map_coe_finRange_eq_range, List.map_map]
    congr 1
    refine List.map_congr_left fun k _ => ?_
    simp; omega
  exact key n

theorem getElem?_idxOf {a : ℕ × ℕ} {l : List (ℕ × ℕ)} (h : a ∈ l) : l[l.idxOf a]? = some a := by
  rw [List.getElem?_eq_getElem (List.idxOf_lt_length_of_mem h), List.getElem_idxOf]

/-- The rows and columns of the matrix after a permutation. -/
theorem signedPerm_permString (hn : n ≤ 9) (σ : Equiv.Perm (Fin n)) : signedPerm (permString σ) =
    .ok ((pairsList n).map fun ij => index2d n (permLabel σ ij.1) (permLabel σ ij.2)) := by
  have e : (permString σ).mapM intChar = some (permLabels σ) := by
    have : ∀ l : List (Fin n), (l.map fun i => Nat.digitChar ((σ i : ℕ) + 1)).mapM intChar = some (l.map fun i => (σ i : ℕ) + 1) := by
      intro l
      induction l with
      | nil => rfl
      | cons x l ih =>
        have := (σ x).isLt
        simp only [List.map_cons, List.mapM_cons, intChar_digitChar _ (show (σ x : ℕ) + 1 < 10 by omega), ih]
        rfl
    exact this _
  rw [signedPerm, e]
  simp only [length_permString]
  rw [if_pos]
  · congr 1
    refine List.map_congr_left fun ij hij => ?_
    obtain ⟨i, j⟩ := ij
    rw [mem_pairsList] at hij
    have get : ∀ k, 1 ≤ k → k ≤ n → (permLabels σ).getD (k - 1) 0 = permLabel σ k := by
      intro k h1 h2
      rw [permLabel, dif_pos ⟨h1, h2⟩, permLabels, List.getD_eq_getElem?_getD, List.getElem?_map,
        List.getElem?_eq_getElem (by simp; omega)]
      simp
    simp only
    rw [get i (by omega) (by omega), get j (by omega) (by omega)]
  · rw [List.all_eq_true]
    intro d hd
    obtain ⟨k, -, rfl⟩ := List.mem_map.mp hd
    have := (σ k).isLt
    simp

/-! ### Scanning -/

/-- Two parts of a result. -/
def appendOk (x y : Except Err (List Char)) : Except Err (List Char) :=
  match x, y with
  | .error e, _ => .error e
  | .ok _, .error e => .error e
  | .ok a, .ok b => .ok (a ++ b)

theorem invariantScan_pending (sp : List ℤ) (l : Char) (ds rest : List Char) (h : ∀ x, rest.head? = some x → x.isDigit = false) :
    invariantScan sp (some (l, ds)) rest = appendOk (invariantFlush sp (some (l, ds))) (invariantScan sp none rest) := by
  cases rest with
  | nil =>
    rw [invariantScan, invariantScan]
    rcases invariantFlush sp (some (l, ds)) with e | f
    · rfl
    · simp [appendOk, invariantFlush]
  | cons x xs =>
    have hx := h x rfl
    rw [invariantScan, invariantScan]
    simp only [hx, Bool.false_eq_true, if_false]
    rcases invariantFlush sp (some (l, ds)) with e | f
    · rfl
    · simp only
      split_ifs
      · rcases invariantScan sp (some (x, [])) xs <;> rfl
      · rcases invariantScan sp none xs <;> rfl

theorem invariantScan_digits (sp : List ℤ) (l : Char) (ds more rest : List Char) (hm : ∀ x ∈ more, x.isDigit = true) :
    invariantScan sp (some (l, ds)) (more ++ rest) = invariantScan sp (some (l, ds ++ more)) rest := by
  induction more generalizing ds with
  | nil => simp
  | cons x more ih =>
    rw [List.cons_append, invariantScan, if_pos (hm x List.mem_cons_self),
      ih _ fun y hy => hm y (List.mem_cons_of_mem _ hy), List.append_assoc]
    rfl

theorem invariantScan_plain (sp : List ℤ) (s rest : List Char) (hs : ∀ x ∈ s, x ≠ 'A' ∧ x ≠ 'B') :
    invariantScan sp none (s ++ rest) = mapOk (s ++ ·) (invariantScan sp none rest) := by
  induction s with
  | nil => simp only [List.nil_append]; cases invariantScan sp none rest <;> rfl
  | cons x s ih =>
    obtain ⟨h1, h2⟩ := hs x List.mem_cons_self
    rw [List.cons_append, invariantScan, if_neg (by tauto), ih fun y hy => hs y (List.mem_cons_of_mem _ hy)]
    cases invariantScan sp none rest <;> rfl

/-! ### The image of a text in the brackets -/

/-- The letters of brackets. -/
def invLetters : List Char := ['A', 'B']

/-- The variables of the text are brackets of `n` particles. -/
def InvVars (n : ℕ) (ts : List (Tok PAtom × ℕ)) : Prop :=
  ∀ l i k, (Tok.atom (PAtom.var l i), k) ∈ ts → l ∈ invLetters ∧ 1 ≤ i ∧ i ≤ n * (n - 1) / 2

/-- The signed number of the image of a bracket. -/
def invNumber (σ : Equiv.Perm (Fin n)) (i : ℕ) : ℤ :=
  match (pairsList n)[i - 1]? with
  | some ij => index2d n (permLabel σ ij.1) (permLabel σ ij.2)
  | none => 0

/-- What the image does to an atom: a bracket that changes sign becomes a bracket with a minus sign in parentheses. -/
def invAtomToks (σ : Equiv.Perm (Fin n)) (f : Char → Char) : PAtom → List (Tok PAtom)
  | .num k => [.atom (.num k)]
  | .var l i => if 0 < invNumber σ i then [.atom (.var (f l) (invNumber σ i).natAbs)]
    else [.lpar, .minus, .atom (.var (f l) (invNumber σ i).natAbs), .rpar]

/-- The tree of `invAtomToks`. -/
def invAtomTree (σ : Equiv.Perm (Fin n)) (f : Char → Char) : PAtom → Ast PAtom
  | .num k => .atom (.num k)
  | .var l i => if 0 < invNumber σ i then .atom (.var (f l) (invNumber σ i).natAbs)
    else .neg (.atom (.var (f l) (invNumber σ i).natAbs))

theorem invAtom_reads (σ : Equiv.Perm (Fin n)) (f : Char → Char) (x : PAtom) : Reads .atom (invAtomToks σ f x) (invAtomTree σ f x) := by
  rcases x with k | ⟨l, i⟩
  · exact .atom _
  · simp only [invAtomToks, invAtomTree]
    split_ifs
    · exact .atom _
    · exact .paren (ts := [.minus, .atom _]) (.ofTerm (.ofFactor (.neg (.ofPower (.ofAtom (.atom _))))))

/-- Blanks after the last of some tokens. -/
def padLast (k : ℕ) : List (Tok PAtom) → List (Tok PAtom × ℕ)
  | [] => []
  | [t] => [(t, k)]
  | t :: ts => (t, 0) :: padLast k ts

theorem padLast_fst (k : ℕ) : ∀ ts, (padLast k ts).map Prod.fst = ts
  | [] => rfl
  | [_] => rfl
  | t :: u :: ts => by rw [padLast, List.map_cons, padLast_fst k (u :: ts)]; simp

/-- The image of a text as a text. -/
def invToks (σ : Equiv.Perm (Fin n)) (f : Char → Char) (ts : List (Tok PAtom × ℕ)) : List (Tok PAtom × ℕ) :=
  ts.flatMap fun t => padLast t.2 (t.1.bind (invAtomToks σ f))

theorem invToks_fst (σ : Equiv.Perm (Fin n)) (f : Char → Char) (ts : List (Tok PAtom × ℕ)) :
    (invToks σ f ts).map Prod.fst = (ts.map Prod.fst).flatMap (Tok.bind (invAtomToks σ f)) := by
  rw [invToks, List.map_flatMap, List.flatMap_map]
  exact List.flatMap_congr fun t _ => padLast_fst _ _

/-- No two atoms stand side by side. -/
def Apart (s t : Tok PAtom) : Prop := ¬ ((∃ x, s = .atom x) ∧ ∃ y, t = .atom y)

theorem Reads.apart {L : Level} {ts : List (Tok PAtom)} {e : Ast PAtom} (h : Reads L ts e) : ts.IsChain Apart := by
  have op : ∀ {ts us : List (Tok PAtom)} (o : Tok PAtom), (∀ x, o ≠ .atom x) → ts.IsChain Apart → us.IsChain Apart →
      (ts ++ o :: us).IsChain Apart := by
    intro ts us o ho h1 h2
    rw [List.isChain_append]
    refine ⟨h1, ?_, fun x _ y hy hxy => ?_⟩
    · rw [List.isChain_cons]
      exact ⟨fun y _ hxy => by obtain ⟨⟨x, rfl⟩, -⟩ := hxy; exact ho x rfl, h2⟩
    · obtain ⟨-, z, rfl⟩ := hxy
      simp at hy
      exact ho z hy
  induction h with
  | atom x => exact List.isChain_singleton _
  | paren _ ih =>
    rw [List.isChain_cons]
    exact ⟨fun y _ hxy => (by obtain ⟨⟨x, hx⟩, -⟩ := hxy; cases hx), op .rpar (by simp) ih List.isChain_nil⟩
  | ofAtom _ ih => exact ih
  | pow _ _ ih₁ ih₂ => exact op _ (by simp) ih₁ ih₂
  | ofPower _ ih => exact ih
  | neg _ ih => exact op (ts := []) _ (by simp) List.isChain_nil ih
  | pos _ ih => exact op (ts := []) _ (by simp) List.isChain_nil ih
  | ofFactor _ ih => exact ih
  | mul _ _ ih₁ ih₂ => exact op _ (by simp) ih₁ ih₂
  | div _ _ ih₁ ih₂ => exact op _ (by simp) ih₁ ih₂
  | ofTerm _ ih => exact ih
  | add _ _ ih₁ ih₂ => exact op _ (by simp) ih₁ ih₂
  | sub _ _ ih₁ ih₂ => exact op _ (by simp) ih₁ ih₂

theorem digit_not_inv (x : Char) (hx : x.isDigit = true) : x ≠ 'A' ∧ x ≠ 'B' := (digit_plain x hx).2

theorem renderTok_plain_inv {pw : List Char} (hpw : PowerSign pw) (t : Tok PAtom) (ht : ∀ l i, t ≠ .atom (.var l i)) :
    ∀ x ∈ renderTok pw t, x ≠ 'A' ∧ x ≠ 'B' := by
  rcases t with (k | ⟨l, i⟩) | _ | _ | _ | _ | _ | _ | _
  · intro x hx; exact digit_not_inv x (pyStr_digits k x hx)
  · exact absurd rfl (ht l i)
  all_goals simp only [renderTok]
  case dstar => rcases hpw with rfl | rfl <;> decide
  all_goals decide

theorem head_not_digit {pw : List Char} (hpw : PowerSign pw) (k : ℕ) (ts : List (Tok PAtom × ℕ))
    (hv : InvVars n ts) (h : ∀ t, (ts.map Prod.fst).head? = some t → ∀ x, t ≠ .atom x) (x : Char)
    (hx : (List.replicate k ' ' ++ renderText pw ts).head? = some x) : x.isDigit = false := by
  cases k with
  | succ k => simp [List.replicate_succ] at hx; subst hx; decide
  | zero =>
    cases ts with
    | nil => simp [renderText] at hx
    | cons t ts =>
      obtain ⟨t, j⟩ := t
      have h := h t rfl
      simp only [List.replicate_zero, List.nil_append, renderText, List.flatMap_cons, List.append_assoc] at hx
      rcases t with y | _ | _ | _ | _ | _ | _ | _
      · exact absurd rfl (h y)
      case dstar => rcases hpw with rfl | rfl <;> (simp [renderTok] at hx; subst hx; decide)
      all_goals (simp [renderTok] at hx; subst hx; decide)

theorem invariantScan_text (σ : Equiv.Perm (Fin n)) (sp : List ℤ)
    (hsp : sp = (pairsList n).map fun ij => index2d n (permLabel σ ij.1) (permLabel σ ij.2)) {pw : List Char} (hpw : PowerSign pw)
    (ts : List (Tok PAtom × ℕ)) (hv : InvVars n ts) (hc : (ts.map Prod.fst).IsChain Apart) :
    invariantScan sp none (renderText pw ts) = .ok (renderText pw (invToks σ id ts)) := by
  induction ts with
  | nil => rfl
  | cons t ts ih =>
    have hv' : InvVars n ts := fun l i k h => hv l i k (List.mem_cons_of_mem _ h)
    obtain ⟨t, k⟩ := t
    rw [List.map_cons, List.isChain_cons] at hc
    have ih := ih hv' hc.2
    have hb : ∀ x ∈ List.replicate k ' ', x ≠ 'A' ∧ x ≠ 'B' := fun x hx => by rw [List.eq_of_mem_replicate hx]; decide
    have e0 : renderText pw ((t, k) :: ts) = renderTok pw t ++ (List.replicate k ' ' ++ renderText pw ts) := by
      simp [renderText]
    have e1 : renderText pw (invToks σ id ((t, k) :: ts)) =
        renderText pw (padLast k (t.bind (invAtomToks σ id))) ++ renderText pw (invToks σ id ts) := by
      simp [renderText, invToks]
    rw [e0, e1]
    by_cases ht : ∃ l i, t = .atom (.var l i)
    · obtain ⟨l, i, rfl⟩ := ht
      obtain ⟨hl, h1, h2⟩ := hv l i k List.mem_cons_self
      have hl' : l = 'A' ∨ l = 'B' := by simpa [invLetters] using hl
      have hd := head_not_digit hpw k ts hv' fun t ht x hx => hc.1 t ht ⟨⟨_, rfl⟩, x, hx⟩
      rw [show renderTok pw (.atom (.var l i)) = l :: pyStr i from rfl, List.cons_append, invariantScan, if_pos hl',
        invariantScan_digits _ _ _ _ _ (pyStr_digits i), List.nil_append, invariantScan_pending _ _ _ _ hd,
        invariantScan_plain _ _ _ hb, ih]
      have hg : pyGetMinusOne sp i = .ok (invNumber σ i) := by
        have hlt : i - 1 < (pairsList n).length := by rw [length_pairsList]; omega
        rw [pyGetMinusOne, if_neg (by omega), hsp, List.getElem?_map, invNumber, List.getElem?_eq_getElem hlt]
        rfl
      have hf : invariantFlush sp (some (l, pyStr i)) = invariantSub sp l (pyStr i) := by
        have := pyStr_ne_nil i
        cases hq : pyStr i with
        | nil => exact absurd hq this
        | cons d ds => rfl
      rw [hf, invariantSub, pyInt_pyStr, hg]
      simp only [mapOk, appendOk, Tok.bind, invAtomToks, id]
      split_ifs <;> simp [padLast, renderText, renderTok]
    · have ht' : ∀ l i, t ≠ .atom (.var l i) := fun l i h => ht ⟨l, i, h⟩
      have e : t.bind (invAtomToks σ id) = [t] := by
        rcases t with (k | ⟨l, i⟩) | _ | _ | _ | _ | _ | _ | _ <;> first | rfl | exact absurd rfl (ht' l i)
      rw [invariantScan_plain _ _ _ (renderTok_plain_inv hpw t ht'), invariantScan_plain _ _ _ hb, ih, e]
      simp [mapOk, padLast, renderText]

/-! ### Exchanging the letters -/

/-- Exchanging angle and square brackets. -/
def swapBracket (x : Char) : Char := if x = 'A' then 'B' else if x = 'B' then 'A' else x

/-- The three replacements. -/
def swapChain₂ (s : List Char) : List Char := replaceChar 'C' 'B' (replaceChar 'B' 'A' (replaceChar 'A' 'C' s))

theorem swapChain₂_append (s t : List Char) : swapChain₂ (s ++ t) = swapChain₂ s ++ swapChain₂ t := by
  simp [swapChain₂, replaceChar]

theorem swapChain₂_plain (s : List Char) (h : ∀ x ∈ s, x ≠ 'A' ∧ x ≠ 'B' ∧ x ≠ 'C') : swapChain₂ s = s := by
  unfold swapChain₂ replaceChar
  rw [List.map_map, List.map_map]
  conv_rhs => rw [← List.map_id s]
  refine List.map_congr_left fun x hx => ?_
  obtain ⟨h1, h2, h3⟩ := h x hx
  simp [h1, h2, h3]

theorem digit_plain₂ (x : Char) (hx : x.isDigit = true) : x ≠ 'A' ∧ x ≠ 'B' ∧ x ≠ 'C' :=
  ⟨(digit_not_inv x hx).1, (digit_not_inv x hx).2, by rintro rfl; exact absurd hx (by decide)⟩

/-- The letters with or without exchange. -/
def maybeSwap₂ (b : Bool) (x : Char) : Char := if b then swapBracket x else x

/-- The exchange on atoms. -/
def swapAtom₂ : PAtom → PAtom
  | .num k => .num k
  | .var l i => .var (swapBracket l) i

theorem swapChain₂_text {pw : List Char} (hpw : PowerSign pw) (ts : List (Tok PAtom × ℕ))
    (hv : ∀ l i k, (Tok.atom (PAtom.var l i), k) ∈ ts → l ∈ invLetters) :
    swapChain₂ (renderText pw ts) = renderText pw (ts.map fun t => (t.1.map swapAtom₂, t.2)) := by
  induction ts with
  | nil => rfl
  | cons t ts ih =>
    obtain ⟨t, k⟩ := t
    have ih := ih fun l i k h => hv l i k (List.mem_cons_of_mem _ h)
    simp only [renderText, List.flatMap_cons, List.map_cons, swapChain₂_append] at *
    rw [ih, swapChain₂_plain (List.replicate k ' ') fun x hx => by rw [List.eq_of_mem_replicate hx]; decide]
    congr 2
    rcases t with (j | ⟨l, i⟩) | _ | _ | _ | _ | _ | _ | _
    · simp only [Tok.map, swapAtom₂, renderTok]
      exact swapChain₂_plain _ fun x hx => digit_plain₂ x (pyStr_digits j x hx)
    · simp only [Tok.map, swapAtom₂, renderTok]
      have hl := hv l i k List.mem_cons_self
      have e : swapChain₂ [l] = [swapBracket l] := by
        simp only [invLetters, List.mem_cons, List.not_mem_nil, or_false] at hl
        rcases hl with rfl | rfl <;> decide
      rw [show l :: pyStr i = [l] ++ pyStr i from rfl, swapChain₂_append, e,
        swapChain₂_plain (pyStr i) fun x hx => digit_plain₂ x (pyStr_digits i x hx)]
      rfl
    case dstar => simp only [Tok.map, renderTok]; rcases hpw with rfl | rfl <;> decide
    all_goals simp only [Tok.map, renderTok]; decide

theorem padLast_map (f : PAtom → PAtom) (k : ℕ) : ∀ ts : List (Tok PAtom),
    (padLast k ts).map (fun t => (t.1.map f, t.2)) = padLast k (ts.map (Tok.map f))
  | [] => rfl
  | [_] => rfl
  | t :: u :: ts => by
    rw [padLast, List.map_cons, padLast_map f k (u :: ts)]
    · rfl
    · simp

theorem invariantPolyImage_text (hn : n ≤ 9) (σ : Equiv.Perm (Fin n)) (b : Bool) {pw : List Char} (hpw : PowerSign pw)
    (ts : List (Tok PAtom × ℕ)) (hv : InvVars n ts) (hc : (ts.map Prod.fst).IsChain Apart) :
    invariantPolyImage (renderText pw ts) (permString σ, b) = .ok (renderText pw (invToks σ (maybeSwap₂ b) ts)) := by
  rw [invariantPolyImage, signedPerm_permString hn σ]
  simp only
  rw [invariantScan_text σ _ rfl hpw ts hv hc]
  cases b with
  | false => rfl
  | true =>
    simp only [if_true]
    congr 1
    have := swapChain₂_text hpw (invToks σ id ts) (by
      intro l i k h
      obtain ⟨⟨t, k'⟩, h1, h2⟩ := List.mem_flatMap.mp h
      have h3 : Tok.atom (PAtom.var l i) ∈ (padLast k' (t.bind (invAtomToks σ id))).map Prod.fst :=
        List.mem_map.mpr ⟨_, h2, rfl⟩
      rw [padLast_fst] at h3
      rcases t with (j | ⟨l', i'⟩) | _ | _ | _ | _ | _ | _ | _
      · simp [Tok.bind, invAtomToks] at h3
      · simp only [Tok.bind, invAtomToks, id] at h3
        split_ifs at h3 <;> simp at h3 <;> (obtain ⟨rfl, -⟩ := h3; exact (hv _ _ _ h1).1)
      all_goals simp [Tok.bind] at h3)
    rw [swapChain₂] at this
    rw [this, invToks, List.map_flatMap, invToks]
    congr 1
    refine List.flatMap_congr fun t _ => ?_
    rw [padLast_map]
    congr 1
    obtain ⟨t, k⟩ := t
    rcases t with (j | ⟨l', i'⟩) | _ | _ | _ | _ | _ | _ | _
    on_goal 2 => simp only [Tok.bind, invAtomToks, id]; split_ifs <;> rfl
    all_goals rfl

/-! ### Values -/

/-- The value of a bracket of a point: `A` are the angle and `B` the square brackets, numbered from one in the
order of the pairs of labels. -/
def bracketValue (m : List (Particle K)) (x : Char) (k : ℕ) : Option K :=
  match (pairsList m.length)[k - 1]? with
  | none => none
  | some (i, j) =>
    match m[i - 1]?, m[j - 1]? with
    | some p, some q =>
      match (if x = 'A' then angle p q else if x = 'B' then square p q else .error .keyError) with
      | .ok v => some v
      | .error _ => none
    | _, _ => none

theorem bracketValue_ofFn (c : Ctx K) (ps : Fin n → Particle K) (r l : Fin n → V2 K) (h : ∀ k, HasSpinors c (ps k) (r k) (l k))
    (x : Char) (k : ℕ) (i j : Fin n) (hk : (pairsList n)[k - 1]? = some ((i : ℕ) + 1, (j : ℕ) + 1)) :
    bracketValue (List.ofFn ps) x k =
      if x = 'A' then some (SpecAngle (r i) (r j)) else if x = 'B' then some (SpecSquare (l i) (l j)) else none := by
  have h1 : angle (ps i) (ps j) = .ok (SpecAngle (r i) (r j)) := by
    simp [angle, (h i).r_u, (h j).r_d, dot2, SpecAngle]; ring
  have h2 : square (ps i) (ps j) = .ok (SpecSquare (l i) (l j)) := by
    simp [square, (h i).l_d, (h j).l_u, dot2, SpecSquare]; ring
  rw [bracketValue, List.length_ofFn, hk]
  simp [h1, h2]
  split_ifs <;> rfl

theorem invNumber_spec (σ : Equiv.Perm (Fin n)) (k : ℕ) (i j : Fin n) (hk : (pairsList n)[k - 1]? = some ((i : ℕ) + 1, (j : ℕ) + 1)) :
    (0 < invNumber σ k ∧ (pairsList n)[(invNumber σ k).natAbs - 1]? = some ((σ i : ℕ) + 1, (σ j : ℕ) + 1)) ∨
    (¬ 0 < invNumber σ k ∧ (pairsList n)[(invNumber σ k).natAbs - 1]? = some ((σ j : ℕ) + 1, (σ i : ℕ) + 1)) := by
  have hm := List.mem_of_getElem? hk
  rw [mem_pairsList] at hm
  have hij : i ≠ j := by rintro rfl; omega
  have hne : (σ i : ℕ) ≠ σ j := fun h => hij (σ.injective (Fin.ext h))
  have h1 := (σ i).isLt
  have h2 := (σ j).isLt
  simp only [invNumber, hk, permLabel_fin, index2d]
  by_cases hlt : (σ i : ℕ) < σ j
  · have hmem : ((σ i : ℕ) + 1, (σ j : ℕ) + 1) ∈ pairsList n := mem_pairsList.mpr (by omega)
    left
    rw [if_pos hmem]
    refine ⟨by omega, ?_⟩
    rw [show ((((pairsList n).idxOf ((σ i : ℕ) + 1, (σ j : ℕ) + 1) : ℕ) : ℤ) + 1).natAbs - 1 = (pairsList n).idxOf ((σ i : ℕ) + 1, (σ j : ℕ) + 1) by omega]
    exact getElem?_idxOf hmem
  · have hmem : ((σ j : ℕ) + 1, (σ i : ℕ) + 1) ∈ pairsList n := mem_pairsList.mpr (by omega)
    have hnot : ((σ i : ℕ) + 1, (σ j : ℕ) + 1) ∉ pairsList n := fun h => by rw [mem_pairsList] at h; omega
    right
    rw [if_neg hnot, if_pos hmem]
    refine ⟨by omega, ?_⟩
    rw [show (-((((pairsList n).idxOf ((σ j : ℕ) + 1, (σ i : ℕ) + 1) : ℕ) : ℤ) + 1)).natAbs - 1 = (pairsList n).idxOf ((σ j : ℕ) + 1, (σ i : ℕ) + 1) by omega]
    exact getElem?_idxOf hmem

theorem SpecAngle_swap (a b : V2 K) : SpecAngle b a = -SpecAngle a b := by unfold SpecAngle; ring
theorem SpecSquare_swap (a b : V2 K) : SpecSquare b a = -SpecSquare a b := by unfold SpecSquare; ring
theorem SpecAngle_eq_neg (a b : V2 K) : SpecAngle a b = -SpecSquare a b := by unfold SpecAngle SpecSquare; ring
theorem SpecSquare_eq_neg (a b : V2 K) : SpecSquare a b = -SpecAngle a b := by unfold SpecAngle SpecSquare; ring

/-- The value of the image of a polynomial in the brackets, at the image point: that of the polynomial at the point,
except that with exchange of angle and square brackets every bracket has the opposite sign. -/
theorem invariant_image_value [NeZero (2 : K)] (hn : n ≤ 9) (h0 : 0 < n) (c : Ctx K) (ps : Fin n → Particle K) (r l : Fin n → V2 K)
    (h : ∀ k, HasSpinors c (ps k) (r k) (l k)) (hd : ∀ i j, i ≠ j → (ps i).r2 ≠ (ps j).r2) (σ : Equiv.Perm (Fin n))
    (b : Bool) {pw : List Char} (hpw : PowerSign pw) (ts : List (Tok PAtom × ℕ)) (hv : InvVars n ts) (e : Ast PAtom)
    (he : Reads .expr (ts.map Prod.fst) e) :
    ∃ ts' e' qs, invariantPolyImage (renderText pw ts) (permString σ, b) = .ok (renderText pw ts') ∧
      Reads .expr (ts'.map Prod.fst) e' ∧
      imageRule particleEq (anglesForSquares c) (List.ofFn ps) (permString σ, b) = .ok qs ∧
      evalPoly (bracketValue qs) e' =
        evalPoly (fun x k => (bracketValue (List.ofFn ps) x k).map fun v => if b then -v else v) e := by
  refine ⟨invToks σ (maybeSwap₂ b) ts, e.bind (invAtomTree σ (maybeSwap₂ b)), _,
    invariantPolyImage_text hn σ b hpw ts hv he.apart, ?_, image_point hn h0 c ps hd σ b, ?_⟩
  · rw [invToks_fst]
    exact he.bind fun x _ => invAtom_reads σ _ x
  · refine evalPoly_bind _ _ (invAtomTree σ (maybeSwap₂ b)) (fun _ => rfl) e (fun x i _ k hk => ?_) ?_
    · simp only [invAtomTree] at hk; split_ifs at hk; cases hk
    intro x k hx
    have hm := he.has hx
    obtain ⟨⟨t, k'⟩, ht, rfl⟩ := List.mem_map.mp hm
    obtain ⟨hl, h1, h2⟩ := hv _ _ _ ht
    obtain ⟨i, j, hk⟩ : ∃ i j : Fin n, (pairsList n)[k - 1]? = some ((i : ℕ) + 1, (j : ℕ) + 1) := by
      have hlt : k - 1 < (pairsList n).length := by rw [length_pairsList]; omega
      obtain ⟨⟨i, j⟩, hp⟩ : ∃ p, (pairsList n)[k - 1]? = some p := ⟨_, List.getElem?_eq_getElem hlt⟩
      have hmem := mem_pairsList.mp (List.mem_of_getElem? hp)
      refine ⟨⟨i - 1, by omega⟩, ⟨j - 1, by omega⟩, ?_⟩
      rw [hp, show i - 1 + 1 = i by omega, show j - 1 + 1 = j by omega]
    have hq : ∀ k, HasSpinors c ((fun k => if b then anglesForSquares c (moved ps σ k) else moved ps σ k) k)
        ((fun k => if b then l (σ.symm k) else r (σ.symm k)) k) ((fun k => if b then r (σ.symm k) else l (σ.symm k)) k) := by
      intro k
      cases b
      · exact h _
      · exact (h _).swap
    rw [bracketValue_ofFn c ps r l h x k i j hk]
    simp only [invAtomTree]
    rcases invNumber_spec σ k i j hk with ⟨hp, hpair⟩ | ⟨hp, hpair⟩
    · rw [if_pos hp, evalPoly, bracketValue_ofFn c _ _ _ hq _ _ _ _ hpair]
      simp only [invLetters, List.mem_cons, List.not_mem_nil, or_false] at hl
      rcases hl with rfl | rfl <;> cases b <;> simp [maybeSwap₂, swapBracket, SpecAngle_eq_neg (l _), SpecSquare_eq_neg (r _)]
    · rw [if_neg hp, evalPoly, evalPoly, bracketValue_ofFn c _ _ _ hq _ _ _ _ hpair]
      simp only [invLetters, List.mem_cons, List.not_mem_nil, or_false] at hl
      rcases hl with rfl | rfl <;> cases b <;>
        simp [maybeSwap₂, swapBracket, SpecAngle_swap (r i), SpecSquare_swap (l i), SpecAngle_eq_neg (l _), SpecSquare_eq_neg (r _)]

/-- C73, brackets: for a rule without exchange of angle and square brackets the image of a polynomial is a polynomial
whose value at the image point is the value of the polynomial at the point, signs included. -/
theorem C73_invariant [NeZero (2 : K)] (hn : n ≤ 9) (h0 : 0 < n) (c : Ctx K) (ps : Fin n → Particle K) (r l : Fin n → V2 K)
    (h : ∀ k, HasSpinors c (ps k) (r k) (l k)) (hd : ∀ i j, i ≠ j → (ps i).r2 ≠ (ps j).r2) (σ : Equiv.Perm (Fin n))
    {pw : List Char} (hpw : PowerSign pw) (ts : List (Tok PAtom × ℕ)) (hv : InvVars n ts) (e : Ast PAtom)
    (he : Reads .expr (ts.map Prod.fst) e) :
    ∃ ts' e' qs, invariantPolyImage (renderText pw ts) (permString σ, false) = .ok (renderText pw ts') ∧
      Reads .expr (ts'.map Prod.fst) e' ∧
      imageRule particleEq (anglesForSquares c) (List.ofFn ps) (permString σ, false) = .ok qs ∧
      evalPoly (bracketValue qs) e' = evalPoly (bracketValue (List.ofFn ps)) e := by
  obtain ⟨ts', e', qs, h1, h2, h3, h4⟩ := invariant_image_value hn h0 c ps r l h hd σ false hpw ts hv e he
  refine ⟨ts', e', qs, h1, h2, h3, h4.trans ?_⟩
  congr 1
  funext x k
  simp

/-- C73, brackets, what holds with exchange: the value of the image at the image point is that of the polynomial with
the opposite sign for every bracket. What is missing is that the signs agree, which is false, see
`C73_conjugate_sign`. -/
theorem C73_invariant_conjugate_partial [NeZero (2 : K)] (hn : n ≤ 9) (h0 : 0 < n) (c : Ctx K) (ps : Fin n → Particle K)
    (r l : Fin n → V2 K) (h : ∀ k, HasSpinors c (ps k) (r k) (l k)) (hd : ∀ i j, i ≠ j → (ps i).r2 ≠ (ps j).r2)
    (σ : Equiv.Perm (Fin n)) {pw : List Char} (hpw : PowerSign pw) (ts : List (Tok PAtom × ℕ)) (hv : InvVars n ts) (e : Ast PAtom)
    (he : Reads .expr (ts.map Prod.fst) e) :
    ∃ ts' e' qs, invariantPolyImage (renderText pw ts) (permString σ, true) = .ok (renderText pw ts') ∧
      Reads .expr (ts'.map Prod.fst) e' ∧
      imageRule particleEq (anglesForSquares c) (List.ofFn ps) (permString σ, true) = .ok qs ∧
      evalPoly (bracketValue qs) e' = evalPoly (fun x k => (bracketValue (List.ofFn ps) x k).map (- ·)) e :=
  invariant_image_value hn h0 c ps r l h hd σ true hpw ts hv e he

/-- C73 fails for the exchange of angle and square brackets: the image of `A1`, which is `⟨1|2⟩`, is `B1`, and its value
at the image point is `-⟨1|2⟩`. -/
theorem C73_conjugate_sign [NeZero (2 : K)] (hn : n ≤ 9) (h2 : 2 ≤ n) (c : Ctx K) (ps : Fin n → Particle K) (r l : Fin n → V2 K)
    (h : ∀ k, HasSpinors c (ps k) (r k) (l k)) (hd : ∀ i j, i ≠ j → (ps i).r2 ≠ (ps j).r2)
    (h12 : SpecAngle (r ⟨0, by omega⟩) (r ⟨1, by omega⟩) ≠ 0) :
    invariantPolyImage ['A', '1'] (permString (1 : Equiv.Perm (Fin n)), true) = .ok ['B', '1'] ∧
    bracketValue (List.ofFn ps) 'A' 1 = some (SpecAngle (r ⟨0, by omega⟩) (r ⟨1, by omega⟩)) ∧
    ∃ qs, imageRule particleEq (anglesForSquares c) (List.ofFn ps) (permString (1 : Equiv.Perm (Fin n)), true) = .ok qs ∧
      bracketValue qs 'B' 1 = some (-SpecAngle (r ⟨0, by omega⟩) (r ⟨1, by omega⟩)) ∧
      bracketValue qs 'B' 1 ≠ bracketValue (List.ofFn ps) 'A' 1 := by
  have hk : (pairsList n)[1 - 1]? = some (((⟨0, by omega⟩ : Fin n) : ℕ) + 1, ((⟨1, by omega⟩ : Fin n) : ℕ) + 1) := by
    clear h12 hd h l r ps
    revert n; decide +revert
  have e1 := bracketValue_ofFn c ps r l h 'A' 1 _ _ hk
  have hq : ∀ k, HasSpinors c ((fun k => if true = true then anglesForSquares c (moved ps 1 k) else moved ps 1 k) k) (l k) (r k) := by
    intro k
    exact (h _).swap
  have e2 := bracketValue_ofFn c _ _ _ hq 'B' 1 _ _ hk
  have hv : (0 < invNumber (1 : Equiv.Perm (Fin n)) 1) ∧ (invNumber (1 : Equiv.Perm (Fin n)) 1).natAbs = 1 := by
    clear h12 hd h l r ps e1 e2 hq hk
    revert n; decide +revert
  refine ⟨?_, by simpa using e1, _, image_point hn (by omega) c ps hd 1 true, ?_, ?_⟩
  · have ht := invariantPolyImage_text hn (1 : Equiv.Perm (Fin n)) true (Or.inl rfl : PowerSign ['^']) [(.atom (.var 'A' 1), 0)]
      (by
        intro x i k hm
        simp only [List.mem_cons, Prod.mk.injEq, Tok.atom.injEq, PAtom.var.injEq, List.not_mem_nil, or_false] at hm
        obtain ⟨⟨rfl, rfl⟩, -⟩ := hm
        refine ⟨by decide, le_refl _, ?_⟩
        clear * - hn h2
        revert n; decide +revert) (by simp)
    simpa [renderText, renderTok, invToks, Tok.bind, invAtomToks, hv, padLast, maybeSwap₂, swapBracket, pyStr_digit,
      show Nat.digitChar 1 = '1' from rfl] using ht
  · rw [e2]; simp [SpecSquare_eq_neg]
  · rw [e1, e2]
    simp only [SpecSquare_eq_neg]
    simp
    intro h0
    apply h12
    have : (2 : K) * SpecAngle (r ⟨0, by omega⟩) (r ⟨1, by omega⟩) = 0 := by linear_combination -h0
    exact (mul_eq_zero.mp this).resolve_left (NeZero.ne 2)

/-! ### C75 -/

theorem roundRobin_four {α : Type*} (f g h k : ℕ → α) (m s : ℕ) :
    roundRobin (4 * m) [(List.range' s m).map f, (List.range' s m).map g, (List.range' s m).map h, (List.range' s m).map k] =
      .ok ((List.range' s m).flatMap fun i => [f i, g i, h i, k i]) := by
  induction m generalizing s with
  | zero => rfl
  | succ m ih =>
    rw [show 4 * (m + 1) = 4 * m + 1 + 1 + 1 + 1 by omega]
    simp only [List.range'_succ, List.map_cons, roundRobin, List.cons_append, List.nil_append, ih, List.flatMap_cons]

theorem covariantSymbols_eq (n : ℕ) : covariantSymbols n =
    .ok ((List.range' 1 n).flatMap fun i => covLetters.map fun x => x :: pyStr i) := roundRobin_four _ _ _ _ n 1

/-- C75, components: the variables are `a`, `b`, `c`, `d` with the labels, without repetition, `4 n` in number, and
their number gives back the multiplicity. -/
theorem C75_covariant (n : ℕ) : ∃ vars, covariantSymbols n = .ok vars ∧ vars.Nodup ∧ vars.length = 4 * n ∧
    covariantMultiplicity vars.length = n ∧ ∀ v, v ∈ vars ↔ ∃ x ∈ covLetters, ∃ i, 1 ≤ i ∧ i ≤ n ∧ v = x :: pyStr i := by
  have hl : ((List.range' 1 n).flatMap fun i => covLetters.map fun x => x :: pyStr i).length = 4 * n := by
    simp [List.length_flatMap, covLetters]; omega
  refine ⟨_, covariantSymbols_eq n, ?_, hl, by rw [hl, covariantMultiplicity]; omega, ?_⟩
  · rw [List.nodup_flatMap]
    refine ⟨fun i _ => List.Nodup.map (fun a b h => (List.cons.inj h).1) (by decide), ?_⟩
    refine (List.nodup_range' (step := 1)).pairwise_of_forall_ne ?_
    intro a _ b _ hab v hx hy
    obtain ⟨x, -, rfl⟩ := List.mem_map.mp hx
    obtain ⟨y, -, h⟩ := List.mem_map.mp hy
    exact hab (pyStr_inj (List.cons.inj h).2).symm
  · intro v
    simp only [List.mem_flatMap, List.mem_map, List.mem_range'_1]
    constructor
    · rintro ⟨i, hi, x, hx, rfl⟩; exact ⟨x, hx, i, by omega, by omega, rfl⟩
    · rintro ⟨x, hx, i, h1, h2, rfl⟩; exact ⟨i, by omega, x, hx, rfl⟩

/-- C75, brackets: the variables are `A` and `B` with the numbers of the pairs, without repetition, `n (n - 1)` in
number; this number gives back the multiplicity from one particle on, where the square root, which is of a perfect
square, is exact. -/
theorem C75_invariant (isqrt : ℕ → ℕ) (n : ℕ) : (invariantSymbols n).Nodup ∧ (invariantSymbols n).length = n * (n - 1) ∧
    (∀ v, v ∈ invariantSymbols n ↔ ∃ x ∈ invLetters, ∃ i, 1 ≤ i ∧ i ≤ (pairsList n).length ∧ v = x :: pyStr i) ∧
    (1 ≤ n → isqrt ((2 * n - 1) ^ 2) = 2 * n - 1 → invariantMultiplicity isqrt (invariantSymbols n).length = n) := by
  have hl : (invariantSymbols n).length = n * (n - 1) := by
    simp only [invariantSymbols, symbolList, List.length_append, List.length_map, List.length_range']
    have := Nat.even_mul_pred_self n
    obtain ⟨t, ht⟩ := this
    omega
  have hm : ∀ (x : Char) m v, v ∈ symbolList x m ↔ ∃ i, 1 ≤ i ∧ i ≤ m ∧ v = x :: pyStr i := by
    intro x m v
    simp only [symbolList, List.mem_map, List.mem_range'_1]
    constructor
    · rintro ⟨i, hi, rfl⟩; exact ⟨i, by omega, by omega, rfl⟩
    · rintro ⟨i, h1, h2, rfl⟩; exact ⟨i, by omega, rfl⟩
  refine ⟨?_, hl, ?_, ?_⟩
  · have hn : ∀ (x : Char) m, (symbolList x m).Nodup := fun x m =>
      (List.nodup_range' (step := 1)).map fun a b h => pyStr_inj (List.cons.inj h).2
    rw [invariantSymbols, List.nodup_append]
    refine ⟨hn _ _, hn _ _, ?_⟩
    rintro _ h1 _ h2 rfl
    rw [hm] at h1 h2
    obtain ⟨i, -, -, rfl⟩ := h1
    obtain ⟨j, -, -, h⟩ := h2
    exact absurd (List.cons.inj h).1 (by decide)
  · intro v
    rw [invariantSymbols, List.mem_append, hm, hm, length_pairsList]
    simp [invLetters]
  · intro h1 hs
    rw [hl, invariantMultiplicity, show 4 * (n * (n - 1)) + 1 = (2 * n - 1) ^ 2 by
      obtain ⟨m, rfl⟩ : ∃ m, n = m + 1 := ⟨n - 1, by omega⟩
      rw [show 2 * (m + 1) - 1 = 2 * m + 1 by omega, show m + 1 - 1 = m by omega]; ring, hs]
    omega

/-- C75 fails for no particles: the ring without variables gives multiplicity one. -/
theorem C75_invariant_none (isqrt : ℕ → ℕ) (h : isqrt 1 = 1) : invariantMultiplicity isqrt (invariantSymbols 0).length = 1 := by
  simp [invariantMultiplicity, invariantSymbols, symbolList, h]

end Lips

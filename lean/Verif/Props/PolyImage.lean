import Verif.Model.PolyImage
import Verif.Spec.Arith
import Verif.Props.Image
import Verif.Props.Slices

/-!
C73 and C74: images of polynomials in the spinor components.
-/

namespace Lips

open Matrix

set_option linter.unusedSectionVars false

variable {K : Type*} [Field K] {n : ℕ}

/-! ### Polynomial texts -/

/-- The atoms of a polynomial: a numeral, or a variable with its letter and number. -/
inductive PAtom where
  | num (k : ℕ) | var (letter : Char) (i : ℕ)
  deriving DecidableEq

/-- How a token is written; `pw` is how a power is written, `^` or `**`. -/
def renderTok (pw : List Char) : Tok PAtom → List Char
  | .atom (.num k) => pyStr k
  | .atom (.var l i) => l :: pyStr i
  | .plus => ['+']
  | .minus => ['-']
  | .star => ['*']
  | .slash => ['/']
  | .dstar => pw
  | .lpar => ['(']
  | .rpar => [')']

/-- A polynomial text: tokens with any number of blanks after each. -/
def renderText (pw : List Char) (ts : List (Tok PAtom × ℕ)) : List Char :=
  ts.flatMap fun t => renderTok pw t.1 ++ List.replicate t.2 ' '

/-- The ways of writing a power. -/
def PowerSign (pw : List Char) : Prop := pw = ['^'] ∨ pw = ['*', '*']

/-- The value of a polynomial; `none` when a variable has no value, on a division by zero and when an exponent is no
numeral. -/
noncomputable def evalPoly (v : Char → ℕ → Option K) : Ast PAtom → Option K
  | .atom (.num k) => some (k : K)
  | .atom (.var l i) => v l i
  | .pos a => evalPoly v a
  | .neg a => (evalPoly v a).map (- ·)
  | .add a b => match evalPoly v a, evalPoly v b with | some x, some y => some (x + y) | _, _ => none
  | .sub a b => match evalPoly v a, evalPoly v b with | some x, some y => some (x - y) | _, _ => none
  | .mul a b => match evalPoly v a, evalPoly v b with | some x, some y => some (x * y) | _, _ => none
  | .div a b => match evalPoly v a, evalPoly v b with
    | some x, some y => open Classical in if y = 0 then none else some (x / y)
    | _, _ => none
  | .pow a (.atom (.num k)) => (evalPoly v a).map (· ^ k)
  | .pow _ _ => none

/-! ### Replacing digits -/

/-- The letters of components. -/
def covLetters : List Char := ['a', 'b', 'c', 'd']

/-- `Except.map`, spelled out. -/
def mapOk {α β : Type*} (f : α → β) : Except Err α → Except Err β
  | .ok x => .ok (f x)
  | .error e => .error e

theorem covDigits_plain (p : List Char) (s : List Char) (hs : ∀ x ∈ s, x ∉ covLetters) (prev : Option Char)
    (hp : prev ∉ [some 'a', some 'b', some 'c', some 'd']) : ∃ prev', prev' ∉ [some 'a', some 'b', some 'c', some 'd'] ∧
      ∀ rest, covDigits p prev (s ++ rest) = mapOk (s ++ ·) (covDigits p prev' rest) := by
  induction s generalizing prev with
  | nil => exact ⟨prev, hp, fun rest => by simp only [List.nil_append]; cases covDigits p prev rest <;> rfl⟩
  | cons x s ih =>
    obtain ⟨prev', h1, h2⟩ := ih (fun y hy => hs y (List.mem_cons_of_mem _ hy)) (some x) (by
      have := hs x List.mem_cons_self
      simpa [covLetters] using this)
    refine ⟨prev', h1, fun rest => ?_⟩
    rw [List.cons_append, covDigits, h2 rest]
    cases covDigits p prev' rest with
    | error e => rfl
    | ok r => simp only [mapOk]; rw [if_neg (fun h => hp h.2)]; rfl

theorem covDigits_var (p : List Char) {l : Char} (hl : l ∈ covLetters) {i : ℕ} (h1 : 1 ≤ i) (h9 : i ≤ 9) {y : Char}
    (hy : p[i - 1]? = some y) (prev : Option Char) (rest : List Char) :
    covDigits p prev ((l :: pyStr i) ++ rest) = mapOk ([l, y] ++ ·) (covDigits p (some (Nat.digitChar i)) rest) := by
  have hnd : l.isDigit = false := by revert hl; simp only [covLetters]; revert l; decide
  have hd : ∀ a < 10, (Nat.digitChar a).isDigit = true ∧ (Nat.digitChar a).toNat - 48 = a := by decide
  have hg : pyGetMinusOne p i = .ok y := by rw [pyGetMinusOne, if_neg (by omega), hy]
  have hm : some l ∈ [some 'a', some 'b', some 'c', some 'd'] := by simpa [covLetters] using hl
  rw [pyStr_digit (by omega)]
  simp only [List.cons_append, List.nil_append, covDigits]
  cases covDigits p (some (Nat.digitChar i)) rest with
  | error e => rfl
  | ok r =>
    simp only [(hd i (by omega)).1, (hd i (by omega)).2, hm, and_self, if_true, hg]
    simp [mapOk, hnd]

/-- A label sent along a permutation. -/
def permLabel (σ : Equiv.Perm (Fin n)) (i : ℕ) : ℕ := if h : 1 ≤ i ∧ i ≤ n then (σ ⟨i - 1, by omega⟩ : ℕ) + 1 else i

theorem permLabel_fin (σ : Equiv.Perm (Fin n)) (k : Fin n) : permLabel σ ((k : ℕ) + 1) = (σ k : ℕ) + 1 := by
  have := k.isLt
  rw [permLabel, dif_pos (by omega)]
  rfl

/-- What the image does to an atom. -/
def covAtom (σ : Equiv.Perm (Fin n)) (f : Char → Char) : PAtom → PAtom
  | .num k => .num k
  | .var l i => .var (f l) (permLabel σ i)

/-- A map of the atoms of a token. -/
def Tok.map {α β : Type*} (f : α → β) : Tok α → Tok β
  | .atom x => .atom (f x)
  | .plus => .plus
  | .minus => .minus
  | .star => .star
  | .slash => .slash
  | .dstar => .dstar
  | .lpar => .lpar
  | .rpar => .rpar

/-- The variables of the text are components of `n` particles. -/
def CovVars (n : ℕ) (ts : List (Tok PAtom × ℕ)) : Prop :=
  ∀ l i k, (Tok.atom (PAtom.var l i), k) ∈ ts → l ∈ covLetters ∧ 1 ≤ i ∧ i ≤ n

theorem digit_not_letter : ∀ x : Char, x.isDigit = true → x ∉ covLetters := by
  intro x hx h
  simp only [covLetters, List.mem_cons, List.not_mem_nil, or_false] at h
  rcases h with rfl | rfl | rfl | rfl <;> exact absurd hx (by decide)

theorem renderTok_plain {pw : List Char} (hpw : PowerSign pw) (t : Tok PAtom) (ht : ∀ l i, t ≠ .atom (.var l i)) :
    ∀ x ∈ renderTok pw t, x ∉ covLetters := by
  rcases t with (k | ⟨l, i⟩) | _ | _ | _ | _ | _ | _ | _
  · intro x hx; exact digit_not_letter x (pyStr_digits k x hx)
  · exact absurd rfl (ht l i)
  all_goals simp only [renderTok]
  case dstar => rcases hpw with rfl | rfl <;> decide
  all_goals decide

theorem blanks_plain (k : ℕ) : ∀ x ∈ List.replicate k ' ', x ∉ covLetters := by
  intro x hx; rw [List.eq_of_mem_replicate hx]; decide

/-- The rule string `p` has the images of the labels of the variables at their places, and all are single digits. -/
def CovRule (σ : Equiv.Perm (Fin n)) (p : List Char) (ts : List (Tok PAtom × ℕ)) : Prop :=
  ∀ l i k, (Tok.atom (PAtom.var l i), k) ∈ ts → i ≤ 9 ∧ p[i - 1]? = some (Nat.digitChar (permLabel σ i)) ∧ permLabel σ i < 10

theorem covRule_permString (hn : n ≤ 9) (σ : Equiv.Perm (Fin n)) (ts : List (Tok PAtom × ℕ)) (hv : CovVars n ts) :
    CovRule σ (permString σ) ts := by
  intro l i k h
  obtain ⟨-, h1, h2⟩ := hv l i k h
  refine ⟨by omega, ?_, ?_⟩
  · have := getElem?_permString σ ⟨i - 1, by omega⟩
    rw [permLabel, dif_pos ⟨h1, h2⟩]; exact this
  · rw [permLabel, dif_pos ⟨h1, h2⟩]
    have := (σ ⟨i - 1, by omega⟩).isLt; omega

theorem covDigits_text (σ : Equiv.Perm (Fin n)) (p : List Char) {pw : List Char} (hpw : PowerSign pw)
    (ts : List (Tok PAtom × ℕ)) (hv : CovVars n ts) (hr : CovRule σ p ts) (prev : Option Char)
    (hp : prev ∉ [some 'a', some 'b', some 'c', some 'd']) :
    covDigits p prev (renderText pw ts) = .ok (renderText pw (ts.map fun t => (t.1.map (covAtom σ id), t.2))) := by
  induction ts generalizing prev with
  | nil => rfl
  | cons t ts ih =>
    have hv' : CovVars n ts := fun l i k h => hv l i k (List.mem_cons_of_mem _ h)
    have hr' : CovRule σ p ts := fun l i k h => hr l i k (List.mem_cons_of_mem _ h)
    obtain ⟨t, k⟩ := t
    simp only [renderText, List.flatMap_cons, List.map_cons, List.append_assoc] at *
    by_cases ht : ∃ l i, t = .atom (.var l i)
    · obtain ⟨l, i, rfl⟩ := ht
      obtain ⟨hl, h1, h2⟩ := hv l i k List.mem_cons_self
      obtain ⟨h9, hy, h10⟩ := hr l i k List.mem_cons_self
      have hq : some (Nat.digitChar i) ∉ [some 'a', some 'b', some 'c', some 'd'] := by
        have : ∀ a < 10, some (Nat.digitChar a) ∉ [some 'a', some 'b', some 'c', some 'd'] := by decide
        exact this i (by omega)
      obtain ⟨prev', h3, h4⟩ := covDigits_plain p (List.replicate k ' ') (blanks_plain k) _ hq
      rw [show renderTok pw (.atom (.var l i)) = l :: pyStr i from rfl, covDigits_var _ hl h1 (by omega) hy, h4, ih hv' hr' prev' h3]
      simp only [mapOk, Tok.map, covAtom, id, renderTok, pyStr_digit h10, List.cons_append, List.nil_append]
    · have ht' : ∀ l i, t ≠ .atom (.var l i) := fun l i h => ht ⟨l, i, h⟩
      have e : t.map (covAtom σ id) = t := by
        rcases t with (k | ⟨l, i⟩) | _ | _ | _ | _ | _ | _ | _ <;> first | rfl | exact absurd rfl (ht' l i)
      obtain ⟨prev', h3, h4⟩ := covDigits_plain p (renderTok pw t) (renderTok_plain hpw t ht') prev hp
      obtain ⟨prev'', h5, h6⟩ := covDigits_plain p (List.replicate k ' ') (blanks_plain k) prev' h3
      rw [h4, h6, ih hv' hr' prev'' h5, e]
      rfl

/-! ### Exchanging letters -/

/-- Exchanging angle and square components. -/
def swapLetter (x : Char) : Char := if x = 'a' then 'c' else if x = 'b' then 'd' else if x = 'c' then 'a' else if x = 'd' then 'b' else x

/-- The six replacements. -/
def swapChain (s : List Char) : List Char :=
  replaceChar 'B' 'd' (replaceChar 'A' 'c' (replaceChar 'd' 'b' (replaceChar 'c' 'a' (replaceChar 'b' 'B' (replaceChar 'a' 'A' s)))))

theorem swapChain_append (s t : List Char) : swapChain (s ++ t) = swapChain s ++ swapChain t := by
  simp [swapChain, replaceChar]

theorem swapChain_plain (s : List Char) (h : ∀ x ∈ s, x ∉ covLetters ∧ x ≠ 'A' ∧ x ≠ 'B') : swapChain s = s := by
  have key : ∀ {x y : Char} (t : List Char), x ∉ t → replaceChar x y t = t := by
    intro x y t ht
    conv_rhs => rw [← List.map_id t]
    refine List.map_congr_left fun z hz => ?_
    rw [if_neg (by rintro rfl; exact ht hz)]; rfl
  have no : ∀ x ∈ ['a', 'b', 'c', 'd', 'A', 'B'], x ∉ s := by
    intro x hx hxs
    obtain ⟨h1, h2, h3⟩ := h x hxs
    simp only [covLetters, List.mem_cons, List.not_mem_nil, or_false, not_or] at h1 hx
    tauto
  unfold swapChain
  rw [key s (no 'a' (by simp)), key s (no 'b' (by simp)), key s (no 'c' (by simp)), key s (no 'd' (by simp)),
    key s (no 'A' (by simp)), key s (no 'B' (by simp))]

theorem digit_plain (x : Char) (hx : x.isDigit = true) : x ∉ covLetters ∧ x ≠ 'A' ∧ x ≠ 'B' :=
  ⟨digit_not_letter x hx, by rintro rfl; exact absurd hx (by decide), by rintro rfl; exact absurd hx (by decide)⟩

theorem swapChain_var {l : Char} (hl : l ∈ covLetters) (i : ℕ) : swapChain (l :: pyStr i) = swapLetter l :: pyStr i := by
  have e : swapChain [l] = [swapLetter l] := by
    simp only [covLetters, List.mem_cons, List.not_mem_nil, or_false] at hl
    rcases hl with rfl | rfl | rfl | rfl <;> decide
  rw [show l :: pyStr i = [l] ++ pyStr i from rfl, swapChain_append, e,
    swapChain_plain (pyStr i) fun x hx => digit_plain x (pyStr_digits i x hx)]
  rfl

theorem swapChain_text {pw : List Char} (hpw : PowerSign pw) (ts : List (Tok PAtom × ℕ))
    (hv : ∀ l i k, (Tok.atom (PAtom.var l i), k) ∈ ts → l ∈ covLetters) (f : PAtom → PAtom) (hf : ∀ k, f (.num k) = .num k)
    (hf' : ∀ l i, f (.var l i) = .var (swapLetter l) i) :
    swapChain (renderText pw ts) = renderText pw (ts.map fun t => (t.1.map f, t.2)) := by
  induction ts with
  | nil => rfl
  | cons t ts ih =>
    obtain ⟨t, k⟩ := t
    have ih := ih fun l i k h => hv l i k (List.mem_cons_of_mem _ h)
    simp only [renderText, List.flatMap_cons, List.map_cons, swapChain_append] at *
    rw [ih, swapChain_plain (List.replicate k ' ') fun x hx => by rw [List.eq_of_mem_replicate hx]; decide]
    congr 2
    rcases t with (j | ⟨l, i⟩) | _ | _ | _ | _ | _ | _ | _
    · simp only [Tok.map, hf, renderTok]
      exact swapChain_plain _ fun x hx => digit_plain x (pyStr_digits j x hx)
    · simp only [Tok.map, hf', renderTok]
      exact swapChain_var (hv l i k List.mem_cons_self) i
    case dstar => simp only [Tok.map, renderTok]; rcases hpw with rfl | rfl <;> decide
    all_goals simp only [Tok.map, renderTok]; decide

/-! ### The image of a text -/

/-- The letters with or without exchange. -/
def maybeSwap (b : Bool) (x : Char) : Char := if b then swapLetter x else x

/-- The image of a text as a text. -/
def imageToks (σ : Equiv.Perm (Fin n)) (b : Bool) (ts : List (Tok PAtom × ℕ)) : List (Tok PAtom × ℕ) :=
  ts.map fun t => (t.1.map (covAtom σ (maybeSwap b)), t.2)

theorem covariantPolyImage_rule (σ : Equiv.Perm (Fin n)) (p : List Char) (b : Bool) {pw : List Char} (hpw : PowerSign pw)
    (ts : List (Tok PAtom × ℕ)) (hv : CovVars n ts) (hr : CovRule σ p ts) :
    covariantPolyImage (renderText pw ts) (p, b) = .ok (renderText pw (imageToks σ b ts)) := by
  rw [covariantPolyImage, covDigits_text σ p hpw ts hv hr none (by simp)]
  cases b with
  | false => rfl
  | true =>
    simp only [if_true]
    congr 1
    have := swapChain_text hpw (ts.map fun t => (t.1.map (covAtom σ id), t.2)) (by
      intro l i k h
      obtain ⟨⟨t, k'⟩, h1, h2⟩ := List.mem_map.mp h
      rcases t with (j | ⟨l', i'⟩) | _ | _ | _ | _ | _ | _ | _ <;> simp [Tok.map, covAtom] at h2
      obtain ⟨⟨rfl, -⟩, -⟩ := h2
      exact (hv _ _ _ h1).1) (fun a => match a with | .num k => .num k | .var l i => .var (swapLetter l) i)
      (fun _ => rfl) (fun _ _ => rfl)
    rw [swapChain] at this
    rw [this, List.map_map]
    congr 1
    refine List.map_congr_left fun t _ => ?_
    obtain ⟨t, k⟩ := t
    rcases t with (j | ⟨l', i'⟩) | _ | _ | _ | _ | _ | _ | _ <;> rfl

theorem covariantPolyImage_text (hn : n ≤ 9) (σ : Equiv.Perm (Fin n)) (b : Bool) {pw : List Char} (hpw : PowerSign pw)
    (ts : List (Tok PAtom × ℕ)) (hv : CovVars n ts) :
    covariantPolyImage (renderText pw ts) (permString σ, b) = .ok (renderText pw (imageToks σ b ts)) :=
  covariantPolyImage_rule σ _ b hpw ts hv (covRule_permString hn σ ts hv)

/-! ### Values -/

/-- The value of a component of a point: `a`, `b` are the components of the right spinor and `c`, `d` those of the
left one, particles numbered from one. -/
def compValue (m : List (Particle K)) (l : Char) (i : ℕ) : Option K :=
  match m[i - 1]? with
  | none => none
  | some p =>
    if i = 0 then none
    else if l = 'a' then p.r_d.map (· 0) else if l = 'b' then p.r_d.map (· 1)
    else if l = 'c' then p.l_d.map (· 0) else if l = 'd' then p.l_d.map (· 1) else none

/-- A map of the atoms of a tree. -/
def Ast.map {α β : Type*} (f : α → β) (e : Ast α) : Ast β := e.bind fun x => .atom (f x)

theorem reads_map {α β : Type*} (f : α → β) {L : Level} {ts : List (Tok α)} {e : Ast α} (h : Reads L ts e) :
    Reads L (ts.map (Tok.map f)) (e.map f) := by
  have := h.bind (f := fun x => [.atom (f x)]) (g := fun x => .atom (f x)) fun x _ => .atom _
  have e : ts.flatMap (Tok.bind fun x => [Tok.atom (f x)]) = ts.map (Tok.map f) := by
    clear h this
    induction ts with
    | nil => rfl
    | cons t ts ih => rw [List.flatMap_cons, List.map_cons, ih]; cases t <;> rfl
  rw [e] at this; exact this

/-- The atoms of a tree are among those of its text. -/
inductive Ast.Has {α : Type*} (x : α) : Ast α → Prop
  | atom : Ast.Has x (.atom x)
  | pos {a} : Ast.Has x a → Ast.Has x (.pos a)
  | neg {a} : Ast.Has x a → Ast.Has x (.neg a)
  | add₁ {a b} : Ast.Has x a → Ast.Has x (.add a b)
  | add₂ {a b} : Ast.Has x b → Ast.Has x (.add a b)
  | sub₁ {a b} : Ast.Has x a → Ast.Has x (.sub a b)
  | sub₂ {a b} : Ast.Has x b → Ast.Has x (.sub a b)
  | mul₁ {a b} : Ast.Has x a → Ast.Has x (.mul a b)
  | mul₂ {a b} : Ast.Has x b → Ast.Has x (.mul a b)
  | div₁ {a b} : Ast.Has x a → Ast.Has x (.div a b)
  | div₂ {a b} : Ast.Has x b → Ast.Has x (.div a b)
  | pow₁ {a b} : Ast.Has x a → Ast.Has x (.pow a b)
  | pow₂ {a b} : Ast.Has x b → Ast.Has x (.pow a b)

theorem Reads.has {α : Type*} {L : Level} {ts : List (Tok α)} {e : Ast α} (h : Reads L ts e) {x : α} (hx : e.Has x) :
    .atom x ∈ ts := by
  induction h with
  | atom y => cases hx; simp
  | paren _ ih => simp [ih hx]
  | ofAtom _ ih => exact ih hx
  | pow _ _ ih₁ ih₂ => cases hx with
    | pow₁ h => simp [ih₁ h]
    | pow₂ h => simp [ih₂ h]
  | ofPower _ ih => exact ih hx
  | neg _ ih => cases hx with | neg h => simp [ih h]
  | pos _ ih => cases hx with | pos h => simp [ih h]
  | ofFactor _ ih => exact ih hx
  | mul _ _ ih₁ ih₂ => cases hx with
    | mul₁ h => simp [ih₁ h]
    | mul₂ h => simp [ih₂ h]
  | div _ _ ih₁ ih₂ => cases hx with
    | div₁ h => simp [ih₁ h]
    | div₂ h => simp [ih₂ h]
  | ofTerm _ ih => exact ih hx
  | add _ _ ih₁ ih₂ => cases hx with
    | add₁ h => simp [ih₁ h]
    | add₂ h => simp [ih₂ h]
  | sub _ _ ih₁ ih₂ => cases hx with
    | sub₁ h => simp [ih₁ h]
    | sub₂ h => simp [ih₂ h]

/-- Renaming the variables of a polynomial changes its value as renaming the point does. -/
theorem evalPoly_bind (v w : Char → ℕ → Option K) (g : PAtom → Ast PAtom) (hn : ∀ k, g (.num k) = .atom (.num k))
    (e : Ast PAtom) (hg : ∀ l i, e.Has (.var l i) → ∀ k, g (.var l i) ≠ .atom (.num k))
    (h : ∀ l i, e.Has (.var l i) → evalPoly w (g (.var l i)) = v l i) : evalPoly w (e.bind g) = evalPoly v e := by
  induction e with
  | atom x => cases x with
    | num k => rw [Ast.bind, hn]; rfl
    | var l i => exact h l i .atom
  | pos a ih => exact ih (fun l i h' => hg l i (.pos h')) fun l i h' => h l i (.pos h')
  | neg a ih => simp only [Ast.bind, evalPoly]; rw [ih (fun l i h' => hg l i (.neg h')) fun l i h' => h l i (.neg h')]
  | add a b ih₁ ih₂ =>
    simp only [Ast.bind, evalPoly]
    rw [ih₁ (fun l i h' => hg l i (.add₁ h')) fun l i h' => h l i (.add₁ h'),
      ih₂ (fun l i h' => hg l i (.add₂ h')) fun l i h' => h l i (.add₂ h')]
  | sub a b ih₁ ih₂ =>
    simp only [Ast.bind, evalPoly]
    rw [ih₁ (fun l i h' => hg l i (.sub₁ h')) fun l i h' => h l i (.sub₁ h'),
      ih₂ (fun l i h' => hg l i (.sub₂ h')) fun l i h' => h l i (.sub₂ h')]
  | mul a b ih₁ ih₂ =>
    simp only [Ast.bind, evalPoly]
    rw [ih₁ (fun l i h' => hg l i (.mul₁ h')) fun l i h' => h l i (.mul₁ h'),
      ih₂ (fun l i h' => hg l i (.mul₂ h')) fun l i h' => h l i (.mul₂ h')]
  | div a b ih₁ ih₂ =>
    simp only [Ast.bind, evalPoly]
    rw [ih₁ (fun l i h' => hg l i (.div₁ h')) fun l i h' => h l i (.div₁ h'),
      ih₂ (fun l i h' => hg l i (.div₂ h')) fun l i h' => h l i (.div₂ h')]
  | pow a b ih₁ ih₂ =>
    have ih := ih₁ (fun l i h' => hg l i (.pow₁ h')) fun l i h' => h l i (.pow₁ h')
    rcases b with (k | ⟨l, i⟩) | _ | _ | _ | _ | _ | _ | _
    · simp only [Ast.bind, hn, evalPoly]; rw [ih]
    · simp only [Ast.bind]
      have hne := hg l i (.pow₂ .atom)
      rcases hgl : g (.var l i) with (k | ⟨l, i⟩) | _ | _ | _ | _ | _ | _ | _
      · exact absurd hgl (hne k)
      all_goals rfl
    all_goals rfl

/-! ### Image points -/

/-- Equality of particles, as a truth value. -/
noncomputable def particleEq (p q : Particle K) : Bool := open Classical in decide (pEq p q)

theorem image_point (hn : n ≤ 9) (h0 : 0 < n) (c : Ctx K) (ps : Fin n → Particle K)
    (hd : ∀ i j, i ≠ j → (ps i).r2 ≠ (ps j).r2) (σ : Equiv.Perm (Fin n)) (b : Bool) :
    imageRule particleEq (anglesForSquares c) (List.ofFn ps) (permString σ, b) =
      .ok (List.ofFn fun k => if b then anglesForSquares c (moved ps σ k) else moved ps σ k) := by
  unfold imageRule
  rw [C32_image_moves hn h0 _ (fun x => by simp [particleEq, pEq]) ps fun i j h => by
    classical exact decide_eq_false (hd i j h)]
  cases b <;> simp [List.map_ofFn, Function.comp_def]

theorem HasSpinors.swap [NeZero (2 : K)] {c : Ctx K} {p : Particle K} {r l : V2 K} (h : HasSpinors c p r l) :
    HasSpinors c (anglesForSquares c p) l r := by
  obtain ⟨h1, -, h2, h3, -⟩ := C08_swap_is_parity c p h.cons
  exact ⟨h1, h2.trans h.l_d, h3.trans h.r_d⟩

theorem compValue_ofFn (c : Ctx K) (ps : Fin n → Particle K) (r l : Fin n → V2 K) (h : ∀ k, HasSpinors c (ps k) (r k) (l k))
    (x : Char) (k : Fin n) : compValue (List.ofFn ps) x ((k : ℕ) + 1) =
      if x = 'a' then some (r k 0) else if x = 'b' then some (r k 1)
      else if x = 'c' then some (l k 0) else if x = 'd' then some (l k 1) else none := by
  simp [compValue, (h k).r_d, (h k).l_d]

/-- C73, components: the image of a polynomial is a polynomial whose value at the image point is the value of the
polynomial at the point. -/
theorem C73_covariant [NeZero (2 : K)] (hn : n ≤ 9) (h0 : 0 < n) (c : Ctx K) (ps : Fin n → Particle K) (r l : Fin n → V2 K)
    (h : ∀ k, HasSpinors c (ps k) (r k) (l k)) (hd : ∀ i j, i ≠ j → (ps i).r2 ≠ (ps j).r2) (σ : Equiv.Perm (Fin n))
    (b : Bool) {pw : List Char} (hpw : PowerSign pw) (ts : List (Tok PAtom × ℕ)) (hv : CovVars n ts) (e : Ast PAtom)
    (he : Reads .expr (ts.map Prod.fst) e) :
    ∃ ts' e' qs, covariantPolyImage (renderText pw ts) (permString σ, b) = .ok (renderText pw ts') ∧
      Reads .expr (ts'.map Prod.fst) e' ∧
      imageRule particleEq (anglesForSquares c) (List.ofFn ps) (permString σ, b) = .ok qs ∧
      evalPoly (compValue qs) e' = evalPoly (compValue (List.ofFn ps)) e := by
  refine ⟨imageToks σ b ts, e.map (covAtom σ (maybeSwap b)), _, covariantPolyImage_text hn σ b hpw ts hv, ?_,
    image_point hn h0 c ps hd σ b, ?_⟩
  · have := reads_map (covAtom σ (maybeSwap b)) he
    rw [imageToks]
    rw [List.map_map] at this ⊢
    exact this
  · refine evalPoly_bind (compValue (List.ofFn ps)) _ (fun x => .atom (covAtom σ (maybeSwap b) x)) (fun _ => rfl) e (fun _ _ _ _ h => by cases h) ?_
    intro x i hx
    have hm := he.has hx
    obtain ⟨⟨t, k⟩, ht, rfl⟩ := List.mem_map.mp hm
    obtain ⟨hl, h1, h2⟩ := hv _ _ _ ht
    obtain ⟨j, rfl⟩ : ∃ j : Fin n, (j : ℕ) + 1 = i := ⟨⟨i - 1, by omega⟩, by simp; omega⟩
    simp only [covAtom, evalPoly, permLabel_fin]
    have hq : ∀ k, HasSpinors c ((fun k => if b then anglesForSquares c (moved ps σ k) else moved ps σ k) k)
        ((fun k => if b then l (σ.symm k) else r (σ.symm k)) k) ((fun k => if b then r (σ.symm k) else l (σ.symm k)) k) := by
      intro k
      cases b
      · exact h _
      · exact (h _).swap
    rw [compValue_ofFn c _ _ _ hq, compValue_ofFn c ps r l h]
    simp only [covLetters, List.mem_cons, List.not_mem_nil, or_false] at hl
    rcases hl with rfl | rfl | rfl | rfl <;> cases b <;> simp [maybeSwap, swapLetter]

/-- C73, components: images compose, the later rule acting on the left. -/
theorem C73_covariant_compose (hn : n ≤ 9) (σ τ : Equiv.Perm (Fin n)) (b b' : Bool) {pw : List Char} (hpw : PowerSign pw)
    (ts : List (Tok PAtom × ℕ)) (hv : CovVars n ts) :
    ∃ s, covariantPolyImage (renderText pw ts) (permString σ, b) = .ok s ∧
      covariantPolyImage s (permString τ, b') = covariantPolyImage (renderText pw ts) (permString (τ * σ), b ^^ b') := by
  refine ⟨_, covariantPolyImage_text hn σ b hpw ts hv, ?_⟩
  rw [covariantPolyImage_text hn _ _ hpw ts hv, covariantPolyImage_text hn _ _ hpw]
  · rw [imageToks, imageToks, List.map_map, imageToks]
    congr 2
    refine List.map_congr_left fun t ht => ?_
    obtain ⟨t, k⟩ := t
    rcases t with (j | ⟨x, i⟩) | _ | _ | _ | _ | _ | _ | _
    on_goal 2 =>
      obtain ⟨hl, h1, h2⟩ := hv _ _ _ ht
      obtain ⟨j, rfl⟩ : ∃ j : Fin n, (j : ℕ) + 1 = i := ⟨⟨i - 1, by omega⟩, by simp; omega⟩
      simp only [Function.comp, Tok.map, covAtom, permLabel_fin, Equiv.Perm.mul_apply]
      congr 3
      simp only [covLetters, List.mem_cons, List.not_mem_nil, or_false] at hl
      rcases hl with rfl | rfl | rfl | rfl <;> cases b <;> cases b' <;> decide
    all_goals rfl
  · intro x i k hm
    obtain ⟨⟨t, k'⟩, ht, hk⟩ := List.mem_map.mp hm
    rcases t with (j | ⟨x', i'⟩) | _ | _ | _ | _ | _ | _ | _ <;> simp [Tok.map, covAtom] at hk
    obtain ⟨⟨rfl, rfl⟩, rfl⟩ := hk
    obtain ⟨hl, h1, h2⟩ := hv _ _ _ ht
    obtain ⟨j, rfl⟩ : ∃ j : Fin n, (j : ℕ) + 1 = i' := ⟨⟨i' - 1, by omega⟩, by simp; omega⟩
    rw [permLabel_fin]
    refine ⟨?_, by omega, by have := (σ j).isLt; omega⟩
    simp only [covLetters, List.mem_cons, List.not_mem_nil, or_false] at hl
    rcases hl with rfl | rfl | rfl | rfl <;> cases b <;> decide

/-- C73 read literally fails: the value of the image polynomial at the point is not the value of the polynomial at the
image point. For the three-cycle and the polynomial `a1` they are components of different particles. -/
theorem C73_literal_fails (c : Ctx K) (ps : Fin 3 → Particle K) (hd : ∀ i j, i ≠ j → (ps i).r2 ≠ (ps j).r2)
    (h : compValue (List.ofFn ps) 'a' 2 ≠ compValue (List.ofFn ps) 'a' 3) :
    ∃ qs, imageRule particleEq (anglesForSquares c) (List.ofFn ps) (['2', '3', '1'], false) = .ok qs ∧
      covariantPolyImage ['a', '1'] (['2', '3', '1'], false) = .ok ['a', '2'] ∧
      evalPoly (compValue (List.ofFn ps)) (.atom (.var 'a' 2)) ≠ evalPoly (compValue qs) (.atom (.var 'a' 1)) := by
  have e1 : permString (finRotate 3) = ['2', '3', '1'] := by decide
  refine ⟨_, by rw [← e1]; exact image_point (by omega) (by omega) c ps hd _ _, by decide, ?_⟩
  simp only [evalPoly]
  have e2 : (finRotate 3).symm 0 = 2 := by decide
  have e3 : moved ps (finRotate 3) 0 = ps 2 := by rw [moved, e2]
  have e4 : compValue (List.ofFn fun k => if false = true then anglesForSquares c (moved ps (finRotate 3) k) else
      moved ps (finRotate 3) k) 'a' 1 = compValue (List.ofFn ps) 'a' 3 := by
    simp only [Bool.false_eq_true, if_false, compValue, List.getElem?_ofFn]
    rw [dif_pos (by omega), dif_pos (by omega)]
    exact congrArg (fun p : Particle K => p.r_d.map (· 0)) e3
  rw [e4]; exact h

/-! ### C74 -/

/-- The string of a permutation as the code writes it, the labels in decimal one after another. -/
def labelString (σ : Equiv.Perm (Fin n)) : List Char := (List.finRange n).flatMap fun k => pyStr ((σ k : ℕ) + 1)

/-- C74 fails from ten particles on: the image of `a10` under the exchange of 1 and 2, which does not touch 10, is
`a20`, whatever the number of particles. -/
theorem C74_two_digits_wrong (hn : 10 ≤ n) :
    permLabel (Equiv.swap (⟨0, by omega⟩ : Fin n) ⟨1, by omega⟩) 10 = 10 ∧
    covariantPolyImage ['a', '1', '0'] (labelString (Equiv.swap (⟨0, by omega⟩ : Fin n) ⟨1, by omega⟩), false) = .ok ['a', '2', '0'] := by
  constructor
  · rw [permLabel, dif_pos (by omega), Equiv.swap_apply_of_ne_of_ne] <;> simp [Fin.ext_iff]
  · obtain ⟨m, rfl⟩ : ∃ m, n = m + 1 := ⟨n - 1, by omega⟩
    have e : labelString (Equiv.swap (⟨0, by omega⟩ : Fin (m + 1)) ⟨1, by omega⟩) = '2' ::
        ((List.finRange m).map Fin.succ).flatMap fun k => pyStr ((Equiv.swap (⟨0, by omega⟩ : Fin (m + 1)) ⟨1, by omega⟩ k : ℕ) + 1) := by
      rw [labelString, List.finRange_succ, List.flatMap_cons]
      have : Equiv.swap (⟨0, by omega⟩ : Fin (m + 1)) ⟨1, by omega⟩ 0 = ⟨1, by omega⟩ := Equiv.swap_apply_left _ _
      rw [this, pyStr_digit (by simp)]
      rfl
    rw [e]
    simp [covariantPolyImage, covDigits, pyGetMinusOne]

/-- C74, what holds for any number of particles: if the rule exchanges only labels below ten among themselves, the
image of a polynomial in the components of these is right. What is missing is every other rule and variable. -/
theorem C74_one_digit_partial (σ : Equiv.Perm (Fin n)) (hσ : ∀ k : Fin n, (k : ℕ) < 9 → (σ k : ℕ) < 9) (b : Bool)
    {pw : List Char} (hpw : PowerSign pw) (ts : List (Tok PAtom × ℕ)) (hv : CovVars n ts)
    (h9 : ∀ l i k, (Tok.atom (PAtom.var l i), k) ∈ ts → i ≤ 9) :
    covariantPolyImage (renderText pw ts) (labelString σ, b) = .ok (renderText pw (imageToks σ b ts)) := by
  refine covariantPolyImage_rule σ _ b hpw ts hv fun l i k h => ?_
  obtain ⟨-, h1, h2⟩ := hv l i k h
  have h3 := h9 l i k h
  have h4 := hσ ⟨i - 1, by omega⟩ (by simp; omega)
  refine ⟨h3, ?_, by rw [permLabel, dif_pos ⟨h1, h2⟩]; omega⟩
  rw [permLabel, dif_pos ⟨h1, h2⟩]
  have key : ∀ j ≤ 9, j ≤ n → ∃ t, labelString σ = ((List.finRange n).take j).map (fun k => Nat.digitChar ((σ k : ℕ) + 1)) ++ t := by
    intro j hj hjn
    refine ⟨((List.finRange n).drop j).flatMap fun k => pyStr ((σ k : ℕ) + 1), ?_⟩
    conv_lhs => rw [labelString, ← List.take_append_drop j (List.finRange n), List.flatMap_append]
    congr 1
    rw [List.map_eq_flatMap]
    refine List.flatMap_congr fun k hk => pyStr_digit ?_
    have : (k : ℕ) < 9 := by
      obtain ⟨m, hm, rfl⟩ := List.getElem_of_mem hk
      simp at hm ⊢
      omega
    have := hσ k this
    omega
  obtain ⟨t, ht⟩ := key i h3 h2
  rw [ht, List.getElem?_append_left (by simp; omega)]
  simp only [List.getElem?_map, List.getElem?_take]
  rw [if_pos (by omega), List.getElem?_eq_getElem (by simp; omega)]
  simp

end Lips

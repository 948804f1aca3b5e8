import Verif.Spec.Mathematica
import Verif.Model.Mathematica
import Verif.Props.Indexing
import Verif.Props.NodeText

/-!
C108: the texts written for Mathematica.
-/

namespace Lips

/-! ### `str.replace` -/

theorem replace_nil (old new : List Char) : pyReplace old new [] = [] := rfl

theorem replace_ne {a x : Char} (o new s : List Char) (h : x ≠ a) : pyReplace (a :: o) new (x :: s) = x :: pyReplace (a :: o) new s := by
  unfold pyReplace
  rw [replaceFrom, if_neg]
  simp only [List.isPrefixOf, Bool.and_eq_true, beq_iff_eq, not_and]
  exact fun e => absurd e.symm h

theorem replace_skip {a : Char} (o new : List Char) : ∀ (w s : List Char), a ∉ w → pyReplace (a :: o) new (w ++ s) = w ++ pyReplace (a :: o) new s
  | [], _, _ => rfl
  | x :: w, s, h => by
    rw [List.cons_append, replace_ne o new _ (fun e => h (by simp [e])), replace_skip o new w s (fun hw => h (by simp [hw])), List.cons_append]

theorem replace_self {a : Char} (o new w : List Char) (h : a ∉ w) : pyReplace (a :: o) new w = w := by
  have := replace_skip o new w [] h
  simpa [replace_nil] using this

theorem replaceFrom_skip (old new : List Char) : ∀ (w s : List Char), replaceFrom old new w.length (w ++ s) = replaceFrom old new 0 s
  | [], _ => rfl
  | _ :: w, s => by rw [List.length_cons, List.cons_append, replaceFrom, replaceFrom_skip old new w s]

theorem replace_hit {a : Char} (o new s : List Char) : pyReplace (a :: o) new (a :: (o ++ s)) = new ++ pyReplace (a :: o) new s := by
  unfold pyReplace
  have h : (a :: o).isPrefixOf (a :: (o ++ s)) = true := List.isPrefixOf_iff_prefix.mpr ⟨s, rfl⟩
  rw [replaceFrom, if_pos h, List.length_cons, Nat.add_sub_cancel, replaceFrom_skip]

theorem replace_hit2 {a b : Char} (new s : List Char) : pyReplace [a, b] new (a :: b :: s) = new ++ pyReplace [a, b] new s :=
  replace_hit [b] new s

theorem replace_miss {a b y : Char} (new s : List Char) (h : y ≠ b) : pyReplace [a, b] new (a :: y :: s) = a :: pyReplace [a, b] new (y :: s) := by
  unfold pyReplace
  rw [replaceFrom, if_neg]
  simp only [List.isPrefixOf, Bool.and_eq_true, beq_iff_eq, not_and, Bool.and_true]
  exact fun _ e => absurd e.symm h

/-- One character is replaced wherever it stands. -/
theorem replace_char (a : Char) (new : List Char) : ∀ s : List Char, pyReplace [a] new s = s.flatMap fun x => if x = a then new else [x]
  | [] => rfl
  | x :: s => by
    by_cases h : x = a
    · subst h
      have e := replace_hit (a := x) [] new s
      rw [List.nil_append] at e
      rw [e, replace_char x new s, List.flatMap_cons, if_pos rfl]
    · rw [replace_ne [] new s h, replace_char a new s, List.flatMap_cons, if_neg h, List.singleton_append]

theorem replace_char_append (a : Char) (new s t : List Char) : pyReplace [a] new (s ++ t) = pyReplace [a] new s ++ pyReplace [a] new t := by
  simp only [replace_char, List.flatMap_append]

/-! ### Numbers -/

theorem DigitsText.chars {t : List Char} (h : DigitsText t) {a : Char} (ha : a.isDigit = false) : a ∉ t := fun hm => by
  rw [h.2 a hm] at ha; cases ha

theorem Mantissa.chars {t : List Char} {q : ℚ} (h : Mantissa t q) : ∀ c ∈ t, c.isDigit = true ∨ c = '.' := by
  cases h with
  | int hw => exact fun c hc => .inl (hw.2 c hc)
  | dec hw hf =>
    intro c hc
    rcases List.mem_append.mp hc with h | h
    · exact .inl (hw.2 c h)
    · rcases List.mem_cons.mp h with h | h
      · exact .inr h
      · exact .inl (hf c h)

theorem Mantissa.head {t : List Char} {q : ℚ} (h : Mantissa t q) : ∃ c s, t = c :: s ∧ c.isDigit = true := by
  have key : ∀ (w s : List Char), DigitsText w → ∃ c s', w ++ s = c :: s' ∧ c.isDigit = true := by
    rintro (_ | ⟨c, w⟩) s hw
    · exact absurd rfl hw.1
    · exact ⟨c, w ++ s, rfl, hw.2 c (by simp)⟩
  cases h with
  | int hw => simpa using key _ [] hw
  | dec hw hf => exact key _ _ hw

theorem Mantissa.not_mem {t : List Char} {q : ℚ} (h : Mantissa t q) {a : Char} (ha : a.isDigit = false ∧ a ≠ '.') : a ∉ t := fun hm => by
  rcases h.chars a hm with h | h
  · rw [ha.1] at h; cases h
  · exact ha.2 h

/-- The characters of a decimal. -/
theorem Unsigned.chars {mark t : List Char} {q : ℚ} (h : Unsigned mark t q) : ∀ c ∈ t, c.isDigit = true ∨ c ∈ '.' :: '+' :: '-' :: mark := by
  have m : ∀ {s : List Char} {r : ℚ}, Mantissa s r → ∀ c ∈ s, c.isDigit = true ∨ c ∈ '.' :: '+' :: '-' :: mark := fun hs c hc =>
    (hs.chars c hc).imp_right fun e => by simp [e]
  cases h with
  | plain hm => exact m hm
  | up hm hd =>
    intro c hc
    simp only [List.mem_append] at hc
    rcases hc with (hc | hc) | hc
    · exact m hm c hc
    · exact .inr (by simp [hc])
    · exact .inl (hd.2 c hc)
  | plus hm hd =>
    intro c hc
    simp only [List.mem_append, List.mem_cons] at hc
    rcases hc with (hc | hc) | hc | hc
    · exact m hm c hc
    · exact .inr (by simp [hc])
    · exact .inr (by simp [hc])
    · exact .inl (hd.2 c hc)
  | down hm hd =>
    intro c hc
    simp only [List.mem_append, List.mem_cons] at hc
    rcases hc with (hc | hc) | hc | hc
    · exact m hm c hc
    · exact .inr (by simp [hc])
    · exact .inr (by simp [hc])
    · exact .inl (hd.2 c hc)

theorem Signed.chars {mark t : List Char} {q : ℚ} (h : Signed mark t q) : ∀ c ∈ t, c.isDigit = true ∨ c ∈ '.' :: '+' :: '-' :: mark := by
  cases h with
  | pos h => exact h.chars
  | neg h =>
    intro c hc
    rcases List.mem_cons.mp hc with hc | hc
    · exact .inr (by simp [hc])
    · exact h.chars c hc

theorem Signed.not_mem {mark t : List Char} {q : ℚ} (h : Signed mark t q) {a : Char} (ha : a.isDigit = false) (ha' : a ∉ '.' :: '+' :: '-' :: mark) : a ∉ t :=
  fun hm => by
    rcases h.chars a hm with h | h
    · rw [ha] at h; cases h
    · exact ha' h

theorem Unsigned.not_mem {mark t : List Char} {q : ℚ} (h : Unsigned mark t q) {a : Char} (ha : a.isDigit = false) (ha' : a ∉ '.' :: '+' :: '-' :: mark) : a ∉ t :=
  (Signed.pos h).not_mem ha ha'

/-- Python's decimals become Mathematica's. -/
theorem Unsigned.toM {t : List Char} {q : ℚ} (h : Unsigned pyMark t q) : Unsigned mMark (pyReplace ['e'] ['*', '^'] t) q := by
  have m : ∀ {s : List Char} {r : ℚ}, Mantissa s r → pyReplace ['e'] ['*', '^'] s = s := fun hs => replace_self _ _ _ (hs.not_mem (by decide))
  have d : ∀ {s : List Char}, DigitsText s → pyReplace ['e'] ['*', '^'] s = s := fun hs => replace_self _ _ _ (hs.chars (by decide))
  have e : ∀ x, x ≠ 'e' → ∀ s, pyReplace ['e'] ['*', '^'] (x :: s) = x :: pyReplace ['e'] ['*', '^'] s := fun x hx s => replace_ne _ _ _ hx
  have k : pyReplace ['e'] ['*', '^'] pyMark = mMark := by decide
  cases h with
  | plain hm => rw [m hm]; exact .plain hm
  | up hm hd => rw [replace_char_append, replace_char_append, m hm, k, d hd]; exact .up hm hd
  | plus hm hd => rw [replace_char_append, replace_char_append, m hm, k, e _ (by decide), d hd]; exact .plus hm hd
  | down hm hd => rw [replace_char_append, replace_char_append, m hm, k, e _ (by decide), d hd]; exact .down hm hd

theorem Signed.toM {t : List Char} {q : ℚ} (h : Signed pyMark t q) : Signed mMark (pyReplace ['e'] ['*', '^'] t) q := by
  cases h with
  | pos h => exact .pos h.toM
  | neg h => rw [replace_ne _ _ _ (by decide)]; exact .neg h.toM

/-! ### One value for each text -/

/-- A text of some characters and what follows them. -/
theorem split_unique {p : Char → Bool} {a b x y : List Char} (ha : ∀ c ∈ a, p c = true) (hb : ∀ c ∈ b, p c = true)
    (hx : ∀ c, x.head? = some c → p c = false) (hy : ∀ c, y.head? = some c → p c = false) (h : a ++ x = b ++ y) : a = b ∧ x = y := by
  have e1 := takeWhile_all ha hx
  have e2 := takeWhile_all hb hy
  rw [h] at e1
  exact ⟨e1.1.symm.trans e2.1, e1.2.symm.trans e2.2⟩

theorem Mantissa.unique {t : List Char} {q r : ℚ} (h : Mantissa t q) (h' : Mantissa t r) : q = r := by
  generalize e : t = t' at h'
  cases h with
  | @int w hw =>
    cases h' with
    | int hw' => rw [e]
    | @dec w' f' hw' hf' => exact absurd (by rw [e]; simp) (hw.chars (a := '.') (by decide))
  | @dec w f hw hf =>
    cases h' with
    | int hw' => exact absurd (by rw [← e]; simp) (hw'.chars (a := '.') (by decide))
    | @dec w' f' hw' hf' =>
      obtain ⟨e1, e2⟩ := split_unique hw.2 hw'.2 (by simp) (by simp) e
      rw [e1, List.cons.inj e2 |>.2]

/-- What follows a decimal. -/
def EndsNumber (s : List Char) : Prop := ∀ c, s.head? = some c → c.isDigit = false ∧ c ≠ '.' ∧ c ≠ '*'

theorem digits_unique {a b x y : List Char} (ha : DigitsText a) (hb : DigitsText b) (hx : EndsNumber x) (hy : EndsNumber y) (h : a ++ x = b ++ y) : a = b ∧ x = y :=
  split_unique (p := Char.isDigit) ha.2 hb.2 (fun c hc => (hx c hc).1) (fun c hc => (hy c hc).1) h

theorem Unsigned.unique {t u x y : List Char} {q r : ℚ} (h : Unsigned mMark t q) (h' : Unsigned mMark u r) (hx : EndsNumber x) (hy : EndsNumber y)
    (e : t ++ x = u ++ y) : q = r ∧ x = y := by
  let p : Char → Bool := fun c => c.isDigit || c == '.'
  have mp : ∀ {s : List Char} {r : ℚ}, Mantissa s r → ∀ c ∈ s, p c = true := fun hs c hc => by
    rcases hs.chars c hc with h | h <;> simp [p, h]
  have np : ∀ {s : List Char}, EndsNumber s → ∀ c, s.head? = some c → p c = false := fun hs c hc => by
    have := hs c hc; simp [p, this.1, this.2.1]
  -- every decimal is a mantissa and a tail
  have tail : ∀ {t x : List Char} {q : ℚ}, Unsigned mMark t q → EndsNumber x → ∃ m s b, Mantissa m b ∧ t ++ x = m ++ s ∧ (∀ c, s.head? = some c → p c = false) ∧
      ((s = x ∧ q = b) ∨ ∃ d, DigitsText d ∧ (s = '*' :: '^' :: (d ++ x) ∧ q = b * 10 ^ Nat.ofDigitChars 10 d 0 ∨
        s = '*' :: '^' :: '+' :: (d ++ x) ∧ q = b * 10 ^ Nat.ofDigitChars 10 d 0 ∨ s = '*' :: '^' :: '-' :: (d ++ x) ∧ q = b / 10 ^ Nat.ofDigitChars 10 d 0)) := by
    intro t x q h hx
    cases h with
    | plain hm => exact ⟨t, x, q, hm, rfl, np hx, .inl ⟨rfl, rfl⟩⟩
    | @up m d b hm hd => exact ⟨m, '*' :: '^' :: (d ++ x), b, hm, by simp [mMark], by simp [p], .inr ⟨d, hd, .inl ⟨rfl, rfl⟩⟩⟩
    | @plus m d b hm hd => exact ⟨m, '*' :: '^' :: '+' :: (d ++ x), b, hm, by simp [mMark], by simp [p], .inr ⟨d, hd, .inr (.inl ⟨rfl, rfl⟩)⟩⟩
    | @down m d b hm hd => exact ⟨m, '*' :: '^' :: '-' :: (d ++ x), b, hm, by simp [mMark], by simp [p], .inr ⟨d, hd, .inr (.inr ⟨rfl, rfl⟩)⟩⟩
  obtain ⟨m, s, b, hm, e1, hs, hq⟩ := tail h hx
  obtain ⟨m', s', b', hm', e2, hs', hq'⟩ := tail h' hy
  obtain ⟨rfl, rfl⟩ := split_unique (mp hm) (mp hm') hs hs' (e1.symm.trans (e.trans e2))
  obtain rfl := hm.unique hm'
  have star : ∀ {z w : List Char}, EndsNumber z → z ≠ '*' :: w := fun hz e => (hz '*' (by rw [e]; rfl)).2.2 rfl
  have dig : ∀ {d x w : List Char} {c : Char}, DigitsText d → c.isDigit = false → d ++ x ≠ c :: w := by
    rintro (_ | ⟨c', d⟩) x w c hd hc e
    · exact hd.1 rfl
    · obtain rfl := (List.cons.inj e).1
      rw [hd.2 c' (by simp)] at hc; cases hc
  rcases hq with ⟨rfl, rfl⟩ | ⟨d, hd, hq⟩
  · rcases hq' with ⟨rfl, rfl⟩ | ⟨d', hd', ⟨e, -⟩ | ⟨e, -⟩ | ⟨e, -⟩⟩
    · exact ⟨rfl, rfl⟩
    all_goals exact absurd e (star hx)
  · rcases hq' with ⟨rfl, rfl⟩ | ⟨d', hd', hq'⟩
    · rcases hq with ⟨e, -⟩ | ⟨e, -⟩ | ⟨e, -⟩ <;> exact absurd e (star hy)
    · rcases hq with ⟨e, k⟩ | ⟨e, k⟩ | ⟨e, k⟩ <;> rcases hq' with ⟨e', k'⟩ | ⟨e', k'⟩ | ⟨e', k'⟩ <;> rw [e] at e' <;>
        simp only [List.cons.injEq, true_and] at e'
      · obtain ⟨rfl, rfl⟩ := digits_unique hd hd' hx hy e'; exact ⟨k.trans k'.symm, rfl⟩
      · exact absurd e' (dig hd (by decide))
      · exact absurd e' (dig hd (by decide))
      · exact absurd e'.symm (dig hd' (by decide))
      · obtain ⟨rfl, rfl⟩ := digits_unique hd hd' hx hy e'; exact ⟨k.trans k'.symm, rfl⟩
      · exact absurd e'.1 (by decide)
      · exact absurd e'.symm (dig hd' (by decide))
      · exact absurd e'.1 (by decide)
      · obtain ⟨rfl, rfl⟩ := digits_unique hd hd' hx hy e'; exact ⟨k.trans k'.symm, rfl⟩

theorem Unsigned.head {mark t : List Char} {q : ℚ} (h : Unsigned mark t q) : ∃ c s, t = c :: s ∧ c.isDigit = true := by
  cases h with
  | plain hm => exact hm.head
  | up hm hd => obtain ⟨c, s, e, hc⟩ := hm.head; exact ⟨c, _, by rw [e]; rfl, hc⟩
  | plus hm hd => obtain ⟨c, s, e, hc⟩ := hm.head; exact ⟨c, _, by rw [e]; rfl, hc⟩
  | down hm hd => obtain ⟨c, s, e, hc⟩ := hm.head; exact ⟨c, _, by rw [e]; rfl, hc⟩

theorem Signed.unique {t u x y : List Char} {q r : ℚ} (h : Signed mMark t q) (h' : Signed mMark u r) (hx : EndsNumber x) (hy : EndsNumber y)
    (e : t ++ x = u ++ y) : q = r ∧ x = y := by
  have no : ∀ {t u x y : List Char} {q : ℚ}, Unsigned mMark t q → t ++ x ≠ '-' :: u ++ y := by
    intro t u x y q h e
    obtain ⟨c, s, rfl, hc⟩ := h.head
    obtain rfl : c = '-' := (List.cons.inj e).1
    exact absurd hc (by decide)
  cases h with
  | pos h =>
    cases h' with
    | pos h' => exact h.unique h' hx hy e
    | neg h' => exact absurd e (no h)
  | neg h =>
    cases h' with
    | pos h' => exact absurd e.symm (no h')
    | neg h' =>
      obtain ⟨k, k'⟩ := h.unique h' hx hy (List.cons.inj e).2
      exact ⟨by rw [k], k'⟩

theorem Signed.head_ne {mark t : List Char} {q : ℚ} (h : Signed mark t q) (s r : List Char) : t ++ s ≠ '(' :: r := by
  intro e
  cases h with
  | pos h =>
    obtain ⟨c, s, rfl, hc⟩ := h.head
    obtain rfl : c = '(' := (List.cons.inj e).1
    exact absurd hc (by decide)
  | neg h => exact absurd (List.cons.inj e).1 (by decide)

theorem ends_cons {c : Char} (h : c.isDigit = false ∧ c ≠ '.' ∧ c ≠ '*') (s : List Char) : EndsNumber (c :: s) := by
  intro d hd
  obtain rfl : c = d := by simpa using hd
  exact h

/-- C108: a text of Mathematica is at most one number. -/
theorem C108_one_number {t : List Char} {z w : ℚ × ℚ} (h : MComplex t z) (h' : MComplex t w) : z = w := by
  have p1 : ∀ s, EndsNumber ('+' :: s) := ends_cons (by decide)
  have p2 : ∀ s, EndsNumber ('-' :: s) := ends_cons (by decide)
  have p3 : ∀ s, EndsNumber ('I' :: s) := ends_cons (by decide)
  induction h generalizing w with
  | @plus x y a b hx hy =>
    generalize e : x ++ '+' :: (y ++ ['I']) = t at h'
    cases h' with
    | @plus x' y' a' b' hx' hy' =>
      obtain ⟨rfl, e1⟩ := hx.unique hx' (p1 _) (p1 _) e
      obtain ⟨rfl, -⟩ := hy.unique hy' (p3 _) (p3 _) (List.cons.inj e1).2
      rfl
    | @minus x' y' a' b' hx' hy' => exact absurd (List.cons.inj (hx.unique hx' (p1 _) (p2 _) e).2).1 (by decide)
    | @imag y' b' hy' => exact absurd (List.cons.inj (hx.unique hy' (p1 _) (p3 _) e).2).1 (by decide)
    | paren _ => exact absurd e (hx.head_ne _ _)
  | @minus x y a b hx hy =>
    generalize e : x ++ '-' :: (y ++ ['I']) = t at h'
    cases h' with
    | @plus x' y' a' b' hx' hy' => exact absurd (List.cons.inj (hx.unique hx' (p2 _) (p1 _) e).2).1 (by decide)
    | @minus x' y' a' b' hx' hy' =>
      obtain ⟨rfl, e1⟩ := hx.unique hx' (p2 _) (p2 _) e
      obtain ⟨rfl, -⟩ := hy.unique hy' (p3 _) (p3 _) (List.cons.inj e1).2
      rfl
    | @imag y' b' hy' => exact absurd (List.cons.inj (hx.unique hy' (p2 _) (p3 _) e).2).1 (by decide)
    | paren _ => exact absurd e (hx.head_ne _ _)
  | @imag y b hy =>
    generalize e : y ++ ['I'] = t at h'
    cases h' with
    | @plus x' y' a' b' hx' hy' => exact absurd (List.cons.inj (hy.unique hx' (p3 _) (p1 _) e).2).1 (by decide)
    | @minus x' y' a' b' hx' hy' => exact absurd (List.cons.inj (hy.unique hx' (p3 _) (p2 _) e).2).1 (by decide)
    | @imag y' b' hy' => rw [(hy.unique hy' (p3 _) (p3 _) e).1]
    | paren _ => exact absurd e (hy.head_ne _ _)
  | @paren t z ht ih =>
    generalize e : '(' :: (t ++ [')']) = t' at h'
    cases h' with
    | @plus x' y' a' b' hx' hy' => exact absurd e.symm (hx'.head_ne _ _)
    | @minus x' y' a' b' hx' hy' => exact absurd e.symm (hx'.head_ne _ _)
    | @imag y' b' hy' => exact absurd e.symm (hy'.head_ne _ _)
    | @paren t'' _ h'' =>
      obtain rfl : t = t'' := List.append_cancel_right (List.cons.inj e).2
      exact ih h''

/-! ### The numbers as they are written -/

/-- The texts of the two parts and their values. -/
def CReads (t : CText) (z : ℚ × ℚ) : Prop := Signed pyMark t.1 z.1 ∧ Signed pyMark t.2 z.2

/-- A text with Mathematica's mark. -/
abbrev marked (t : List Char) : List Char := pyReplace ['e'] ['*', '^'] t

theorem fileNumber_eq (z : CText) : fileNumber z = marked z.1 ++ '\'' :: '+' :: (marked z.2 ++ ['\'', 'I']) := by
  have cut : ∀ t, ((mpfRepr t).drop 5).dropLast = t ++ ['\''] := by
    intro t
    rw [mpfRepr, List.append_assoc, List.drop_left' (by rfl), show t ++ ['\'', ')'] = (t ++ ['\'']) ++ [')'] by simp, List.dropLast_concat]
  rw [fileNumber, cut, cut]
  simp only [replace_char_append, show ∀ x : Char, x ≠ 'e' → pyReplace ['e'] ['*', '^'] [x] = [x] from fun x hx => replace_ne _ _ [] hx,
    show '\'' ≠ 'e' by decide, show '+' ≠ 'e' by decide, show 'I' ≠ 'e' by decide, ne_eq, not_false_eq_true]
  simp

theorem momNumber_eq {t : CText} {z : ℚ × ℚ} (h : CReads t z) :
    momNumber t = '\'' :: (marked t.1 ++ '\'' :: '+' :: '\'' :: (marked t.2 ++ ['\'', 'I'])) := by
  obtain ⟨x, y⟩ := t
  obtain ⟨hx, hy⟩ := h
  have e1 : pyReplace ['e'] ['*', '^'] (mpfRepr x ++ ['+'] ++ mpfRepr y ++ ['I']) =
      'm' :: (['p', 'f', '('] ++ ('\'' :: (marked x ++ '\'' :: ')' :: '+' :: 'm' :: (['p', 'f', '('] ++ ('\'' :: (marked y ++ ['\'', ')', 'I'])))))) := by
    simp only [mpfRepr, replace_char_append, show pyReplace ['e'] ['*', '^'] ['m', 'p', 'f', '(', '\''] = ['m', 'p', 'f', '(', '\''] by decide,
      show pyReplace ['e'] ['*', '^'] ['\'', ')'] = ['\'', ')'] by decide, show pyReplace ['e'] ['*', '^'] ['+'] = ['+'] by decide,
      show pyReplace ['e'] ['*', '^'] ['I'] = ['I'] by decide]
    simp
  have mx : 'm' ∉ marked x := hx.toM.not_mem (by decide) (by decide)
  have my : 'm' ∉ marked y := hy.toM.not_mem (by decide) (by decide)
  have px : ')' ∉ marked x := hx.toM.not_mem (by decide) (by decide)
  have py : ')' ∉ marked y := hy.toM.not_mem (by decide) (by decide)
  have e2 : pyReplace ['m', 'p', 'f', '('] [] ('m' :: (['p', 'f', '('] ++ ('\'' :: (marked x ++ '\'' :: ')' :: '+' :: 'm' ::
      (['p', 'f', '('] ++ ('\'' :: (marked y ++ ['\'', ')', 'I']))))))) =
      '\'' :: (marked x ++ '\'' :: ')' :: '+' :: '\'' :: (marked y ++ ['\'', ')', 'I'])) := by
    rw [replace_hit, List.nil_append, replace_ne _ _ _ (by decide), replace_skip _ _ _ _ mx, replace_ne _ _ _ (by decide), replace_ne _ _ _ (by decide),
      replace_ne _ _ _ (by decide), replace_hit, List.nil_append, replace_ne _ _ _ (by decide), replace_skip _ _ _ _ my]
    rfl
  rw [momNumber, e1, e2]
  rw [replace_ne _ _ _ (by decide), replace_skip _ _ _ _ px, replace_ne _ _ _ (by decide)]
  rw [show ∀ s : List Char, pyReplace [')'] [] (')' :: s) = pyReplace [')'] [] s from fun s => replace_hit [] [] s]
  rw [replace_ne _ _ _ (by decide), replace_ne _ _ _ (by decide), replace_skip _ _ _ _ py]
  rfl

theorem Signed.mParts {t : CText} {z : ℚ × ℚ} (h : CReads t z) : MComplex (marked t.1 ++ '+' :: (marked t.2 ++ ['I'])) z :=
  .plus h.1.toM h.2.toM

/-! ### Files -/

/-- No quote occurs in a number. -/
theorem MComplex.no_quote {t : List Char} {z : ℚ × ℚ} (h : MComplex t z) : '\'' ∉ t := by
  induction h with
  | plus hx hy =>
    have h1 := hx.not_mem (a := '\'') (by decide) (by decide)
    have h2 := hy.not_mem (a := '\'') (by decide) (by decide)
    simp [h1, h2]
  | minus hx hy =>
    have h1 := hx.not_mem (a := '\'') (by decide) (by decide)
    have h2 := hy.not_mem (a := '\'') (by decide) (by decide)
    simp [h1, h2]
  | imag hy =>
    have h2 := hy.not_mem (a := '\'') (by decide) (by decide)
    simp [h2]
  | paren _ ih => simp [ih]

theorem pyStr_no (k : ℕ) {a : Char} (ha : a.isDigit = false) : a ∉ pyStr k := fun h => by
  rw [pyStr_digits k a h] at ha; cases ha

theorem Assigns.no_quote {name i : List Char} {j : Char} {t : List Char} {z : ℚ × ℚ} (h : Assigns name i j t z) (hn : '\'' ∉ name) (hi : '\'' ∉ i)
    (hj : '\'' ≠ j) : '\'' ∉ t := by
  obtain ⟨hm⟩ := h
  simp [hn, hi, hj, hm.no_quote]

theorem Statements.no_quote {name : List Char} (hn : '\'' ∉ name) {i : ℕ} {t : List Char} {zs : List ((ℚ × ℚ) × (ℚ × ℚ))}
    (h : Statements (AssignsSpinor name pyStr) i t zs) : '\'' ∉ t := by
  induction h with
  | nil => simp
  | cons hs _ ih =>
    obtain ⟨h1, h2⟩ := hs
    have q1 := h1.no_quote hn (pyStr_no _ (by decide)) (by decide)
    have q2 := h2.no_quote hn (pyStr_no _ (by decide)) (by decide)
    simp [q1, q2, ih]

/-- C108: what is written into the files are not assignments of numbers: every number has a quote after its parts. -/
theorem C108_file_quotes (ps : List (CText × CText)) (hp : ps ≠ []) :
    (¬ ∃ zs, Statements (AssignsSpinor lambdaName pyStr) 1 (rFileText ps) zs) ∧
    (¬ ∃ zs, Statements (AssignsSpinor lambdaBarName pyStr) 1 (lFileText ps) zs) := by
  have q : ∀ name i, '\'' ∈ fileLoop name i ps := by
    intro name i
    obtain _ | ⟨⟨a, b⟩, ps⟩ := ps
    · exact absurd rfl hp
    · rw [fileLoop, fileLines, fileNumber_eq]
      simp
  exact ⟨fun ⟨_, h⟩ => h.no_quote (by decide +kernel) (q _ _), fun ⟨_, h⟩ => h.no_quote (by decide +kernel) (q _ _)⟩

/-- The text without quotes. -/
def unquote (t : List Char) : List Char := t.filter (· ≠ '\'')

theorem unquote_self {t : List Char} (h : '\'' ∉ t) : unquote t = t :=
  List.filter_eq_self.mpr fun c hc => by simpa using fun e : c = '\'' => h (e ▸ hc)

theorem unquote_number {t : CText} {z : ℚ × ℚ} (h : CReads t z) : unquote (fileNumber t) = marked t.1 ++ '+' :: (marked t.2 ++ ['I']) := by
  have h1 : unquote (marked t.1) = marked t.1 := unquote_self (h.1.toM.not_mem (by decide) (by decide))
  have h2 : unquote (marked t.2) = marked t.2 := unquote_self (h.2.toM.not_mem (by decide) (by decide))
  rw [fileNumber_eq]
  unfold unquote at h1 h2 ⊢
  simp only [List.filter_append, List.filter_cons, h1, h2]
  simp

/-- What is read for the two components. -/
def SReads (p : CText × CText) (z : (ℚ × ℚ) × (ℚ × ℚ)) : Prop := CReads p.1 z.1 ∧ CReads p.2 z.2

theorem file_lines {name : List Char} (hn : '\'' ∉ name) (i : ℕ) {ps : List (CText × CText)} {zs : List ((ℚ × ℚ) × (ℚ × ℚ))}
    (h : List.Forall₂ SReads ps zs) : Statements (AssignsSpinor name pyStr) i (unquote (fileLoop name i ps)) zs := by
  induction h generalizing i with
  | nil => exact .nil
  | @cons p z ps zs hp _ ih =>
    obtain ⟨a, b⟩ := p
    obtain ⟨ha, hb⟩ := hp
    have u1 : unquote (fileLines name i a b) = (name ++ pyStr i ++ [',', '1', ']', ' ', '=', ' '] ++ (marked a.1 ++ '+' :: (marked a.2 ++ ['I'])) ++ [';', '\n']) ++
        (name ++ pyStr i ++ [',', '2', ']', ' ', '=', ' '] ++ (marked b.1 ++ '+' :: (marked b.2 ++ ['I'])) ++ [';', '\n']) := by
      have e1 := unquote_self hn
      have e2 := unquote_self (pyStr_no i (a := '\'') (by decide))
      have e3 := unquote_number ha
      have e4 := unquote_number hb
      unfold unquote at e1 e2 e3 e4 ⊢
      rw [fileLines]
      simp only [List.filter_append, e1, e2, e3, e4]
      rfl
    have u2 : unquote (fileLoop name i ((a, b) :: ps)) = unquote (fileLines name i a b) ++ unquote (fileLoop name (i + 1) ps) := by
      rw [fileLoop]; exact List.filter_append ..
    rw [u2]
    refine .cons ?_ (ih (i + 1))
    rw [u1]
    exact .mk (z := z.1) (w := z.2) (.mk (Signed.mParts ha)) (.mk (Signed.mParts hb))

/-- C108: without the quotes the files assign the components of the spinors. -/
theorem C108_file_partial {ps : List (CText × CText)} {zs : List ((ℚ × ℚ) × (ℚ × ℚ))} (h : List.Forall₂ SReads ps zs) :
    Statements (AssignsSpinor lambdaName pyStr) 1 (unquote (rFileText ps)) zs ∧
    Statements (AssignsSpinor lambdaBarName pyStr) 1 (unquote (lFileText ps)) zs :=
  ⟨file_lines (by decide +kernel) 1 h, file_lines (by decide +kernel) 1 h⟩

/-! ### Momenta -/

/-- Texts with neither brackets nor `+-`, also where they end. -/
theorem plusMinus_skip {w : List Char} (h : w.IsChain fun x y => ¬ (x = '+' ∧ y = '-')) (hl : w.getLast? ≠ some '+') (s : List Char) :
    pyReplace ['+', '-'] ['-'] (w ++ s) = w ++ pyReplace ['+', '-'] ['-'] s := by
  induction w with
  | nil => rfl
  | cons x w ih =>
    by_cases hx : x = '+'
    · subst hx
      obtain _ | ⟨y, w⟩ := w
      · exact absurd rfl hl
      · have hc := List.isChain_cons_cons.mp h
        rw [List.cons_append, List.cons_append, replace_miss _ _ (fun e => hc.1 ⟨rfl, e⟩), ← List.cons_append, ih hc.2 (by simpa using hl)]
        rfl
    · rw [List.cons_append, replace_ne _ _ _ hx]
      obtain _ | ⟨y, w⟩ := w
      · rfl
      · rw [ih (List.isChain_cons_cons.mp h).2 (by simpa using hl)]
        rfl

theorem chain_no {w : List Char} (h : '+' ∉ w) : w.IsChain fun x y => ¬ (x = '+' ∧ y = '-') := by
  induction w with
  | nil => exact .nil
  | cons x w ih =>
    have h1 : x ≠ '+' := fun e => h (by simp [e])
    have h2 := ih (fun hm => h (by simp [hm]))
    obtain _ | ⟨y, w⟩ := w
    · exact .singleton _
    · exact List.isChain_cons_cons.mpr ⟨fun e => h1 e.1, h2⟩

/-- A decimal has no `+-`, and does not end in a sign. -/
theorem Unsigned.calm {t : List Char} {q : ℚ} (h : Unsigned mMark t q) : (t.IsChain fun x y => ¬ (x = '+' ∧ y = '-')) ∧ t.getLast? ≠ some '+' := by
  have no : ∀ {w : List Char}, '+' ∉ w → w.getLast? ≠ some '+' := fun hw e => hw (List.mem_of_getLast? e)
  have dg : ∀ {d : List Char}, DigitsText d → '+' ∉ d := fun hd => hd.chars (by decide)
  have mt : ∀ {m : List Char} {q : ℚ}, Mantissa m q → '+' ∉ m := fun hm => hm.not_mem (by decide)
  have last : ∀ {d : List Char} (w : List Char), DigitsText d → (w ++ d).getLast? ≠ some '+' := by
    intro d w hd
    rw [List.getLast?_append_of_ne_nil _ hd.1]
    exact no (dg hd)
  cases h with
  | plain hm => exact ⟨chain_no (mt hm), no (mt hm)⟩
  | @up m d b hm hd => exact ⟨chain_no (by simp [mMark, mt hm, dg hd]), last _ hd⟩
  | @plus m d b hm hd =>
    refine ⟨?_, by rw [show m ++ mMark ++ '+' :: d = (m ++ mMark ++ ['+']) ++ d by simp]; exact last _ hd⟩
    rw [List.isChain_append]
    refine ⟨chain_no (by simp [mMark, mt hm]), ?_, fun x hx y hy => ?_⟩
    · obtain _ | ⟨c, d⟩ := d
      · exact absurd rfl hd.1
      · exact List.isChain_cons_cons.mpr ⟨fun e => absurd (hd.2 c (by simp)) (by rw [e.2]; decide), chain_no (dg hd)⟩
    · rintro ⟨-, rfl⟩
      exact absurd hy (by simp)
  | @down m d b hm hd =>
    exact ⟨chain_no (by simp [mMark, mt hm, dg hd]), by rw [show m ++ mMark ++ '-' :: d = (m ++ mMark ++ ['-']) ++ d by simp]; exact last _ hd⟩

theorem Signed.calm {t : List Char} {q : ℚ} (h : Signed mMark t q) : (t.IsChain fun x y => ¬ (x = '+' ∧ y = '-')) ∧ t.getLast? ≠ some '+' := by
  cases h with
  | pos h => exact h.calm
  | @neg t q h =>
    obtain ⟨c, s, rfl, -⟩ := h.head
    exact ⟨List.isChain_cons_cons.mpr ⟨fun e => absurd e.1 (by decide), h.calm.1⟩, by simpa using h.calm.2⟩

/-- Two texts between which the pair does not stand. -/
theorem replace_append {a b : Char} (new : List Char) : ∀ (n : ℕ) (w s : List Char), w.length ≤ n → (w.getLast? = some a → s.head? ≠ some b) →
    pyReplace [a, b] new (w ++ s) = pyReplace [a, b] new w ++ pyReplace [a, b] new s
  | _, [], s, _, _ => rfl
  | 0, _ :: _, _, h, _ => absurd h (by simp)
  | n + 1, x :: w, s, h, hs => by
    by_cases hx : x = a
    · subst hx
      obtain _ | ⟨y, w⟩ := w
      · have e : pyReplace [x, b] new [x] = [x] := by
          unfold pyReplace
          rw [replaceFrom, if_neg (by simp [List.isPrefixOf])]
          rfl
        obtain _ | ⟨y, s⟩ := s
        · simp [replace_nil]
        · rw [List.singleton_append, replace_miss _ _ (fun k => hs rfl (by rw [k]; rfl)), e]
          rfl
      · by_cases hy : y = b
        · subst hy
          rw [List.cons_append, List.cons_append, replace_hit2, replace_hit2, replace_append new n w s (by simp at h; omega), List.append_assoc]
          intro hl
          refine hs ?_
          obtain _ | ⟨z, w⟩ := w
          · cases hl
          · simpa using hl
        · rw [List.cons_append, List.cons_append, replace_miss _ _ hy, replace_miss _ _ hy, ← List.cons_append,
            replace_append new n (y :: w) s (by simpa using h) (fun hl => hs (by simpa using hl))]
          rfl
    · rw [List.cons_append, replace_ne _ _ _ hx, replace_ne _ _ _ hx, replace_append new n w s (by simpa using h)]
      · rfl
      · intro hl
        refine hs ?_
        obtain _ | ⟨z, w⟩ := w
        · cases hl
        · simpa using hl

theorem pyStr_head (k : ℕ) : ∃ c s, pyStr k = c :: s ∧ c.isDigit = true := by
  have h := pyStr_digits k
  have h' := isDigits_pyStr k
  rcases e : pyStr k with _ | ⟨c, s⟩
  · rw [e] at h'; simp [isDigits] at h'
  · exact ⟨c, s, rfl, h c (by rw [e]; simp)⟩

/-- A text that the replacements of brackets and `+-` leave alone, wherever it stands. -/
structure Steady (t : List Char) : Prop where
  ne : t ≠ []
  open_ : '[' ∉ t
  close : ']' ∉ t
  chain : t.IsChain fun x y => ¬ (x = '+' ∧ y = '-')
  last : t.getLast? ≠ some '+'

theorem Steady.replace_open {t : List Char} (h : Steady t) : pyReplace ['[', '['] ['{'] t = t := replace_self _ _ _ h.open_
theorem Steady.replace_close {t : List Char} (h : Steady t) : pyReplace [']', ']'] ['}'] t = t := replace_self _ _ _ h.close
theorem Steady.replace_sign {t : List Char} (h : Steady t) : pyReplace ['+', '-'] ['-'] t = t := by
  simpa [replace_nil] using plusMinus_skip h.chain h.last []
theorem Steady.last_open {t : List Char} (h : Steady t) : t.getLast? ≠ some '[' := fun e => h.open_ (List.mem_of_getLast? e)
theorem Steady.last_close {t : List Char} (h : Steady t) : t.getLast? ≠ some ']' := fun e => h.close (List.mem_of_getLast? e)
theorem Steady.head_open {t : List Char} (h : Steady t) : t.head? ≠ some '[' := fun e => h.open_ (List.mem_of_head? e)
theorem Steady.head_close {t : List Char} (h : Steady t) : t.head? ≠ some ']' := fun e => h.close (List.mem_of_head? e)

theorem steady_pyStr (k : ℕ) : Steady (pyStr k) where
  ne := fun e => by obtain ⟨c, s, h, -⟩ := pyStr_head k; rw [h] at e; cases e
  open_ := pyStr_no k (by decide)
  close := pyStr_no k (by decide)
  chain := chain_no (pyStr_no k (by decide))
  last := fun e => pyStr_no k (a := '+') (by decide) (List.mem_of_getLast? e)

theorem steady_mom {t : CText} {z : ℚ × ℚ} (h : CReads t z) : Steady (momNumber t) := by
  obtain ⟨x, y⟩ := t
  obtain ⟨hx, hy⟩ := h
  rw [momNumber_eq ⟨hx, hy⟩]
  have ho := hx.toM.not_mem (a := '[') (by decide) (by decide)
  have ho' := hy.toM.not_mem (a := '[') (by decide) (by decide)
  have hc := hx.toM.not_mem (a := ']') (by decide) (by decide)
  have hc' := hy.toM.not_mem (a := ']') (by decide) (by decide)
  refine ⟨by simp, by simp [ho, ho'], by simp [hc, hc'], ?_,
    by rw [show ∀ u v : List Char, '\'' :: (u ++ '\'' :: '+' :: '\'' :: (v ++ ['\'', 'I'])) = ('\'' :: (u ++ '\'' :: '+' :: '\'' :: (v ++ ['\'']))) ++ ['I'] by simp,
      List.getLast?_concat]; decide⟩
  rw [← List.singleton_append, List.isChain_append, List.isChain_append]
  refine ⟨.singleton _, ⟨hx.toM.calm.1, ?_, fun a ha b hb => ?_⟩, fun a ha b hb => ?_⟩
  · refine List.isChain_cons_cons.mpr ⟨by decide, List.isChain_cons_cons.mpr ⟨by decide, ?_⟩⟩
    rw [← List.singleton_append, List.isChain_append, List.isChain_append]
    refine ⟨.singleton _, ⟨hy.toM.calm.1, by simp, fun a ha b hb => ?_⟩, fun a ha b hb => ?_⟩
    · rintro ⟨-, rfl⟩; simp at hb
    · rintro ⟨rfl, -⟩; simp at ha
  · rintro ⟨-, rfl⟩; simp at hb
  · rintro ⟨rfl, -⟩; simp at ha

/-- Literals and other texts in turn. -/
def alternate : List Char → List (List Char × List Char) → List Char
  | l, [] => l
  | l, (t, l') :: r => l ++ (t ++ alternate l' r)

theorem braces_alternate : ∀ (l : List Char) (r : List (List Char × List Char)), '+' ∉ l → (∀ p ∈ r, Steady p.1 ∧ '+' ∉ p.2) →
    braces (alternate l r) = alternate (braces l) (r.map fun p => (p.1, braces p.2))
  | _, [], _, _ => rfl
  | l, (t, l') :: r, hl, h => by
    obtain ⟨ht, hl'⟩ := h (t, l') (by simp)
    have ih := braces_alternate l' r hl' fun p hp => h p (by simp [hp])
    have hd : ∀ (s : List Char) (c : Char), t.head? ≠ some c → (t ++ s).head? ≠ some c := by
      intro s c
      obtain ⟨x, t, rfl⟩ := List.exists_cons_of_ne_nil ht.ne
      simp
    have k : ∀ (o n s : List Char) (c : Char), c ∉ s → c ∉ n → ∀ a b, o = [a, b] → c ∉ pyReplace o n s := by
      intro o n s c hs hn a b ho
      have : ∀ (k : ℕ) (s : List Char), c ∉ s → c ∉ replaceFrom o n k s := by
        intro k s
        induction s generalizing k with
        | nil => intro _; rw [replaceFrom]; simp
        | cons x s ih =>
          intro hs
          have hs' : c ∉ s := fun hm => hs (by simp [hm])
          rcases k with _ | k
          · rw [replaceFrom]
            split
            · simp [hn, ih _ hs']
            · simp only [List.mem_cons, not_or]
              exact ⟨fun e => hs (by simp [e]), ih _ hs'⟩
          · rw [replaceFrom]; exact ih _ hs'
      exact this 0 s hs
    unfold braces at ih ⊢
    rw [alternate, replace_append _ _ l _ le_rfl (fun _ => hd _ _ ht.head_open), replace_append _ _ t _ le_rfl (fun e => absurd e ht.last_open), ht.replace_open,
      replace_append _ _ (pyReplace _ _ l) _ le_rfl (fun _ => hd _ _ ht.head_close), replace_append _ _ t _ le_rfl (fun e => absurd e ht.last_close), ht.replace_close,
      replace_skip _ _ (pyReplace _ _ (pyReplace _ _ l)) _ (k _ _ _ _ (k _ _ _ _ hl (by decide) _ _ rfl) (by decide) _ _ rfl), plusMinus_skip ht.chain ht.last, ih,
      replace_self _ _ (pyReplace _ _ (pyReplace _ _ l)) (k _ _ _ _ (k _ _ _ _ hl (by decide) _ _ rfl) (by decide) _ _ rfl)]
    rfl

theorem unquote_eq (s : List Char) : pyReplace ['\''] [] s = unquote s := by
  rw [replace_char, unquote]
  induction s with
  | nil => rfl
  | cons x s ih =>
    rw [List.flatMap_cons, List.filter_cons, ih]
    by_cases h : x = '\'' <;> simp [h]

theorem unquote_append (s t : List Char) : unquote (s ++ t) = unquote s ++ unquote t := List.filter_append ..

theorem unquote_mom {t : CText} {z : ℚ × ℚ} (h : CReads t z) : unquote (momNumber t) = marked t.1 ++ '+' :: (marked t.2 ++ ['I']) := by
  have h1 : unquote (marked t.1) = marked t.1 := unquote_self (h.1.toM.not_mem (by decide) (by decide))
  have h2 : unquote (marked t.2) = marked t.2 := unquote_self (h.2.toM.not_mem (by decide) (by decide))
  rw [momNumber_eq h]
  unfold unquote at h1 h2 ⊢
  simp only [List.filter_append, List.filter_cons, h1, h2]
  simp

/-- What is read for the four components. -/
def MReads (p : CText × CText × CText × CText) (z : (ℚ × ℚ) × (ℚ × ℚ) × (ℚ × ℚ) × (ℚ × ℚ)) : Prop :=
  CReads p.1 z.1 ∧ CReads p.2.1 z.2.1 ∧ CReads p.2.2.1 z.2.2.1 ∧ CReads p.2.2.2 z.2.2.2

theorem momLine_reads (dps i : ℕ) {p : CText × CText × CText × CText} {z : (ℚ × ℚ) × (ℚ × ℚ) × (ℚ × ℚ) × (ℚ × ℚ)} (h : MReads p z) :
    DeclaresMom pyStr dps i (momLine dps i p) z := by
  obtain ⟨h0, h1, h2, h3⟩ := h
  have e : momLine dps i p = pyReplace ['\''] [] (braces (alternate "DeclareSpinorMomentum[".toList [(pyStr i, ", [[SetPrecision[".toList),
      (momNumber p.1, ", ".toList), (pyStr dps, "], SetPrecision[".toList), (momNumber p.2.1, ", ".toList), (pyStr dps, "], SetPrecision[".toList),
      (momNumber p.2.2.1, ", ".toList), (pyStr dps, "], SetPrecision[".toList), (momNumber p.2.2.2, ", ".toList), (pyStr dps, "] ]]]".toList)])) ++ ['\n'] := by
    rw [momLine]
    simp only [alternate, List.append_assoc]
  have s0 := steady_mom h0
  have s1 := steady_mom h1
  have s2 := steady_mom h2
  have s3 := steady_mom h3
  have si := steady_pyStr i
  have sd := steady_pyStr dps
  have ui : unquote (pyStr i) = pyStr i := unquote_self (pyStr_no i (by decide))
  have ud : unquote (pyStr dps) = pyStr dps := unquote_self (pyStr_no dps (by decide))
  have b0 : braces "DeclareSpinorMomentum[".toList = "DeclareSpinorMomentum[".toList := by decide +kernel
  have b1 : braces ", [[SetPrecision[".toList = ", {SetPrecision[".toList := by decide +kernel
  have b2 : braces ", ".toList = ", ".toList := by decide +kernel
  have b3 : braces "], SetPrecision[".toList = "], SetPrecision[".toList := by decide +kernel
  have b4 : braces "] ]]]".toList = "] }]".toList := by decide +kernel
  have u0 : unquote "DeclareSpinorMomentum[".toList = "DeclareSpinorMomentum[".toList := by decide +kernel
  have u1 : unquote ", {SetPrecision[".toList = ", {SetPrecision[".toList := by decide +kernel
  have u2 : unquote ", ".toList = ", ".toList := by decide +kernel
  have u3 : unquote "], SetPrecision[".toList = "], SetPrecision[".toList := by decide +kernel
  have u4 : unquote "] }]".toList = "] }]".toList := by decide +kernel
  have n4 : "] }]\n".toList = "] }]".toList ++ ['\n'] := by decide +kernel
  have p0 : '+' ∉ "DeclareSpinorMomentum[".toList := by decide +kernel
  have p1 : '+' ∉ ", [[SetPrecision[".toList := by decide +kernel
  have p2 : '+' ∉ ", ".toList := by decide +kernel
  have p3 : '+' ∉ "], SetPrecision[".toList := by decide +kernel
  have p4 : '+' ∉ "] ]]]".toList := by decide +kernel
  have key := DeclaresMom.mk (str := pyStr) (dps := dps) (i := i) (Signed.mParts h0) (Signed.mParts h1) (Signed.mParts h2) (Signed.mParts h3)
  rw [n4] at key
  generalize "DeclareSpinorMomentum[".toList = L0 at *
  generalize ", [[SetPrecision[".toList = L1 at *
  generalize ", ".toList = L2 at *
  generalize "], SetPrecision[".toList = L3 at *
  generalize "] ]]]".toList = L4 at *
  rw [e, unquote_eq, braces_alternate _ _ p0]
  · simp only [List.map_cons, List.map_nil, alternate, b0, b1, b2, b3, b4, unquote_append, u0, u1, u2, u3, u4, ui, ud, unquote_mom h0, unquote_mom h1,
      unquote_mom h2, unquote_mom h3]
    simpa only [List.append_assoc] using key
  · simp only [List.mem_cons, List.not_mem_nil, or_false]
    rintro q (rfl | rfl | rfl | rfl | rfl | rfl | rfl | rfl | rfl) <;> exact ⟨by assumption, by assumption⟩

theorem momLoop_last (dps : ℕ) : ∀ (i : ℕ) (ps : List (CText × CText × CText × CText)), ps ≠ [] → ∃ s, momLoop dps i ps = s ++ ['\n']
  | _, [], h => absurd rfl h
  | i, [p], _ => ⟨_, by rw [momLoop, momLoop, List.append_nil, momLine]⟩
  | i, p :: q :: ps, _ => by
    obtain ⟨s, hs⟩ := momLoop_last dps (i + 1) (q :: ps) (by simp)
    exact ⟨momLine dps i p ++ s, by rw [momLoop, hs, List.append_assoc]⟩

/-- C108: the momenta are declared particle by particle, counted from one, with the four components and the precision. -/
theorem C108_momenta (dps : ℕ) {ps : List (CText × CText × CText × CText)} {zs : List ((ℚ × ℚ) × (ℚ × ℚ) × (ℚ × ℚ) × (ℚ × ℚ))}
    (h : List.Forall₂ MReads ps zs) (hp : ps ≠ []) : Statements (DeclaresMom pyStr dps) 1 (momText dps ps ++ ['\n']) zs := by
  obtain ⟨s, hs⟩ := momLoop_last dps 1 ps hp
  rw [momText, hs, List.dropLast_concat, ← hs]
  clear hs hp
  generalize 1 = i
  induction h generalizing i with
  | nil => exact .nil
  | cons hp _ ih => exact .cons (momLine_reads dps i hp) (ih _)

/-! ### Spinors -/

theorem spinorNumber_reads {t : List Char} {z : ℚ × ℚ} (h : PyComplex t z) : MComplex (spinorNumber t) z ∧ Steady (spinorNumber t) := by
  have jx : ∀ {x : List Char} {a : ℚ}, Signed pyMark x a → ∀ s, pyReplace ['j'] ['I'] (x ++ s) = x ++ pyReplace ['j'] ['I'] s := fun hx s =>
    replace_skip _ _ _ _ (hx.not_mem (by decide) (by decide))
  have st : ∀ {x : List Char} {a : ℚ}, Signed mMark x a → '[' ∉ x ∧ ']' ∉ x := fun hx =>
    ⟨hx.not_mem (by decide) (by decide), hx.not_mem (by decide) (by decide)⟩
  cases h with
  | @plus x y a b hx hy =>
    have e : spinorNumber ('(' :: (x ++ '+' :: (y ++ ['j', ')']))) = '(' :: ((marked x ++ '+' :: (marked y ++ ['I'])) ++ [')']) := by
      have e1 : pyReplace ['j'] ['I'] ('(' :: (x ++ '+' :: (y ++ ['j', ')']))) = '(' :: (x ++ '+' :: (y ++ ['I', ')'])) := by
        rw [replace_ne _ _ _ (by decide), jx hx, replace_ne _ _ _ (by decide), jx (.pos hy), show pyReplace ['j'] ['I'] ['j', ')'] = ['I', ')'] by decide]
      rw [spinorNumber, e1, replace_ne _ _ _ (by decide), replace_char_append, replace_ne _ _ _ (by decide), replace_char_append,
        show pyReplace ['e'] ['*', '^'] ['I', ')'] = ['I', ')'] by decide]
      simp
    rw [e]
    refine ⟨.paren (.plus hx.toM (.pos hy.toM)), by simp, by simp [st hx.toM, st (.pos hy.toM)], by simp [st hx.toM, st (.pos hy.toM)], ?_,
      by rw [← List.cons_append, List.getLast?_concat]; decide⟩
    obtain ⟨c, s, hc, hd⟩ := hy.toM.head
    have cy := hy.toM.calm.1
    have hc' : marked y = c :: s := hc
    rw [hc] at cy
    rw [hc']
    simp only [List.append_assoc, List.cons_append, List.nil_append]
    rw [← List.singleton_append, List.isChain_append, List.isChain_append]
    refine ⟨.singleton _, ⟨hx.toM.calm.1, ?_, fun a ha b hb => ?_⟩, fun a ha b hb => ?_⟩
    · refine List.isChain_cons_cons.mpr ⟨fun k => absurd hd (by rw [k.2]; decide), ?_⟩
      rw [← List.cons_append, List.isChain_append]
      refine ⟨cy, by simp, fun a ha b hb => ?_⟩
      rintro ⟨-, rfl⟩; simp at hb
    · rintro ⟨-, rfl⟩; simp at hb
    · rintro ⟨rfl, -⟩; simp at ha
  | @minus x y a b hx hy =>
    have e : spinorNumber ('(' :: (x ++ '-' :: (y ++ ['j', ')']))) = '(' :: ((marked x ++ '-' :: (marked y ++ ['I'])) ++ [')']) := by
      have e1 : pyReplace ['j'] ['I'] ('(' :: (x ++ '-' :: (y ++ ['j', ')']))) = '(' :: (x ++ '-' :: (y ++ ['I', ')'])) := by
        rw [replace_ne _ _ _ (by decide), jx hx, replace_ne _ _ _ (by decide), jx (.pos hy), show pyReplace ['j'] ['I'] ['j', ')'] = ['I', ')'] by decide]
      rw [spinorNumber, e1, replace_ne _ _ _ (by decide), replace_char_append, replace_ne _ _ _ (by decide), replace_char_append,
        show pyReplace ['e'] ['*', '^'] ['I', ')'] = ['I', ')'] by decide]
      simp
    rw [e]
    refine ⟨.paren (.minus hx.toM hy.toM), by simp, by simp [st hx.toM, st (.pos hy.toM)], by simp [st hx.toM, st (.pos hy.toM)], ?_,
      by rw [← List.cons_append, List.getLast?_concat]; decide⟩
    obtain ⟨c, s, hc, hd⟩ := hy.toM.head
    have cy := hy.toM.calm.1
    have hc' : marked y = c :: s := hc
    rw [hc] at cy
    rw [hc']
    simp only [List.append_assoc, List.cons_append, List.nil_append]
    rw [← List.singleton_append, List.isChain_append, List.isChain_append]
    refine ⟨.singleton _, ⟨hx.toM.calm.1, ?_, fun a ha b hb => ?_⟩, fun a ha b hb => ?_⟩
    · refine List.isChain_cons_cons.mpr ⟨fun k => absurd k.1 (by decide), ?_⟩
      rw [← List.cons_append, List.isChain_append]
      refine ⟨cy, by simp, fun a ha b hb => ?_⟩
      rintro ⟨-, rfl⟩; simp at hb
    · rintro ⟨rfl, -⟩; exact hx.toM.calm.2 ha
    · rintro ⟨rfl, -⟩; simp at ha
  | @imag y b hy =>
    have e : spinorNumber (y ++ ['j']) = marked y ++ ['I'] := by
      rw [spinorNumber, jx hy, show pyReplace ['j'] ['I'] ['j'] = ['I'] by decide, replace_char_append, show pyReplace ['e'] ['*', '^'] ['I'] = ['I'] by decide]
    rw [e]
    refine ⟨.imag hy.toM, by simp, by simp [st hy.toM], by simp [st hy.toM], ?_, by simp⟩
    rw [List.isChain_append]
    refine ⟨hy.toM.calm.1, by simp, fun a ha b hb => ?_⟩
    rintro ⟨-, rfl⟩; simp at hb

/-- What is read for the components of the two spinors. -/
def TReads (p : List Char × List Char × List Char × List Char) (z : (ℚ × ℚ) × (ℚ × ℚ) × (ℚ × ℚ) × (ℚ × ℚ)) : Prop :=
  PyComplex p.1 z.1 ∧ PyComplex p.2.1 z.2.1 ∧ PyComplex p.2.2.1 z.2.2.1 ∧ PyComplex p.2.2.2 z.2.2.2

theorem spinorLine_reads (i : ℕ) {p : List Char × List Char × List Char × List Char} {z : (ℚ × ℚ) × (ℚ × ℚ) × (ℚ × ℚ) × (ℚ × ℚ)} (h : TReads p z) :
    DeclaresSpinors pyStr i (spinorLine i p) z := by
  obtain ⟨h0, h1, h2, h3⟩ := h
  have e : spinorLine i p = braces (alternate "DeclareSpinorMomentum[Sp[".toList [(pyStr i, "], [[[[".toList), (spinorNumber p.1, "]], [[".toList),
      (spinorNumber p.2.1, "]]]], [[[[".toList), (spinorNumber p.2.2.1, ", ".toList), (spinorNumber p.2.2.2, "]]]]]".toList)]) ++ ['\n'] := by
    rw [spinorLine]
    simp only [alternate, List.append_assoc]
  obtain ⟨m0, s0⟩ := spinorNumber_reads h0
  obtain ⟨m1, s1⟩ := spinorNumber_reads h1
  obtain ⟨m2, s2⟩ := spinorNumber_reads h2
  obtain ⟨m3, s3⟩ := spinorNumber_reads h3
  have si := steady_pyStr i
  have b0 : braces "DeclareSpinorMomentum[Sp[".toList = "DeclareSpinorMomentum[Sp[".toList := by decide +kernel
  have b1 : braces "], [[[[".toList = "], {{".toList := by decide +kernel
  have b2 : braces "]], [[".toList = "}, {".toList := by decide +kernel
  have b3 : braces "]]]], [[[[".toList = "}}, {{".toList := by decide +kernel
  have b4 : braces ", ".toList = ", ".toList := by decide +kernel
  have b5 : braces "]]]]]".toList = "}}]".toList := by decide +kernel
  have n4 : "}}]\n".toList = "}}]".toList ++ ['\n'] := by decide +kernel
  have p0 : '+' ∉ "DeclareSpinorMomentum[Sp[".toList := by decide +kernel
  have p1 : '+' ∉ "], [[[[".toList := by decide +kernel
  have p2 : '+' ∉ "]], [[".toList := by decide +kernel
  have p3 : '+' ∉ "]]]], [[[[".toList := by decide +kernel
  have p4 : '+' ∉ ", ".toList := by decide +kernel
  have p5 : '+' ∉ "]]]]]".toList := by decide +kernel
  have key := DeclaresSpinors.mk (str := pyStr) (i := i) m0 m1 m2 m3
  rw [n4] at key
  generalize "DeclareSpinorMomentum[Sp[".toList = L0 at *
  generalize "], [[[[".toList = L1 at *
  generalize "]], [[".toList = L2 at *
  generalize "]]]], [[[[".toList = L3 at *
  generalize ", ".toList = L4 at *
  generalize "]]]]]".toList = L5 at *
  rw [e, braces_alternate _ _ p0]
  · simp only [List.map_cons, List.map_nil, alternate, b0, b1, b2, b3, b4, b5]
    simpa only [List.append_assoc] using key
  · simp only [List.mem_cons, List.not_mem_nil, or_false]
    rintro q (rfl | rfl | rfl | rfl | rfl) <;> exact ⟨by assumption, by assumption⟩

theorem spinorLoop_last : ∀ (i : ℕ) (ps : List (List Char × List Char × List Char × List Char)), ps ≠ [] → ∃ s, spinorLoop i ps = s ++ ['\n']
  | _, [], h => absurd rfl h
  | i, [p], _ => ⟨_, by rw [spinorLoop, spinorLoop, List.append_nil, spinorLine]⟩
  | i, p :: q :: ps, _ => by
    obtain ⟨s, hs⟩ := spinorLoop_last (i + 1) (q :: ps) (by simp)
    exact ⟨spinorLine i p ++ s, by rw [spinorLoop, hs, List.append_assoc]⟩

/-- C108: the spinors are declared particle by particle, counted from one, the first as a column and the second as a row. -/
theorem C108_spinors {ps : List (List Char × List Char × List Char × List Char)} {zs : List ((ℚ × ℚ) × (ℚ × ℚ) × (ℚ × ℚ) × (ℚ × ℚ))}
    (h : List.Forall₂ TReads ps zs) (hp : ps ≠ []) : Statements (DeclaresSpinors pyStr) 1 (spinorText ps ++ ['\n']) zs := by
  obtain ⟨s, hs⟩ := spinorLoop_last 1 ps hp
  rw [spinorText, hs, List.dropLast_concat, ← hs]
  clear hs hp
  generalize 1 = i
  induction h generalizing i with
  | nil => exact .nil
  | cons hp _ ih => exact .cons (spinorLine_reads i hp) (ih _)

end Lips

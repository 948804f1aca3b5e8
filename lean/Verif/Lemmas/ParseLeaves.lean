import Verif.Lemmas.Regex
import Verif.Spec.Leaves
import Mathlib.Tactic.IntervalCases

/-! The substitutions of `_parse` that find the invariants in a text: what each does to each kind of invariant. -/

namespace Lips

open RE

/-! ### Characters -/

theorem digit_mem {c : Char} (h : c.isDigit = true) : c ∈ "0123456789".toList := by
  have h1 : 48 ≤ c.toNat ∧ c.toNat ≤ 57 := by
    unfold Char.isDigit at h
    simp only [Bool.and_eq_true, decide_eq_true_eq, ge_iff_le, UInt32.le_iff_toNat_le] at h
    exact h
  obtain ⟨h1, h2⟩ := h1
  have : c = Char.ofNat c.toNat := (Char.ofNat_toNat c).symm
  rw [this]
  interval_cases c.toNat <;> decide

/-- Nothing that is no digit is a digit. -/
theorem ne_of_digit {c d : Char} (h : c.isDigit = true) (hd : d.isDigit = false) : c ≠ d := by
  rintro rfl; simp [h] at hd

/-- Digits up to a character that is none are determined by the text. -/
theorem digits_split {a b : List Char} {c d : Char} {s t : List Char} (ha : ∀ x ∈ a, x.isDigit = true) (hb : ∀ x ∈ b, x.isDigit = true)
    (hc : c.isDigit = false) (hd : d.isDigit = false) (h : a ++ c :: s = b ++ d :: t) : a = b ∧ c = d ∧ s = t := by
  induction a generalizing b with
  | nil =>
    rcases b with _ | ⟨y, b⟩
    · simpa using h
    · simp only [List.nil_append, List.cons_append, List.cons.injEq] at h
      have := hb y (by simp)
      rw [← h.1, hc] at this
      simp at this
  | cons x a ih =>
    rcases b with _ | ⟨y, b⟩
    · simp only [List.nil_append, List.cons_append, List.cons.injEq] at h
      have := ha x (by simp)
      rw [h.1, hd] at this
      simp at this
    · simp only [List.cons_append, List.cons.injEq] at h
      obtain ⟨h1, h2, h3⟩ := ih (fun z hz => ha z (by simp [hz])) (fun z hz => hb z (by simp [hz])) h.2
      exact ⟨by rw [h.1, h1], h2, h3⟩

/-- The characters an invariant may be written with, besides digits. -/
def Leaf.alphabet : Leaf → List Char
  | .two sq _ _ _ => if sq then "[|]".toList else "⟨|⟩".toList
  | .mandel _ _ => "sS_".toList
  | .omega _ => "Ω_".toList
  | .pi _ => "Π_".toList
  | .tr5l _ => "tr5_".toList
  | .tr5s _ _ => "tr5(|+-)".toList
  | .trace _ _ => "tr(|+-)".toList
  | .delta _ _ => "Δ_|".toList
  | .str o _ _ _ c => o :: c :: "|()+-".toList

/-- The order in which invariants are found. -/
def Leaf.stage : Leaf → ℕ
  | .two sq _ _ _ => if sq then 4 else 2
  | .mandel _ _ => 5
  | .omega _ => 6
  | .pi _ => 7
  | .tr5l _ => 8
  | .tr5s _ _ => 8
  | .trace _ _ => 9
  | .delta _ _ => 10
  | .str _ _ _ _ _ => 11

/-- How an invariant stands in the text after `k` substitutions. -/
def Leaf.shown (k : ℕ) (l : Leaf) : List Char :=
  if l.stage ≤ k then wrap l.name
  else match l with
    | .two _ _ _ _ => if l.stage ≤ k + 1 then l.name else l.text
    | _ => l.text

def baseChars : List Char := "0123456789".toList ++ "oPs(')".toList

theorem mem_base {c : Char} (h : c.isDigit = true) : c ∈ baseChars := List.mem_append_left _ (digit_mem h)

theorem WSlot.body_chars {s : WSlot} (h : s.Ok) : ∀ c ∈ s.body, c.isDigit = true ∨ c ∈ ['+', '-'] := by
  intro c hc
  simp only [WSlot.body, List.mem_cons, List.mem_flatMap] at hc
  rcases hc with rfl | ⟨x, hx, hc⟩
  · exact .inl h.1
  · simp only [List.not_mem_nil, or_false] at hc
    rcases hc with rfl | rfl
    · exact .inr (h.2.1 x hx).1
    · exact .inl (h.2.1 x hx).2

theorem WSlot.text_chars {s : WSlot} (h : s.Ok) : ∀ c ∈ s.text, c.isDigit = true ∨ c ∈ ['+', '-', '(', ')'] := by
  intro c hc
  unfold WSlot.text at hc
  have hb := WSlot.body_chars h c
  simp only [List.mem_cons, List.not_mem_nil, or_false] at hb ⊢
  split at hc
  · simp only [List.cons_append, List.mem_cons, List.mem_append, List.not_mem_nil, or_false] at hc
    tauto
  · tauto

theorem joined_chars {ss : List WSlot} (h : ∀ s ∈ ss, s.Ok) : ∀ c ∈ joined ss, c.isDigit = true ∨ c ∈ ['|', '+', '-', '(', ')'] := by
  intro c hc
  simp only [joined, List.mem_flatMap, List.mem_cons] at hc
  obtain ⟨s, hs, rfl | hc⟩ := hc
  · simp
  · have := WSlot.text_chars (h s hs) c hc
    simp only [List.mem_cons, List.not_mem_nil, or_false] at this ⊢
    tauto

theorem body_of_plain {s : WSlot} (h : s.par = false) : s.text = s.body := by simp [WSlot.text, h]

theorem joined_plain_chars {ss : List WSlot} (h : ∀ s ∈ ss, s.Ok ∧ s.par = false) : ∀ c ∈ joined ss, c.isDigit = true ∨ c ∈ ['|', '+', '-'] := by
  intro c hc
  simp only [joined, List.mem_flatMap, List.mem_cons] at hc
  obtain ⟨s, hs, rfl | hc⟩ := hc
  · simp
  · rw [body_of_plain (h s hs).2] at hc
    have := WSlot.body_chars (h s hs).1 c hc
    simp only [List.mem_cons, List.not_mem_nil, or_false] at this ⊢
    tauto

theorem text_name_only {l : Leaf} (h : l.Ok) : ∀ c ∈ l.text ++ l.name, c.isDigit = true ∨ c ∈ l.alphabet := by
  intro c hc
  cases l with
  | two sq bar a b =>
    obtain ⟨ha, hb, -⟩ := h
    simp only [Leaf.text, Leaf.name, List.mem_append] at hc
    have hx : c ∈ a ∨ c ∈ b ∨ c ∈ ['|'] ∨ c ∈ [openBr sq] ∨ c ∈ [closeBr sq] := by
      rcases hc with ((((hc | hc) | hc) | hc) | hc) | ((((hc | hc) | hc) | hc) | hc)
      · exact .inr (.inr (.inr (.inl hc)))
      · exact .inl hc
      · cases bar
        · simp at hc
        · exact .inr (.inr (.inl hc))
      · exact .inr (.inl hc)
      · exact .inr (.inr (.inr (.inr hc)))
      · exact .inr (.inr (.inr (.inl hc)))
      · exact .inl hc
      · exact .inr (.inr (.inl hc))
      · exact .inr (.inl hc)
      · exact .inr (.inr (.inr (.inr hc)))
    rcases hx with hx | hx | hx | hx | hx
    · exact .inl (ha.2 c hx)
    · exact .inl (hb.2 c hx)
    all_goals
      right
      have e : ∀ x ∈ ['|', openBr sq, closeBr sq], x ∈ (if sq then "[|]".toList else "⟨|⟩".toList) := by cases sq <;> decide
      refine e c ?_
      rw [List.mem_singleton] at hx
      rw [hx]
      simp
  | mandel pre ds =>
    obtain ⟨hp, hd⟩ := h
    have e : ∀ p ∈ ["s_".toList, "S_".toList, "s".toList, "S".toList], ∀ x ∈ p, x ∈ "sS_".toList := by decide
    simp only [Leaf.text, Leaf.name, List.mem_append] at hc
    rcases hc with (hc | hc) | hc | hc
    · exact .inr (e pre hp c hc)
    · exact .inl (hd.2 c hc)
    · exact .inr (e "s_".toList (by decide) c hc)
    · exact .inl (hd.2 c hc)
  | omega ds =>
    simp only [Leaf.text, Leaf.name, List.mem_append, or_self] at hc
    rcases hc with hc | hc
    · exact .inr hc
    · exact .inl (h.2 c hc)
  | pi ds =>
    simp only [Leaf.text, Leaf.name, List.mem_append, or_self] at hc
    rcases hc with hc | hc
    · exact .inr hc
    · exact .inl (h.2 c hc)
  | tr5l ds =>
    simp only [Leaf.text, Leaf.name, List.mem_append, or_self] at hc
    rcases hc with hc | hc
    · exact .inr hc
    · exact .inl (h.2 c hc)
  | tr5s s ss =>
    have e1 : ∀ x ∈ "tr5(".toList, x ∈ "tr5(|+-)".toList := by decide
    have e2 : ∀ x ∈ ['|', '+', '-'], x ∈ "tr5(|+-)".toList := by decide
    have e3 : ∀ x ∈ ['+', '-'], x ∈ "tr5(|+-)".toList := by decide
    have e4 : ∀ x ∈ [')'], x ∈ "tr5(|+-)".toList := by decide
    simp only [Leaf.text, Leaf.name, List.mem_append, or_self] at hc
    rcases hc with ((hc | hc) | hc) | hc
    · exact .inr (e1 c hc)
    · rw [body_of_plain (h s (by simp)).2] at hc
      exact (WSlot.body_chars (h s (by simp)).1 c hc).imp_right (e3 c)
    · exact (joined_plain_chars (fun s hs => h s (by simp [hs])) c hc).imp_right (e2 c)
    · exact .inr (e4 c hc)
  | trace s ss =>
    have e1 : ∀ x ∈ "tr(".toList, x ∈ "tr(|+-)".toList := by decide
    have e2 : ∀ x ∈ ['|', '+', '-'], x ∈ "tr(|+-)".toList := by decide
    have e3 : ∀ x ∈ ['+', '-'], x ∈ "tr(|+-)".toList := by decide
    have e4 : ∀ x ∈ [')'], x ∈ "tr(|+-)".toList := by decide
    simp only [Leaf.text, Leaf.name, List.mem_append, or_self] at hc
    rcases hc with ((hc | hc) | hc) | hc
    · exact .inr (e1 c hc)
    · rw [body_of_plain (h s (by simp)).2] at hc
      exact (WSlot.body_chars (h s (by simp)).1 c hc).imp_right (e3 c)
    · exact (joined_plain_chars (fun s hs => h s (by simp [hs])) c hc).imp_right (e2 c)
    · exact .inr (e4 c hc)
  | delta d cs =>
    obtain ⟨-, h⟩ := h
    have e1 : ∀ x ∈ "Δ_".toList, x ∈ "Δ_|".toList := by decide
    simp only [Leaf.text, Leaf.name, List.mem_append, or_self, List.mem_flatMap, List.mem_cons] at hc
    rcases hc with (hc | hc) | ⟨k, hk, hc | hc⟩
    · exact .inr (e1 c hc)
    · exact .inl ((h d (by simp)).1.2 c hc)
    · rw [hc]
      exact .inr (by decide : '|' ∈ "Δ_|".toList)
    · exact .inl ((h k (by simp [hk])).1.2 c hc)
  | str o a ss b e =>
    obtain ⟨ho, he, ha, hb, -, h⟩ := h
    have e1 : ∀ x ∈ ['|', '+', '-', '(', ')'], x ∈ "|()+-".toList := by decide
    simp only [Leaf.text, Leaf.name, List.mem_append, or_self, List.mem_cons, List.not_mem_nil, or_false] at hc
    have w : ∀ x, x ∈ "|()+-".toList → x ∈ o :: e :: "|()+-".toList := fun x hx => by simp only [List.mem_cons, hx, or_true]
    rcases hc with hc | hc | hc | hc | hc | hc
    · exact .inr (by rw [hc]; exact List.mem_cons_self)
    · exact .inl (by rw [hc]; exact ha)
    · exact (joined_chars h c hc).imp_right fun hx => w c (e1 c hx)
    · exact .inr (w c (by rw [hc]; decide))
    · exact .inl (by rw [hc]; exact hb)
    · exact .inr (by rw [hc]; exact List.mem_cons_of_mem _ List.mem_cons_self)

theorem text_name_chars {l : Leaf} (h : l.Ok) : ∀ c ∈ l.text ++ l.name, c ∈ baseChars ++ l.alphabet := by
  intro c hc
  rcases text_name_only h c hc with hc | hc
  · exact List.mem_append_left _ (mem_base hc)
  · exact List.mem_append_right _ hc

theorem shown_chars {l : Leaf} (h : l.Ok) (k : ℕ) : ∀ c ∈ l.shown k, c ∈ baseChars ++ l.alphabet := by
  have ht := text_name_chars h
  have hn : ∀ c ∈ l.name, c ∈ baseChars ++ l.alphabet := fun c hc => ht c (List.mem_append_right _ hc)
  have ht' : ∀ c ∈ l.text, c ∈ baseChars ++ l.alphabet := fun c hc => ht c (List.mem_append_left _ hc)
  intro c hc
  unfold Leaf.shown at hc
  split at hc
  · simp only [wrap, List.mem_append] at hc
    rcases hc with (hc | hc) | hc
    · exact List.mem_append_left _ (List.mem_append_right _ ((by decide : ∀ x ∈ "oPs('".toList, x ∈ "oPs(')".toList) c hc))
    · exact hn c hc
    · exact List.mem_append_left _ (List.mem_append_right _ ((by decide : ∀ x ∈ "')".toList, x ∈ "oPs(')".toList) c hc))
  · split at hc
    · split at hc
      · exact hn c hc
      · exact ht' c hc
    · exact ht' c hc

/-- Does no match begin with a character of the leaf. -/
def idle (r : RE) (l : Leaf) : Bool := (baseChars ++ l.alphabet).all fun c => !r.starts c

theorem quiet_idle {r : RE} {l : Leaf} (h : l.Ok) (k : ℕ) (hi : idle r l = true) {pre post : List Char} :
    r.Quiet pre (l.shown k) post := by
  apply quiet_of_starts
  intro c hc
  have := List.all_eq_true.mp hi c (shown_chars h k c hc)
  simpa using this

/-- The same for a leaf that has not been found yet. -/
def idleText (r : RE) (l : Leaf) : Bool := ("0123456789".toList ++ l.alphabet).all fun c => !r.starts c

theorem quiet_idleText {r : RE} {l : Leaf} (h : l.Ok) (hi : idleText r l = true) {pre post : List Char} : r.Quiet pre l.text post := by
  apply quiet_of_starts
  intro c hc
  have hc' : c ∈ "0123456789".toList ++ l.alphabet := by
    rcases text_name_only h c (List.mem_append_left _ hc) with hc | hc
    · exact List.mem_append_left _ (digit_mem hc)
    · exact List.mem_append_right _ hc
  have := List.all_eq_true.mp hi c hc'
  simpa using this

/-- Only the character in the middle may begin a match, and it does not. -/
theorem quiet_head {r : RE} {pre post b1 b2 : List Char} {c : Char} (h1 : ∀ x ∈ b1, r.starts x = false)
    (h : r.run (b1.reverse ++ pre, c :: (b2 ++ post)) = []) (h2 : ∀ x ∈ b2, r.starts x = false) :
    r.Quiet pre (b1 ++ c :: b2) post :=
  quiet_append (quiet_of_starts h1) (quiet_cons h (quiet_of_starts h2))

theorem digits_starts {r : RE} (h : ∀ c ∈ "0123456789".toList, r.starts c = false) {ds : List Char} (hd : ∀ c ∈ ds, c.isDigit = true) :
    ∀ c ∈ ds, r.starts c = false := fun c hc => h c (digit_mem (hd c hc))

/-! ### Two-brackets -/

/-- The patterns of two-brackets. -/
def eTwo (o c : String) : RE := cat [lit o, some1 dig, lit "|", some1 dig, lit c]
def eTwoBis (o c : String) : RE := cat [lit o, dig, dig, lit c]

theorem takes_eTwo {o c : String} {pre u post : List Char} : (eTwo o c).Takes pre u post ↔
    ∃ a b, u = o.toList ++ a ++ ['|'] ++ b ++ c.toList ∧ Digits a ∧ Digits b := by
  simp only [eTwo, takes_cat_cons, takes_cat_nil, takes_lit, takes_plus_dig]
  constructor
  · rintro ⟨_, _, rfl, rfl, a, _, rfl, ha, _, _, rfl, rfl, b, _, rfl, hb, _, _, rfl, rfl, rfl⟩
    exact ⟨a, b, by simp, ha, hb⟩
  · rintro ⟨a, b, rfl, ha, hb⟩
    exact ⟨_, a ++ (['|'] ++ (b ++ c.toList)), by simp only [List.append_assoc], rfl, a, _, rfl, ha, ['|'], _, rfl, rfl, b, c.toList, rfl, hb,
      c.toList, [], by simp, rfl, rfl⟩

theorem takes_eTwoBis {o c : String} {pre u post : List Char} : (eTwoBis o c).Takes pre u post ↔
    ∃ a b, u = o.toList ++ [a, b] ++ c.toList ∧ a.isDigit = true ∧ b.isDigit = true := by
  simp only [eTwoBis, takes_cat_cons, takes_cat_nil, takes_lit, takes_dig]
  constructor
  · rintro ⟨_, _, rfl, rfl, _, _, rfl, ⟨a, rfl, ha⟩, _, _, rfl, ⟨b, rfl, hb⟩, _, _, rfl, rfl, rfl⟩
    exact ⟨a, b, by simp, ha, hb⟩
  · rintro ⟨a, b, rfl, ha, hb⟩
    exact ⟨_, [a] ++ ([b] ++ c.toList), by simp, rfl, [a], _, rfl, ⟨a, rfl, ha⟩, [b], c.toList, rfl, ⟨b, rfl, hb⟩,
      c.toList, [], by simp, rfl, rfl⟩

/-- A two-bracket with a bar is found as a whole. -/
theorem hit_eTwo {o c : String} {o' c' : Char} (ho : o.toList = [o']) (hc : c.toList = [c']) (hcd : c'.isDigit = false)
    {a b : List Char} (ha : Digits a) (hb : Digits b) {pre post : List Char} :
    (eTwo o c).Hit pre ([o'] ++ a ++ ['|'] ++ b ++ [c']) post := by
  refine ⟨by simp, ?_⟩
  apply head_unique
  · exact takes_eTwo.mpr ⟨a, b, by rw [ho, hc], ha, hb⟩
  · intro v w h hv
    obtain ⟨a', b', rfl, ha', hb'⟩ := takes_eTwo.mp hv
    rw [ho, hc] at h ⊢
    simp only [List.append_assoc, List.cons_append, List.nil_append, List.cons.injEq, true_and] at h
    obtain ⟨rfl, -, h⟩ := digits_split ha.2 ha'.2 (by decide) (by decide) h
    obtain ⟨rfl, -, -⟩ := digits_split hb.2 hb'.2 hcd hcd h
    rfl

theorem hit_eTwoBis {o c : String} {o' c' : Char} (ho : o.toList = [o']) (hc : c.toList = [c'])
    {a b : Char} (ha : a.isDigit = true) (hb : b.isDigit = true) {pre post : List Char} :
    (eTwoBis o c).Hit pre [o', a, b, c'] post := by
  refine ⟨by simp, ?_⟩
  apply head_unique
  · exact takes_eTwoBis.mpr ⟨a, b, by simp [ho, hc], ha, hb⟩
  · intro v w h hv
    obtain ⟨a', b', rfl, ha', hb'⟩ := takes_eTwoBis.mp hv
    rw [ho, hc] at h ⊢
    simp only [List.cons_append, List.nil_append, List.cons.injEq, true_and] at h
    obtain ⟨rfl, rfl, -⟩ := h
    rfl

/-- Digits and a bar after the bracket are no two-bracket without bar. -/
theorem run_eTwoBis {o c : String} {o' c' : Char} (ho : o.toList = [o']) (hc : c.toList = [c']) (hcd : c'.isDigit = false) (hcb : c' ≠ '|')
    {a s pre : List Char} (ha : Digits a) : (eTwoBis o c).run (pre, o' :: (a ++ '|' :: s)) = [] := by
  rw [run_eq_nil]
  rintro u post h hu
  obtain ⟨x, y, rfl, hx, hy⟩ := takes_eTwoBis.mp hu
  rw [ho, hc] at h
  simp only [List.cons_append, List.nil_append, List.cons.injEq, true_and] at h
  have h' : a ++ '|' :: s = [x, y] ++ c' :: post := by simpa using h
  obtain ⟨-, h2, -⟩ := digits_split ha.2 (by simp [hx, hy]) (by decide) hcd h'
  exact hcb h2.symm

/-- Digits, a bar, and then no digits with the closing bracket after them, are no two-bracket. -/
theorem run_eTwo {o c : String} {o' c' : Char} (ho : o.toList = [o']) (hc : c.toList = [c']) (hcd : c'.isDigit = false)
    {a b s pre : List Char} {x : Char} (ha : Digits a) (hb : ∀ y ∈ b, y.isDigit = true) (hx : x.isDigit = false) (hxc : x ≠ c') :
    (eTwo o c).run (pre, o' :: (a ++ '|' :: (b ++ x :: s))) = [] := by
  rw [run_eq_nil]
  rintro u post h hu
  obtain ⟨a', b', rfl, ha', hb'⟩ := takes_eTwo.mp hu
  rw [ho, hc] at h
  simp only [List.append_assoc, List.cons_append, List.nil_append, List.cons.injEq, true_and] at h
  obtain ⟨-, -, h⟩ := digits_split ha.2 ha'.2 (by decide) (by decide) h
  obtain ⟨-, h, -⟩ := digits_split hb hb'.2 hx hcd h
  exact hxc h

/-! ### Names with digits after them -/

/-- A word and digits after it, as many as there are. -/
theorem hit_word {t : String} {ds : List Char} (hd : Digits ds) {pre post : List Char} (hp : ∀ c, post.head? = some c → c.isDigit = false) :
    (cat [lit t, some1 dig]).Hit pre (t.toList ++ ds) post := by
  refine ⟨by simp [hd.1], ?_⟩
  rw [List.append_assoc, List.reverse_append, List.append_assoc]
  exact head_cat_cons head_lit (head_cat_cons (head_plus_dig hd.1 hd.2 hp) head_cat_nil)

/-- Mandelstams. -/
theorem hit_eSijk {p ds : List Char} (hp : p ∈ ["s_".toList, "S_".toList, "s".toList, "S".toList]) (hd : Digits ds) {pre post : List Char}
    (hn : ∀ c, post.head? = some c → c.isDigit = false) : eSijk.Hit pre (p ++ ds) post := by
  have hs : ∀ c ∈ ['s', 'S'], ∀ q, (q = ['_'] ∨ q = []) → eSijk.Hit pre (c :: (q ++ ds)) post := by
    intro c hc q hq
    refine ⟨by simp, ?_⟩
    have h1 : ((of "sS").run (pre, c :: (q ++ (ds ++ post)))).head? = some (c :: pre, q ++ (ds ++ post)) := head_cls (by
      have : ∀ x ∈ ['s', 'S'], decide (x ∈ "sS".toList) = true := by decide
      exact this c hc)
    have h2 : ((opt1 (lit "_")).run (c :: pre, q ++ (ds ++ post))).head? = some (q.reverse ++ c :: pre, ds ++ post) := by
      rcases hq with rfl | rfl
      · exact head_alt_left (head_lit (t := "_"))
      · obtain ⟨hne, hd⟩ := hd
        rcases ds with _ | ⟨d, ds⟩
        · exact absurd rfl hne
        · have hr : (lit "_").run (c :: pre, d :: (ds ++ post)) = [] := run_of_starts (by
            have : ∀ x ∈ "0123456789".toList, (lit "_").starts x = false := by decide
            exact this d (digit_mem (hd d (by simp)))) _
          exact (head_alt_right hr).trans head_eps
    have h3 := head_plus_dig (pre := q.reverse ++ c :: pre) hd.1 hd.2 hn
    have := head_cat_cons h1 (head_cat_cons h2 (head_cat_cons h3 head_cat_nil))
    simpa [eSijk] using this
  simp only [List.mem_cons, List.not_mem_nil, or_false] at hp
  rcases hp with rfl | rfl | rfl | rfl
  · exact hs 's' (by simp) ['_'] (by simp)
  · exact hs 'S' (by simp) ['_'] (by simp)
  · exact hs 's' (by simp) [] (by simp)
  · exact hs 'S' (by simp) [] (by simp)

/-- An `s` before something that is no digit and no underscore is no Mandelstam. -/
theorem run_eSijk {c d : Char} {pre s : List Char} (hd : d.isDigit = false) (hu : d ≠ '_') : eSijk.run (pre, c :: d :: s) = [] := by
  rw [run_eq_nil]
  rintro u post h hu'
  simp only [eSijk, takes_cat_cons, takes_cat_nil, takes_of, takes_opt, takes_lit, takes_plus_dig] at hu'
  obtain ⟨_, _, rfl, ⟨x, -, rfl⟩, v, _, rfl, hv, e, _, rfl, he, rfl⟩ := hu'
  simp only [List.append_nil, List.cons_append, List.nil_append, List.cons.injEq] at h
  obtain ⟨-, h⟩ := h
  rcases hv with rfl | rfl
  · have : "_".toList = ['_'] := rfl
    rw [this] at h
    simp at h
    exact hu h.1
  · rcases e with _ | ⟨y, e⟩
    · exact he.1 rfl
    · simp only [List.nil_append, List.cons_append, List.cons.injEq] at h
      have := he.2 y (by simp)
      rw [← h.1, hd] at this
      simp at this

/-! ### Traces -/

/-- What stands before the first occurrence of a character is determined by the text. -/
theorem split_at_char {a b s t : List Char} {c : Char} (ha : c ∉ a) (hb : c ∉ b) (h : a ++ c :: s = b ++ c :: t) : a = b ∧ s = t := by
  induction a generalizing b with
  | nil =>
    rcases b with _ | ⟨y, b⟩
    · simpa using h
    · simp only [List.nil_append, List.cons_append, List.cons.injEq] at h
      exact absurd (by rw [h.1]; simp) hb
  | cons x a ih =>
    rcases b with _ | ⟨y, b⟩
    · simp only [List.nil_append, List.cons_append, List.cons.injEq] at h
      exact absurd (by rw [h.1]; simp) ha
    · simp only [List.cons_append, List.cons.injEq] at h
      obtain ⟨h1, h2⟩ := ih (fun hz => ha (by simp [hz])) (fun hz => hb (by simp [hz])) h.2
      exact ⟨by rw [h.1, h1], h2⟩

/-- tr5 of labels. -/
theorem hit_etr5l {ds : List Char} (hd : Digits ds) {pre post : List Char} (hp : ∀ c, post.head? = some c → c.isDigit = false) :
    etr5.Hit pre ("tr5_".toList ++ ds) post := by
  refine ⟨by simp, ?_⟩
  have e : "tr5_".toList = "tr5".toList ++ "_".toList := rfl
  have h1 : ((lit "tr5").run (pre, "tr5".toList ++ ("_".toList ++ (ds ++ post)))).head? = _ := head_lit
  have h2 : ((lit "_").run ("tr5".toList.reverse ++ pre, "_".toList ++ (ds ++ post))).head? = _ := head_lit
  have h3 := head_plus_dig (pre := "_".toList.reverse ++ ("tr5".toList.reverse ++ pre)) hd.1 hd.2 hp
  have := head_cat_cons h1 (head_cat_cons (head_alt_left (b := cat [lit "(", some1 (digOr "|+-"), lit ")"])
    (head_cat_cons h2 (head_cat_cons h3 head_cat_nil))) head_cat_nil)
  rw [e]
  simpa only [etr5, List.append_assoc, List.reverse_append] using this

theorem slotChar_ne {p : Char → Bool} {t : String} (hp : p = fun c => c.isDigit || decide (c ∈ t.toList)) (h : ')' ∉ t.toList)
    {w : List Char} (hw : ∀ c ∈ w, p c = true) : ')' ∉ w := by
  intro hc
  have := hw _ hc
  rw [hp] at this
  simp only [Bool.or_eq_true, decide_eq_true_eq] at this
  rcases this with h' | h'
  · exact absurd h' (by decide)
  · exact h h'

/-- tr5 of slots. -/
theorem hit_etr5s {b : List Char} (hb : b ≠ []) (hc : ∀ c ∈ b, c.isDigit = true ∨ c ∈ ['|', '+', '-']) {pre post : List Char} :
    etr5.Hit pre ("tr5(".toList ++ b ++ [')']) post := by
  have hcb : ∀ c ∈ b, (c.isDigit || decide (c ∈ "|+-".toList)) = true := by
    intro c h
    rcases hc c h with h | h
    · simp [h]
    · have : ∀ x ∈ ['|', '+', '-'], (x.isDigit || decide (x ∈ "|+-".toList)) = true := by decide
      exact this c h
  refine ⟨by simp, ?_⟩
  apply head_unique
  · have : "tr5(".toList ++ b ++ [')'] = "tr5".toList ++ ("(".toList ++ (b ++ ")".toList)) := by simp
    rw [this]
    refine takes_cat_intro (takes_lit.mpr rfl) (takes_cat_last (takes_alt.mpr (.inr ?_)))
    refine takes_cat_intro (takes_lit.mpr rfl) (takes_cat_intro ?_ (takes_cat_last (takes_lit.mpr rfl)))
    exact takes_plus_cls.mpr ⟨hb, hcb⟩
  · intro v w h hv
    simp only [etr5, takes_cat_cons, takes_cat_nil, takes_lit, takes_alt, digOr, takes_plus_cls, takes_plus_dig] at hv
    obtain ⟨_, _, rfl, rfl, x, _, rfl, hx, rfl⟩ := hv
    have e5 : "tr5(".toList = "tr5".toList ++ ['('] := rfl
    rcases hx with ⟨_, _, rfl, rfl, d, _, rfl, -, rfl⟩ | ⟨_, _, rfl, rfl, d, _, rfl, ⟨-, hd⟩, _, _, rfl, rfl, rfl⟩
    · have : "_".toList = ['_'] := rfl
      rw [e5, this] at h
      simp only [List.append_assoc, List.append_cancel_left_eq, List.cons_append, List.nil_append, List.cons.injEq] at h
      exact absurd h.1 (by decide)
    · have e1 : "(".toList = ['('] := rfl
      have e2 : ")".toList = [')'] := rfl
      rw [e5, e1, e2] at h
      simp only [List.append_assoc, List.append_cancel_left_eq, List.cons_append, List.nil_append, List.cons.injEq, true_and, List.append_nil] at h
      obtain ⟨rfl, -⟩ := split_at_char (slotChar_ne rfl (by decide) hcb) (slotChar_ne rfl (by decide) hd) h
      rw [e5, e1, e2]
      simp

/-- A trace of slots without parentheses. -/
theorem hit_etr {b : List Char} (hb : b ≠ []) (hc : ∀ c ∈ b, c.isDigit = true ∨ c ∈ ['|', '+', '-']) {pre post : List Char} :
    etr.Hit pre ("tr(".toList ++ b ++ [')']) post := by
  have hcb : ∀ c ∈ b, (c.isDigit || decide (c ∈ "+|-".toList)) = true := by
    intro c h
    rcases hc c h with h | h
    · simp [h]
    · have : ∀ x ∈ ['|', '+', '-'], (x.isDigit || decide (x ∈ "+|-".toList)) = true := by decide
      exact this c h
  refine ⟨by simp, ?_⟩
  apply head_unique
  · have : "tr(".toList ++ b ++ [')'] = "tr(".toList ++ (b ++ ")".toList) := by simp
    rw [this]
    refine takes_cat_intro (takes_lit.mpr rfl) (takes_cat_intro (takes_alt.mpr (.inr ?_)) (takes_cat_last (takes_lit.mpr rfl)))
    have := takes_star_cons (a := some1 (digOr "+|-")) (pre := "tr(".toList.reverse ++ pre) (v := b) (w := []) (post := ")".toList ++ post) hb
      (takes_plus_cls.mpr ⟨hb, hcb⟩) takes_star_nil
    simpa using this
  · intro v w h hv
    simp only [etr, takes_cat_cons, takes_cat_nil, takes_lit, takes_alt, digOr, takes_plus_cls] at hv
    obtain ⟨_, _, rfl, rfl, x, _, rfl, hx, _, _, rfl, rfl, rfl⟩ := hv
    have e2 : ")".toList = [')'] := rfl
    rw [e2] at h
    simp only [List.append_assoc, List.append_cancel_left_eq, List.cons_append, List.nil_append] at h
    rcases hx with ⟨_, _, rfl, rfl, d, _, rfl, ⟨-, hd⟩, _, _, rfl, rfl, rfl⟩ | hx
    · have e1 : "(".toList = ['('] := rfl
      rw [e1] at h
      rcases b with _ | ⟨y, b⟩
      · exact absurd rfl hb
      · simp only [List.cons_append, List.nil_append, List.cons.injEq] at h
        have := hcb y (by simp)
        rw [h.1] at this
        exact absurd this (by decide)
    · have hx' := takes_star_all (P := fun c => (c.isDigit || decide (c ∈ "+|-".toList)) = true)
        (fun pre u post h => (takes_plus_cls.mp h).2) hx
      obtain ⟨rfl, -⟩ := split_at_char (slotChar_ne rfl (by decide) hcb) (slotChar_ne rfl (by decide) hx') h
      rw [e2]
      simp

theorem run_etr5 {pre s : List Char} : etr5.run (pre, 't' :: 'r' :: '(' :: s) = [] := by
  rw [run_eq_nil]
  rintro u post h hu
  simp only [etr5, takes_cat_cons, takes_lit] at hu
  obtain ⟨_, w, rfl, rfl, -⟩ := hu
  have e : "tr5".toList = ['t', 'r', '5'] := rfl
  rw [e] at h
  simp only [List.cons_append, List.nil_append, List.cons.injEq, true_and] at h
  exact absurd h.1 (by decide)

theorem run_etr {pre s : List Char} : etr.run (pre, 't' :: 'r' :: '5' :: s) = [] := by
  rw [run_eq_nil]
  rintro u post h hu
  simp only [etr, takes_cat_cons, takes_lit] at hu
  obtain ⟨_, w, rfl, rfl, -⟩ := hu
  have e : "tr(".toList = ['t', 'r', '('] := rfl
  rw [e] at h
  simp only [List.cons_append, List.nil_append, List.cons.injEq, true_and] at h
  exact absurd h.1 (by decide)

/-! ### Gram determinants -/

/-- A Gram determinant with explicit corners is not taken for one with adjacent corners. -/
theorem run_eDadj {c s pre : List Char} (hc : Digits c) : eDadj.run (pre, "Δ_".toList ++ (c ++ '|' :: s)) = [] := by
  rw [run_eq_nil]
  rintro u post h hu
  simp only [eDadj, takes_cat_cons, takes_cat_nil, takes_lit, takes_plus_dig, takes_notAhead] at hu
  obtain ⟨_, _, rfl, rfl, d, _, rfl, ⟨-, hd⟩, _, _, rfl, ⟨rfl, hn⟩, rfl⟩ := hu
  simp only [List.append_assoc, List.append_cancel_left_eq, List.nil_append] at h hn
  rcases post with _ | ⟨x, post⟩
  · rw [List.append_nil] at h
    have := hd '|' (by rw [← h]; simp)
    exact absurd this (by decide)
  · apply hn [x] post rfl
    rw [digOr, takes_cls]
    refine ⟨x, rfl, ?_⟩
    by_cases hx : x.isDigit = true
    · simp [hx]
    · obtain ⟨-, h2, -⟩ := digits_split hc.2 hd (by decide) (by simpa using hx) h
      rw [← h2]; decide

/-- A Gram determinant is found as a whole. -/
theorem hit_eDnon {c : List Char} {cs : List (List Char)} (h : ∀ k ∈ c :: cs, Digits k) {pre post : List Char}
    (hn : ∀ x, post.head? = some x → x.isDigit = false ∧ x ≠ '|') :
    eDnon.Hit pre ("Δ_".toList ++ c ++ cs.flatMap fun k => '|' :: k) post := by
  refine ⟨by simp, ?_⟩
  have hbar : ∀ (ks : List (List Char)), ∀ x, (ks.flatMap (fun k => '|' :: k) ++ post).head? = some x → x.isDigit = false := by
    intro ks x hx
    rcases ks with _ | ⟨k, ks⟩
    · exact (hn x hx).1
    · simp only [List.flatMap_cons, List.cons_append, List.head?_cons, Option.some.injEq] at hx
      rw [← hx]; decide
  have hstar : ∀ (ks : List (List Char)) (pre : List Char), (∀ k ∈ ks, Digits k) →
      ((star (cat [lit "|", some1 dig])).run (pre, ks.flatMap (fun k => '|' :: k) ++ post)).head? =
        some ((ks.flatMap (fun k => '|' :: k)).reverse ++ pre, post) := by
    intro ks
    induction ks with
    | nil =>
      intro pre _
      apply head_star_stop
      rcases post with _ | ⟨x, post⟩
      · rw [run_eq_nil]
        rintro u post h hu
        simp only [takes_cat_cons, takes_lit] at hu
        obtain ⟨_, _, rfl, rfl, -⟩ := hu
        simp at h
      · apply run_of_starts
        have : x ≠ '|' := (hn x rfl).2
        simp [starts, cat, lit, isTest, this]
    | cons k ks ih =>
      intro pre hk
      have h1 : ((lit "|").run (pre, "|".toList ++ (k ++ (ks.flatMap (fun k => '|' :: k) ++ post)))).head? = _ := head_lit
      have h2 := head_plus_dig (pre := "|".toList.reverse ++ pre) (hk k (by simp)).1 (hk k (by simp)).2 (hbar ks)
      have h3 := ih (k.reverse ++ ("|".toList.reverse ++ pre)) fun k' hk' => hk k' (by simp [hk'])
      have e : List.flatMap (fun k => '|' :: k) (k :: ks) ++ post = "|".toList ++ (k ++ (ks.flatMap (fun k => '|' :: k) ++ post)) := by simp
      rw [e]
      have := head_star_cons (head_cat_cons h1 (head_cat_cons h2 head_cat_nil)) (by simp; omega) h3
      rw [this]
      simp
  have h1 : ((lit "Δ_").run (pre, "Δ_".toList ++ (c ++ (cs.flatMap (fun k => '|' :: k) ++ post)))).head? = _ := head_lit
  have h2 := head_plus_dig (pre := "Δ_".toList.reverse ++ pre) (h c (by simp)).1 (h c (by simp)).2 (hbar cs)
  have h3 := hstar cs (c.reverse ++ ("Δ_".toList.reverse ++ pre)) fun k hk => h k (by simp [hk])
  have := head_cat_cons h1 (head_cat_cons h2 (head_cat_cons h3 head_cat_nil))
  simpa only [eDnon, List.append_assoc, List.reverse_append] using this

/-! ### Strings -/

/-- The pattern of one slot of a string. -/
def eSlot : RE := cat [opt1 (lit "("), some1 (cat [some1 dig, opt1 (of "+|-")]), opt1 (lit ")"), opt1 (lit "|")]

/-- The characters in a string. -/
def inString (c : Char) : Prop := c.isDigit = true ∨ c ∈ "()+|-".toList

theorem takes_labels_chars {pre u post : List Char} (h : (some1 (cat [some1 dig, opt1 (of "+|-")])).Takes pre u post) : ∀ c ∈ u, inString c := by
  have one : ∀ pre u post, (cat [some1 dig, opt1 (of "+|-")]).Takes pre u post → ∀ c ∈ u, inString c := by
    intro pre u post h
    simp only [takes_cat_cons, takes_cat_nil, takes_plus_dig, takes_opt, takes_of] at h
    obtain ⟨d, _, rfl, ⟨-, hd⟩, w, _, rfl, hw, rfl⟩ := h
    intro c hc
    simp only [List.append_nil, List.mem_append] at hc
    rcases hc with hc | hc
    · exact .inl (hd c hc)
    · rcases hw with ⟨x, hx, rfl⟩ | rfl
      · rw [List.mem_singleton] at hc
        subst hc
        exact .inr ((by decide : ∀ x ∈ "+|-".toList, x ∈ "()+|-".toList) _ hx)
      · simp at hc
  obtain ⟨v, w, rfl, hv, hw⟩ := takes_plus.mp h
  intro c hc
  rcases List.mem_append.mp hc with hc | hc
  · exact one _ _ _ hv c hc
  · exact takes_star_all one hw c hc

theorem takes_eSlot_chars {pre u post : List Char} (h : eSlot.Takes pre u post) : ∀ c ∈ u, inString c := by
  simp only [eSlot, takes_cat_cons, takes_cat_nil, takes_opt, takes_lit] at h
  obtain ⟨a, _, rfl, ha, b, _, rfl, hb, c, _, rfl, hc, d, _, rfl, hd, rfl⟩ := h
  have key : ∀ (t : String) (x : List Char), (∀ c ∈ t.toList, c ∈ "()+|-".toList) → (x = t.toList ∨ x = []) → ∀ c ∈ x, inString c := by
    rintro t x ht (rfl | rfl) c hc
    · exact .inr (ht c hc)
    · simp at hc
  intro x hx
  simp only [List.mem_append, List.not_mem_nil, or_false] at hx
  rcases hx with hx | hx | hx | hx
  · exact key "(" a (by decide) ha x hx
  · exact takes_labels_chars hb x hx
  · exact key ")" c (by decide) hc x hx
  · exact key "|" d (by decide) hd x hx

/-- What a match of the pattern of strings looks like. -/
theorem takes_eNB {pre u post : List Char} (h : eNB.Takes pre u post) :
    ∃ o a m b c, u = o :: (a ++ '|' :: (m ++ '|' :: (b ++ [c]))) ∧ Digits a ∧ Digits b ∧ c ∈ "⟩]>".toList ∧ (∀ x ∈ m, inString x) := by
  simp only [eNB, takes_cat_cons, takes_cat_nil, takes_of, takes_plus_dig, takes_lit] at h
  obtain ⟨_, _, rfl, ⟨o, -, rfl⟩, a, _, rfl, ha, _, _, rfl, rfl, m, _, rfl, hm, _, _, rfl, rfl, b, _, rfl, hb, _, _, rfl, ⟨c, hc, rfl⟩, rfl⟩ := h
  refine ⟨o, a, m, b, c, by simp, ha, hb, hc, ?_⟩
  obtain ⟨v, w, rfl, hv, hw⟩ := takes_plus.mp hm
  intro x hx
  rcases List.mem_append.mp hx with hx | hx
  · exact takes_eSlot_chars hv x hx
  · exact takes_star_all (fun _ _ _ h => takes_eSlot_chars h) hw x hx

/-- Up to the first closing bracket. -/
theorem split_at_close {p : Char → Prop} {a b s t : List Char} {c d : Char} (ha : ∀ x ∈ a, p x) (hb : ∀ x ∈ b, p x) (hc : ¬p c) (hd : ¬p d)
    (h : a ++ c :: s = b ++ d :: t) : a = b ∧ c = d ∧ s = t := by
  induction a generalizing b with
  | nil =>
    rcases b with _ | ⟨y, b⟩
    · simpa using h
    · simp only [List.nil_append, List.cons_append, List.cons.injEq] at h
      exact absurd (by rw [h.1]; exact hb y (by simp)) hc
  | cons x a ih =>
    rcases b with _ | ⟨y, b⟩
    · simp only [List.nil_append, List.cons_append, List.cons.injEq] at h
      exact absurd (by rw [← h.1]; exact ha x (by simp)) hd
    · simp only [List.cons_append, List.cons.injEq] at h
      obtain ⟨h1, h2, h3⟩ := ih (fun z hz => ha z (by simp [hz])) (fun z hz => hb z (by simp [hz])) h.2
      exact ⟨by rw [h.1, h1], h2, h3⟩

theorem not_inString {c : Char} (h : c ∈ "⟩]>".toList) : ¬inString c := by
  rintro (h' | h')
  · have : ∀ c ∈ "⟩]>".toList, c.isDigit = false := by decide
    rw [this c h] at h'
    simp at h'
  · have : ∀ c ∈ "⟩]>".toList, c ∉ "()+|-".toList := by decide
    exact this c h h'

theorem bar_inString : inString '|' := .inr (by decide)

/-- The labels of a slot as the pattern reads them. -/
theorem takes_labels {d : Char} {rest : List (Char × Char)} (hd : d.isDigit = true)
    (hr : ∀ x ∈ rest, x.1 ∈ ['+', '-'] ∧ x.2.isDigit = true) {pre post : List Char} :
    (some1 (cat [some1 dig, opt1 (of "+|-")])).Takes pre (d :: rest.flatMap fun x => [x.1, x.2]) post := by
  have one : ∀ (d : Char) (q pre post : List Char), d.isDigit = true → (q = [] ∨ ∃ x ∈ ['+', '-'], q = [x]) →
      (cat [some1 dig, opt1 (of "+|-")]).Takes pre (d :: q) post := by
    intro d q pre post hd hq
    refine takes_cat_cons.mpr ⟨[d], q, rfl, takes_plus_dig.mpr ⟨by simp, by simpa using hd⟩, takes_cat_last (takes_opt.mpr ?_)⟩
    rcases hq with rfl | ⟨x, hx, rfl⟩
    · exact .inr rfl
    · exact .inl (takes_of.mpr ⟨x, (by decide : ∀ x ∈ ['+', '-'], x ∈ "+|-".toList) x hx, rfl⟩)
  have star : ∀ (rest : List (Char × Char)) (d : Char) (pre : List Char), d.isDigit = true →
      (∀ x ∈ rest, x.1 ∈ ['+', '-'] ∧ x.2.isDigit = true) →
      (star (cat [some1 dig, opt1 (of "+|-")])).Takes pre (d :: rest.flatMap fun x => [x.1, x.2]) post := by
    intro rest
    induction rest with
    | nil =>
      intro d pre hd _
      exact takes_star.mpr (.inr ⟨[d], [], rfl, by simp, one d [] _ _ hd (.inl rfl), takes_star_nil⟩)
    | cons x rest ih =>
      intro d pre hd hr
      exact takes_star.mpr (.inr ⟨[d, x.1], x.2 :: rest.flatMap fun x => [x.1, x.2], rfl, by simp,
        one d [x.1] _ _ hd (.inr ⟨x.1, (hr x (by simp)).1, rfl⟩), ih x.2 _ (hr x (by simp)).2 fun y hy => hr y (by simp [hy])⟩)
  rcases takes_star.mp (star rest d pre hd hr) with h | ⟨v, w, h1, hv, h2, h3⟩
  · simp at h
  · rw [h1]
    exact takes_plus.mpr ⟨v, w, rfl, h2, h3⟩

/-- A slot, with a bar after it or not. -/
theorem takes_slot {s : WSlot} (h : s.Ok) {bar : Bool} {pre post : List Char} :
    eSlot.Takes pre (s.text ++ if bar then ['|'] else []) post := by
  have hb : ∀ pre post, (some1 (cat [some1 dig, opt1 (of "+|-")])).Takes pre s.body post := fun pre post => takes_labels h.1 h.2.1
  have hbar : ∀ pre post, (opt1 (lit "|")).Takes pre (if bar then ['|'] else []) post := by
    intro pre post
    cases bar
    · exact takes_opt.mpr (.inr rfl)
    · exact takes_opt.mpr (.inl (takes_lit.mpr rfl))
  unfold WSlot.text
  cases hp : s.par
  · have e : s.body ++ (if bar then ['|'] else []) = [] ++ (s.body ++ ([] ++ if bar then ['|'] else [])) := by simp
    rw [if_neg (by simp), e]
    exact takes_cat_intro (takes_opt.mpr (.inr rfl)) (takes_cat_intro (hb _ _) (takes_cat_intro (takes_opt.mpr (.inr rfl)) (takes_cat_last (hbar _ _))))
  · have e : '(' :: s.body ++ [')'] ++ (if bar then ['|'] else []) = ['('] ++ (s.body ++ ([')'] ++ if bar then ['|'] else [])) := by simp
    rw [if_pos (by simp), e]
    exact takes_cat_intro (takes_opt.mpr (.inl (takes_lit.mpr rfl))) (takes_cat_intro (hb _ _)
      (takes_cat_intro (takes_opt.mpr (.inl (takes_lit.mpr rfl))) (takes_cat_last (hbar _ _))))

theorem text_ne_nil (s : WSlot) : s.text ≠ [] := by
  unfold WSlot.text
  split <;> simp [WSlot.body]

/-- All slots of a string, with bars between. -/
theorem takes_slots {s : WSlot} {ss : List WSlot} (h : ∀ x ∈ s :: ss, x.Ok) {pre post : List Char} :
    (some1 eSlot).Takes pre (s.text ++ joined ss) post := by
  have star : ∀ (ss : List WSlot) (s : WSlot) (pre : List Char), (∀ x ∈ s :: ss, x.Ok) → (star eSlot).Takes pre (s.text ++ joined ss) post := by
    intro ss
    induction ss with
    | nil =>
      intro s pre h
      refine takes_star_cons (text_ne_nil s) ?_ takes_star_nil
      have := takes_slot (h s (by simp)) (bar := false) (pre := pre) (post := [] ++ post)
      simpa [joined] using this
    | cons s' ss ih =>
      intro s pre h
      have e : s.text ++ joined (s' :: ss) = (s.text ++ ['|']) ++ (s'.text ++ joined ss) := by simp [joined]
      rw [e]
      exact takes_star_cons (by simp) (takes_slot (h s (by simp)) (bar := true)) (ih s' _ fun x hx => h x (by simp at hx ⊢; tauto))
  rcases takes_star.mp (star ss s pre h) with h | ⟨v, w, h1, hv, h2, h3⟩
  · exact absurd h (by simp [text_ne_nil])
  · rw [h1]
    exact takes_plus.mpr ⟨v, w, rfl, h2, h3⟩

/-- A string is found as a whole. -/
theorem hit_eNB {o a b c : Char} {ss : List WSlot} (h : (Leaf.str o a ss b c).Ok) {pre post : List Char} :
    eNB.Hit pre (o :: a :: (joined ss ++ ['|', b, c])) post := by
  obtain ⟨ho, hc, ha, hb, hs, h⟩ := h
  rcases ss with _ | ⟨s, ss⟩
  · exact absurd rfl hs
  have hc' : c ∈ "⟩]>".toList := (by decide : ∀ x ∈ ['⟩', ']'], x ∈ "⟩]>".toList) c hc
  have e : o :: a :: (joined (s :: ss) ++ ['|', b, c]) = [o] ++ ([a] ++ (['|'] ++ ((s.text ++ joined ss) ++ (['|'] ++ ([b] ++ [c]))))) := by
    simp [joined]
  refine ⟨by simp, head_unique ?_ ?_⟩
  · rw [e]
    refine takes_cat_intro (takes_of.mpr ⟨o, (by decide : ∀ x ∈ ['⟨', '['], x ∈ "<⟨[".toList) o ho, rfl⟩) ?_
    refine takes_cat_intro (takes_plus_dig.mpr ⟨by simp, by simpa using ha⟩) ?_
    refine takes_cat_intro (takes_lit.mpr rfl) ?_
    refine takes_cat_intro (takes_slots h) ?_
    refine takes_cat_intro (takes_lit.mpr rfl) ?_
    exact takes_cat_intro (takes_plus_dig.mpr ⟨by simp, by simpa using hb⟩) (takes_cat_last (takes_of.mpr ⟨c, hc', rfl⟩))
  · intro v w hvw hv
    obtain ⟨o', a', m, b', c', rfl, ha', hb', hc'', hm⟩ := takes_eNB hv
    have hj := joined_chars (h)
    have e1 : o :: a :: (joined (s :: ss) ++ ['|', b, c]) ++ post = o :: ((a :: (joined (s :: ss) ++ ['|', b])) ++ c :: post) := by simp
    have e2 : o' :: (a' ++ '|' :: (m ++ '|' :: (b' ++ [c']))) ++ w = o' :: ((a' ++ '|' :: (m ++ '|' :: b')) ++ c' :: w) := by simp
    rw [e1, e2, List.cons.injEq] at hvw
    obtain ⟨rfl, hvw⟩ := hvw
    have := split_at_close (p := inString) ?_ ?_ (not_inString hc') (not_inString hc'') hvw
    · obtain ⟨h1, rfl, -⟩ := this
      have e3 : o :: a :: (joined (s :: ss) ++ ['|', b, c]) = o :: ((a :: (joined (s :: ss) ++ ['|', b])) ++ [c]) := by simp
      rw [e3, h1]
      simp
    · intro x hx
      simp only [List.mem_cons, List.mem_append, List.not_mem_nil, or_false] at hx
      rcases hx with rfl | hx | rfl | rfl
      · exact .inl ha
      · exact (hj x hx).imp_right ((by decide : ∀ x ∈ ['|', '+', '-', '(', ')'], x ∈ "()+|-".toList) x)
      · exact bar_inString
      · exact .inl hb
    · intro x hx
      simp only [List.mem_cons, List.mem_append] at hx
      rcases hx with hx | rfl | hx | rfl | hx
      · exact .inl (ha'.2 x hx)
      · exact bar_inString
      · exact hm x hx
      · exact bar_inString
      · exact .inl (hb'.2 x hx)

/-- A two-bracket is no string. -/
theorem run_eNB {o c : Char} {a b s pre : List Char} (hc : c ∈ "⟩]>".toList) (ha : Digits a) (hb : Digits b) :
    eNB.run (pre, o :: (a ++ '|' :: (b ++ c :: s))) = [] := by
  rw [run_eq_nil]
  intro u post h hu
  obtain ⟨o', a', m, b', c', rfl, ha', hb', hc', hm⟩ := takes_eNB hu
  have e1 : o :: (a ++ '|' :: (b ++ c :: s)) = o :: ((a ++ '|' :: b) ++ c :: s) := by simp
  have e2 : o' :: (a' ++ '|' :: (m ++ '|' :: (b' ++ [c']))) ++ post = o' :: ((a' ++ '|' :: (m ++ '|' :: b')) ++ c' :: post) := by simp
  rw [e1, e2, List.cons.injEq] at h
  have := split_at_close (p := inString) ?_ ?_ (not_inString hc) (not_inString hc') h.2
  · obtain ⟨h1, -, -⟩ := this
    have := congrArg (List.count '|') h1
    have hz : ∀ l : List Char, (∀ x ∈ l, x.isDigit = true) → List.count '|' l = 0 := by
      intro l hl
      rw [List.count_eq_zero]
      intro hx
      exact absurd (hl _ hx) (by decide)
    simp only [List.count_append, List.count_cons_self, hz a ha.2, hz b hb.2, hz a' ha'.2] at this
    omega
  · intro x hx
    simp only [List.mem_cons, List.mem_append] at hx
    rcases hx with hx | rfl | hx
    · exact .inl (ha.2 x hx)
    · exact bar_inString
    · exact .inl (hb.2 x hx)
  · intro x hx
    simp only [List.mem_cons, List.mem_append] at hx
    rcases hx with hx | rfl | hx | rfl | hx
    · exact .inl (ha'.2 x hx)
    · exact bar_inString
    · exact hm x hx
    · exact bar_inString
    · exact .inl (hb'.2 x hx)

end Lips

import Verif.Props.SetString

/-! Property C63: setting a spinor string through a label of one of its slots. -/

namespace Lips

open Matrix

set_option linter.unusedSectionVars false

variable {K : Type*} [Field K] {n : ℕ}

theorem slotMat_perm (f : Particle K → M2 K) (ps : Point K n) {m m' : List (Fin n)} (h : m.Perm m') :
    slotMat f ps (plusOf m) = slotMat f ps (plusOf m') := by
  unfold slotMat plusOf
  exact (h.map _ |>.map _).sum_eq

/-- Same slots up to the order of labels within each. -/
def SameSlots (ms ms' : List (List (Fin n))) : Prop := List.Forall₂ List.Perm ms ms'

theorem SameSlots.refl (ms : List (List (Fin n))) : SameSlots ms ms := by
  induction ms with
  | nil => exact .nil
  | cons m ms ih => exact .cons (.refl m) ih

theorem SameSlots.chain (ps : Point K n) {ms ms' : List (List (Fin n))} (h : SameSlots ms ms') (b : Bool) :
    chain ps b (ms.map plusOf) = chain ps b (ms'.map plusOf) := by
  induction h generalizing b with
  | nil => rfl
  | cons h _ ih => rw [List.map_cons, List.map_cons, chain_cons, chain_cons, ih, slotMat_perm _ _ h]

theorem SameSlots.mem {ms ms' : List (List (Fin n))} (h : SameSlots ms ms') (k : Fin n) :
    k ∈ ms.flatten ↔ k ∈ ms'.flatten := by
  induction h with
  | nil => rfl
  | cons h _ ih => rw [List.flatten_cons, List.flatten_cons, List.mem_append, List.mem_append, ih, h.mem_iff]

theorem SameSlots.value (ps : Point K n) {ms ms' : List (List (Fin n))} (h : SameSlots ms ms') (f g : Char) (s e : Fin n) :
    (⟨f, s, ms, e, g⟩ : Str n).value ps = (⟨f, s, ms', e, g⟩ : Str n).value ps := by
  have hl : ms.length = ms'.length := List.Forall₂.length_eq h
  unfold Str.value computeNB
  simp only [h.chain, List.length_map, hl]

theorem tailSp_congr {r r' l l' : Fin n → V2 K} {t : Str n} (h1 : r' t.e = r t.e) (h2 : l' t.e = l t.e) :
    tailSp r' l' t = tailSp r l t := by unfold tailSp; rw [h1, h2]

/-- The equation solved for the bracket of the head with the first label of the first slot. -/
theorem setMiddle_kept [NeZero (2 : K)] {c : Ctx K} {ps : Point K n} {r l : Fin n → V2 K} (h : Spin c ps r l)
    {t u : Str n} {i j : ℕ} (hu : t.toFirst i j = u) (w : u.Wf) (hfirst : t.first = u.first) {b : Fin n}
    {zs : List (Fin n)} {rest : List (List (Fin n))} (hms : u.ms = (b :: zs) :: rest) (hbz : b ∉ zs)
    (hbr : b ∉ rest.flatten) (hbs : b ≠ u.s) (hbe : b ≠ u.e) (X : K) {y : K}
    (hy : endOfPart ps u.first b rest u.e u.last = .ok y) (hy0 : y ≠ 0)
    (ha : u.first = '⟨' → r u.s 1 ≠ 0) (hb : u.first = '[' → l u.s 0 ≠ 0) :
    ∃ ps' r' l', setMiddle c ps t i j X = .ok ps' ∧ Spin c ps' r' l' ∧ u.value ps' = .ok X ∧
      (∀ k, k ≠ b → ps' k = ps k ∧ r' k = r k ∧ l' k = l k) ∧ (u.first = '⟨' → l' = l) ∧ (u.first = '[' → r' = r) := by
  have hsb : u.s ≠ b := hbs.symm
  have heb : u.e ≠ b := hbe.symm
  have occ : ∀ k, Occurs k (rest.map plusOf) → k ≠ b := fun k hk e => hbr (e ▸ occurs_plus hk)
  have total := Str.value_eq h w
  have w' : ({ u with ms := [b] :: rest } : Str n).Wf := by
    have : ([b] :: rest).length = u.ms.length := by rw [hms]; rfl
    unfold Str.Wf at w ⊢; simp only [this]; exact w
  have part := Str.value_eq h w'
  have z0 : ∀ f : Particle K → M2 K, ∀ M : M2 K, ∀ a b' : V2 K, bil a (slotMat f ps (plusOf []) * M) b' = 0 := by
    intro f M a b'
    simp [slotMat, plusOf, bil_eq]
  rw [endOfPart_eq h w hms b] at hy
  injection hy with hy
  simp only [hms, List.map_cons] at total part
  have wc := w
  rcases wc with ⟨w1, w2⟩ | ⟨w1, w2⟩
  · rw [if_pos w1] at hy
    simp only [headSp, w1, if_true, decide_true] at total part
    rw [split_angle h] at total part
    have htl : tailSp r l ({ first := '⟨', s := u.s, ms := [b] :: rest, e := u.e, last := u.last } : Str n) = tailSp r l u := rfl
    rw [htl, hy, z0, add_zero] at part
    rw [hy] at total
    set Z := bil ![r u.s 1, -r u.s 0] (slotMat Particle.r2b ps (plusOf zs) * chain ps false (rest.map plusOf)) (tailSp r l u) with hZ
    obtain ⟨ps1, r1, e1, h1, v1, o1⟩ := setA2_nofix h (A := u.s) (B := b) ((X - Z) / y) (ha w1)
    refine ⟨ps1, r1, l, ?_, h1, ?_, fun k hk => ⟨(o1 k hk).1, (o1 k hk).2, rfl⟩, fun _ => rfl,
      fun hc => absurd (w1.symm.trans hc) (by decide)⟩
    · have e2 : endOfPart ps t.first b rest u.e u.last = .ok y := by
        rw [hfirst, endOfPart_eq h w hms b, if_pos w1, hy]
      have ed : X - (SpecAngle (r u.s) (r b) * y + Z - SpecAngle (r u.s) (r b) * y) = X - Z := by ring
      simp only [setMiddle, hu, hms, total, e2]
      rw [show (⟨u.first, u.s, [b] :: rest, u.e, u.last⟩ : Str n) = ⟨'⟨', u.s, [b] :: rest, u.e, u.last⟩ by rw [w1], part]
      simp only [ed, pyDiv_ok hy0]
      rw [hfirst, if_pos w1, e1]
    · have tot1 := Str.value_eq h1 w
      simp only [hms, List.map_cons, headSp, w1, if_true, decide_true] at tot1
      rw [split_angle h1] at tot1
      have ec : ∀ b', chain ps1 b' (rest.map plusOf) = chain ps b' (rest.map plusOf) :=
        fun b' => chain_congr' (fun k hk => (o1 k (occ k hk)).1) _
      have ez : slotMat Particle.r2b ps1 (plusOf zs) = slotMat Particle.r2b ps (plusOf zs) :=
        slotMat_congr' _ (fun x z hx => by
          simp only [plusOf, List.mem_map, Prod.mk.injEq] at hx
          obtain ⟨z', hz, -, rfl⟩ := hx
          exact (o1 z' (fun e => hbz (e ▸ hz))).1)
      rw [ec, ez, tailSp_congr (o1 u.e heb).2 rfl, hy, (o1 u.s hsb).2, v1, ← hZ] at tot1
      rw [tot1]; congr 1; field_simp; ring
  · have w1' : u.first ≠ '⟨' := by rw [w1]; decide
    rw [if_neg w1'] at hy
    simp only [headSp, w1', if_false, decide_false] at total part
    rw [split_square h] at total part
    have htl : tailSp r l ({ u with ms := [b] :: rest } : Str n) = tailSp r l u := rfl
    rw [htl, hy, z0, add_zero] at part
    rw [hy] at total
    set Z := bil (l u.s) (slotMat Particle.r2 ps (plusOf zs) * chain ps true (rest.map plusOf)) (tailSp r l u) with hZ
    obtain ⟨ps1, l1, e1, h1, v1, o1⟩ := setS2_nofix h (A := u.s) (B := b) ((X - Z) / y) (hb w1)
    refine ⟨ps1, r, l1, ?_, h1, ?_, fun k hk => ⟨(o1 k hk).1, rfl, (o1 k hk).2⟩,
      fun hc => absurd (w1.symm.trans hc) (by decide), fun _ => rfl⟩
    · have e2 : endOfPart ps t.first b rest u.e u.last = .ok y := by
        rw [hfirst, endOfPart_eq h w hms b, if_neg w1', hy]
      have ed : X - (SpecSquare (l u.s) (l b) * y + Z - SpecSquare (l u.s) (l b) * y) = X - Z := by ring
      simp only [setMiddle, hu, hms, total, e2]
      rw [part]
      simp only [ed, pyDiv_ok hy0]
      rw [hfirst, if_neg w1', if_pos w1, e1]
    · have tot1 := Str.value_eq h1 w
      simp only [hms, List.map_cons, headSp, w1', if_false, decide_false] at tot1
      rw [split_square h1] at tot1
      have ec : ∀ b', chain ps1 b' (rest.map plusOf) = chain ps b' (rest.map plusOf) :=
        fun b' => chain_congr' (fun k hk => (o1 k (occ k hk)).1) _
      have ez : slotMat Particle.r2 ps1 (plusOf zs) = slotMat Particle.r2 ps (plusOf zs) :=
        slotMat_congr' _ (fun x z hx => by
          simp only [plusOf, List.mem_map, Prod.mk.injEq] at hx
          obtain ⟨z', hz, -, rfl⟩ := hx
          exact (o1 z' (fun e => hbz (e ▸ hz))).1)
      rw [ec, ez, tailSp_congr rfl (o1 u.e heb).2, hy, (o1 u.s hsb).2, v1, ← hZ] at tot1
      rw [tot1]; congr 1; field_simp; ring

/-- The equation solved for the bracket of the head with the first label of the first slot. -/
theorem setMiddle_solve [NeZero (2 : K)] {c : Ctx K} {ps : Point K n} {r l : Fin n → V2 K} (h : Spin c ps r l)
    {t u : Str n} {i j : ℕ} (hu : t.toFirst i j = u) (w : u.Wf) (hfirst : t.first = u.first) {b : Fin n}
    {zs : List (Fin n)} {rest : List (List (Fin n))} (hms : u.ms = (b :: zs) :: rest) (hbz : b ∉ zs)
    (hbr : b ∉ rest.flatten) (hbs : b ≠ u.s) (hbe : b ≠ u.e) (X : K) {y : K}
    (hy : endOfPart ps u.first b rest u.e u.last = .ok y) (hy0 : y ≠ 0)
    (ha : u.first = '⟨' → r u.s 1 ≠ 0) (hb : u.first = '[' → l u.s 0 ≠ 0) :
    ∃ ps' r' l', setMiddle c ps t i j X = .ok ps' ∧ Spin c ps' r' l' ∧ u.value ps' = .ok X ∧
      ∀ k, k ≠ b → ps' k = ps k ∧ r' k = r k ∧ l' k = l k := by
  obtain ⟨ps', r', l', e1, e2, e3, e4, -⟩ := setMiddle_kept h hu w hfirst hms hbz hbr hbs hbe X hy hy0 ha hb
  exact ⟨ps', r', l', e1, e2, e3, e4⟩

/-! ### Which label is chosen -/

theorem toFront_perm (xs ys : List (Fin n)) (b : Fin n) :
    ∃ zs, toFront (xs ++ b :: ys) xs.length = b :: zs ∧ zs.Perm (xs ++ ys) := by
  cases xs with
  | nil => exact ⟨ys, by simp [toFront], .refl _⟩
  | cons x xs =>
    refine ⟨xs ++ x :: ys, ?_, ?_⟩
    · simp [toFront]
    · exact List.perm_middle

/-- `b` is the first label of slot `i` that occurs in no other slot and at no end. -/
def FirstUnique (t : Str n) (i : ℕ) (xs : List (Fin n)) (b : Fin n) (ys : List (Fin n)) : Prop :=
  t.ms[i]? = some (xs ++ b :: ys) ∧ (b ≠ t.s ∧ b ≠ t.e ∧ b ∉ (t.ms.eraseIdx i).flatten) ∧
    ∀ x ∈ xs, x = t.s ∨ x = t.e ∨ x ∈ (t.ms.eraseIdx i).flatten

theorem FirstUnique.uniqueIn {t : Str n} {i : ℕ} {xs ys : List (Fin n)} {b : Fin n} (h : FirstUnique t i xs b ys) :
    t.uniqueIn i = some xs.length := by
  obtain ⟨h1, h2, h3⟩ := h
  have hg : t.ms.getD i [] = xs ++ b :: ys := by simp [List.getD, h1]
  unfold Str.uniqueIn
  rw [hg, List.findIdx?_append]
  have : List.findIdx? (fun x => decide (x ≠ t.s ∧ x ≠ t.e ∧ x ∉ (t.ms.eraseIdx i).flatten)) xs = none := by
    rw [List.findIdx?_eq_none_iff]
    intro x hx
    rw [decide_eq_false_iff_not]
    rintro ⟨a1, a2, a3⟩
    rcases h3 x hx with h | h | h
    · exact a1 h
    · exact a2 h
    · exact a3 h
  rw [this]
  simp only [Option.none_or]
  rw [List.findIdx?_cons, if_pos (by simpa using h2)]
  simp

/-- Every label of slot `i` occurs elsewhere. -/
def NoUnique (t : Str n) (i : ℕ) : Prop :=
  ∀ x ∈ t.ms.getD i [], x = t.s ∨ x = t.e ∨ x ∈ (t.ms.eraseIdx i).flatten

theorem NoUnique.uniqueIn {t : Str n} {i : ℕ} (h : NoUnique t i) : t.uniqueIn i = none := by
  unfold Str.uniqueIn
  rw [List.findIdx?_eq_none_iff]
  intro x hx
  rw [decide_eq_false_iff_not]
  rintro ⟨a1, a2, a3⟩
  rcases h x hx with h | h | h
  · exact a1 h
  · exact a2 h
  · exact a3 h

/-- The method does not try to set an end: another mode is asked for, or both ends occur in slots
(or are the same spinor). -/
def NotAtEnds (t : Str n) (mode : ℕ) : Prop :=
  mode ≠ 1 ∨ (t.s ∈ t.ms.flatten ∧ t.e ∈ t.ms.flatten)

theorem NotAtEnds.cond {t : Str n} {mode : ℕ} (h : NotAtEnds t mode) (hm : t.uniqueMiddle ≠ none) :
    ¬(((t.uniqueEnd.isSome = true ∨ (t.s = t.e ∧ t.s ∉ t.ms.flatten ∧ t.ms.length % 2 = 0)) ∧ mode = 1) ∨
      t.uniqueMiddle = none) := by
  rintro (⟨h1, h2⟩ | h1)
  · rcases h with h | ⟨hs, he⟩
    · exact h h2
    · rcases h1 with h1 | h1
      · unfold Str.uniqueEnd at h1
        rw [if_neg (fun hh => hh.1 hs), if_neg (fun hh => hh.1 he)] at h1
        simp at h1
      · exact h1.2.1 hs
  · exact hm h1

/-- C63: a string set through the first label `b` of its first slot that occurs nowhere else: the
string is set to `X`, momentum is conserved, and only `b` and the first two labels `p`, `q` that do
not occur change. The guards: the component of the head that is divided by, what stands behind `b`
(`y`), and the bracket `[p|q]` are nonzero. -/
theorem C63_first_slot [NeZero (2 : K)] (c : Ctx K) (ps : Point K n) (r l : Fin n → V2 K)
    (h : ∀ k, IsMassless c (ps k) (r k) (l k)) (t : Str n) (w : t.Wf) (xs ys : List (Fin n)) (b : Fin n)
    (hb : FirstUnique t 0 xs b ys) (hx : b ∉ xs) (hyy : b ∉ ys) (mode : ℕ) (hmode : NotAtEnds t mode)
    (p q : Fin n) (hpq : FirstTwoFree t.labels p q) (X y : K)
    (hy : endOfPart ps t.first b (t.ms.drop 1) t.e t.last = .ok y) (hy0 : y ≠ 0)
    (ha : t.first = '⟨' → r t.s 1 ≠ 0) (ha' : t.first = '[' → l t.s 0 ≠ 0)
    (hd : SpecSquare (l p) (l q) ≠ 0) (fuel : ℕ) :
    ∃ ps', setNB c (fuel + 1) ps t X true mode = .ok ps' ∧ t.value ps' = .ok X ∧ GoodPoint c ps' ∧
      (∀ k, k ≠ b → k ≠ p → k ≠ q → ps' k = ps k) := by
  have hum : t.uniqueMiddle = some (0, xs.length) := by unfold Str.uniqueMiddle; rw [hb.uniqueIn]
  obtain ⟨hm0, ⟨b1, b2, b3⟩, -⟩ := hb
  obtain ⟨f, s, ms, e, g⟩ := t
  simp only at *
  cases ms with
  | nil => simp at hm0
  | cons m rest =>
    simp only [List.getElem?_cons_zero, Option.some.injEq] at hm0
    subst hm0
    obtain ⟨zs, hz, hzp⟩ := toFront_perm xs ys b
    have hu : (⟨f, s, (xs ++ b :: ys) :: rest, e, g⟩ : Str n).toFirst 0 xs.length =
        ⟨f, s, (b :: zs) :: rest, e, g⟩ := by
      simp only [Str.toFirst, List.getD_cons_zero, List.set_cons_zero, hz, if_true]
    have same : SameSlots ((xs ++ b :: ys) :: rest) ((b :: zs) :: rest) :=
      .cons (List.perm_middle.trans (hzp.symm.cons b)) (SameSlots.refl _)
    have w' : (⟨f, s, (b :: zs) :: rest, e, g⟩ : Str n).Wf := w
    simp only [List.drop_succ_cons, List.drop_zero, List.eraseIdx_cons_zero] at hy b3
    obtain ⟨ps1, r1, l1, e1, h1, v1, o1⟩ := setMiddle_solve (h : Spin c ps r l) hu w' rfl (b := b) rfl
      (fun hh => (List.mem_append.mp (hzp.mem_iff.mp hh)).elim hx hyy) b3 b1 b2 X hy hy0 ha ha'
    have hbl : b ∈ (⟨f, s, (xs ++ b :: ys) :: rest, e, g⟩ : Str n).labels := by simp [Str.labels]
    obtain ⟨np, nq⟩ := firstTwoFree_ne hpq hbl
    obtain ⟨ps2, r2, e2, hc, h2, v2, o2⟩ := fixNB_free h1 hpq
      (by rw [(o1 p np.symm).2.2, (o1 q nq.symm).2.2]; exact hd)
      ((⟨f, s, (xs ++ b :: ys) :: rest, e, g⟩ : Str n).toFirst 0 xs.length).s
      ((⟨f, s, (xs ++ b :: ys) :: rest, e, g⟩ : Str n).toFirst 0 xs.length).first
    refine ⟨ps2, ?_, ?_, h2.good hc, fun k a1 a2 a3 => (o2 k a2 a3).trans (o1 k a1).1⟩
    · simp only [setNB, noFlip hpq, false_and, if_false, Option.getD_none, Option.isSome_none, Bool.false_eq_true]
      rw [if_neg (hmode.cond (by rw [hum]; simp)), hum]
      simp only [e1, e2, if_true]
    · rw [v2, same.value, v1]

/-! ### The last slot -/

/-- The string with slots and ends exchanged. -/
theorem swap_value {c : Ctx K} {ps : Point K n} {r l : Fin n → V2 K} (h : Spin c ps r l) {f g : Char} {s e : Fin n}
    {ms : List (List (Fin n))} (w : (⟨f, s, ms, e, g⟩ : Str n).Wf) {x : K}
    (hx : (⟨if g = '⟩' then '⟨' else '[', e, ms.reverse, s, if f = '⟨' then '⟩' else ']'⟩ : Str n).value ps = .ok x) :
    (⟨f, s, ms, e, g⟩ : Str n).value ps = .ok (if ms.length % 2 = 0 then -x else x) := by
  refine Str.reverse_value h w ?_
  rw [← hx]
  have same : SameSlots (ms.map List.reverse).reverse ms.reverse := by
    rw [← List.map_reverse]
    generalize ms.reverse = l
    induction l with
    | nil => exact .nil
    | cons m l ih => exact .cons (List.reverse_perm m) ih
  unfold Str.reverse
  rw [same.value]
  obtain ⟨c1, c2⟩ := w.chars
  simp only at c1 c2
  rcases c1 with rfl | rfl <;> rcases c2 with rfl | rfl <;> rfl

/-- C63 fails for the last slot: with an even number of slots, when the first has no label of its
own, the string is set to `-X` instead of `X` (`t.ms` are the slots `ms` followed by the one with
`b`). -/
theorem C63_last_slot_even_partial [NeZero (2 : K)] (c : Ctx K) (ps : Point K n) (r l : Fin n → V2 K)
    (h : ∀ k, IsMassless c (ps k) (r k) (l k)) (f g : Char) (s e : Fin n) (ms : List (List (Fin n)))
    (xs ys : List (Fin n)) (b : Fin n) (w : (⟨f, s, ms ++ [xs ++ b :: ys], e, g⟩ : Str n).Wf) (hne : ms ≠ [])
    (hev : (ms.length + 1) % 2 = 0) (hno : NoUnique (⟨f, s, ms ++ [xs ++ b :: ys], e, g⟩ : Str n) 0)
    (hb : FirstUnique (⟨f, s, ms ++ [xs ++ b :: ys], e, g⟩ : Str n) ms.length xs b ys) (hx : b ∉ xs) (hyy : b ∉ ys)
    (mode : ℕ) (hmode : NotAtEnds (⟨f, s, ms ++ [xs ++ b :: ys], e, g⟩ : Str n) mode)
    (p q : Fin n) (hpq : FirstTwoFree (⟨f, s, ms ++ [xs ++ b :: ys], e, g⟩ : Str n).labels p q) (X y : K)
    (hy : endOfPart ps f b ms.reverse s g = .ok y) (hy0 : y ≠ 0)
    (ha : f = '⟨' → r e 1 ≠ 0) (ha' : f = '[' → l e 0 ≠ 0)
    (hd : SpecSquare (l p) (l q) ≠ 0) (fuel : ℕ) :
    ∃ ps', setNB c (fuel + 1) ps ⟨f, s, ms ++ [xs ++ b :: ys], e, g⟩ X true mode = .ok ps' ∧
      (⟨f, s, ms ++ [xs ++ b :: ys], e, g⟩ : Str n).value ps' = .ok (-X) ∧ GoodPoint c ps' ∧
      (∀ k, k ≠ b → k ≠ p → k ≠ q → ps' k = ps k) := by
  set t : Str n := ⟨f, s, ms ++ [xs ++ b :: ys], e, g⟩ with ht
  have hlen : t.ms.length - 1 = ms.length := by simp [ht]
  have hum : t.uniqueMiddle = some (ms.length, xs.length) := by
    unfold Str.uniqueMiddle; rw [hno.uniqueIn, hlen, hb.uniqueIn]; rfl
  obtain ⟨-, ⟨b1, b2, b3⟩, -⟩ := hb
  have b3' : b ∉ ms.reverse.flatten := by
    intro hh
    apply b3
    have : t.ms.eraseIdx ms.length = ms := by simp [ht, List.eraseIdx_append_of_length_le]
    rw [this]
    obtain ⟨m, hm, hbm⟩ := List.mem_flatten.mp hh
    exact List.mem_flatten.mpr ⟨m, List.mem_reverse.mp hm, hbm⟩
  obtain ⟨zs, hz, hzp⟩ := toFront_perm xs ys b
  have hl0 : ms.length ≠ 0 := by simpa using hne
  have chars : (f = '⟨' ∧ g = '⟩') ∨ (f = '[' ∧ g = ']') := by
    rcases w with ⟨w1, w2⟩ | ⟨w1, w2⟩ <;> simp only [ht, List.length_append, List.length_singleton, hev, if_true] at w1 w2
    · exact Or.inl ⟨w1, w2⟩
    · exact Or.inr ⟨w1, w2⟩
  have hfo : (if g = '⟩' then '⟨' else '[') = f := by rcases chars with ⟨rfl, rfl⟩ | ⟨rfl, rfl⟩ <;> rfl
  have hgo : (if f = '⟨' then '⟩' else ']') = g := by rcases chars with ⟨rfl, rfl⟩ | ⟨rfl, rfl⟩ <;> rfl
  have hu : t.toFirst ms.length xs.length = ⟨f, e, (b :: zs) :: ms.reverse, s, g⟩ := by
    have e1 : t.ms.getD ms.length [] = xs ++ b :: ys := by simp [ht, List.getD]
    have e2 : t.ms.set ms.length (b :: zs) = ms ++ [b :: zs] := by simp [ht]
    simp only [Str.toFirst, e1, hz, e2, hl0, if_false, List.reverse_append, List.reverse_singleton,
      List.singleton_append, Str.mk.injEq, true_and]
    exact ⟨hfo, rfl, rfl, hgo⟩
  have w' : (⟨f, e, (b :: zs) :: ms.reverse, s, g⟩ : Str n).Wf := by
    unfold Str.Wf
    simp only [List.length_cons, List.length_reverse, hev, if_true]
    exact chars
  obtain ⟨ps1, r1, l1, e1, h1, v1, o1⟩ := setMiddle_solve (h : Spin c ps r l) hu w' rfl (b := b) rfl
    (fun hh => (List.mem_append.mp (hzp.mem_iff.mp hh)).elim hx hyy) b3' b2 b1 X hy hy0 ha ha'
  have hbl : b ∈ t.labels := by simp [Str.labels, ht]
  obtain ⟨np, nq⟩ := firstTwoFree_ne hpq hbl
  obtain ⟨ps2, r2, e2, hc, h2, v2, o2⟩ := fixNB_free h1 hpq
    (by rw [(o1 p np.symm).2.2, (o1 q nq.symm).2.2]; exact hd)
    (t.toFirst ms.length xs.length).s (t.toFirst ms.length xs.length).first
  refine ⟨ps2, ?_, ?_, h2.good hc, fun k a1 a2 a3 => (o2 k a2 a3).trans (o1 k a1).1⟩
  · simp only [setNB, noFlip hpq, false_and, if_false, Option.getD_none, Option.isSome_none, Bool.false_eq_true]
    rw [if_neg (hmode.cond (by rw [hum]; simp)), hum]
    simp only [e1, e2, if_true]
  · rw [v2]
    have hlen' : t.ms.length % 2 = 0 := by simpa [ht] using hev
    have := swap_value h1 w (x := X) (by
      rw [hfo, hgo, ← v1]
      have same : SameSlots (ms ++ [xs ++ b :: ys]).reverse ((b :: zs) :: ms.reverse) := by
        rw [List.reverse_append]
        exact .cons (List.perm_middle.trans (hzp.symm.cons b)) (SameSlots.refl _)
      exact same.value _ _ _ _ _)
    rw [this]
    rw [if_pos (by simpa [ht] using hlen')]

/-- C63 fails for the last slot: with an odd number of slots, at least three, when the first has no
label of its own, the method ends in a SyntaxError: the string behind `b` is asked for with the
bracket that belongs to the original head. -/
theorem C63_last_slot_odd_partial (c : Ctx K) (ps : Point K n) (r l : Fin n → V2 K)
    (h : ∀ k, IsMassless c (ps k) (r k) (l k)) (f g : Char) (s e : Fin n) (ms : List (List (Fin n)))
    (xs ys : List (Fin n)) (b : Fin n) (w : (⟨f, s, ms ++ [xs ++ b :: ys], e, g⟩ : Str n).Wf) (hne : ms ≠ [])
    (hod : (ms.length + 1) % 2 = 1) (hno : NoUnique (⟨f, s, ms ++ [xs ++ b :: ys], e, g⟩ : Str n) 0)
    (hb : FirstUnique (⟨f, s, ms ++ [xs ++ b :: ys], e, g⟩ : Str n) ms.length xs b ys)
    (mode : ℕ) (hmode : NotAtEnds (⟨f, s, ms ++ [xs ++ b :: ys], e, g⟩ : Str n) mode)
    (p q : Fin n) (hpq : FirstTwoFree (⟨f, s, ms ++ [xs ++ b :: ys], e, g⟩ : Str n).labels p q) (X : K) (fuel : ℕ) :
    setNB c (fuel + 1) ps ⟨f, s, ms ++ [xs ++ b :: ys], e, g⟩ X true mode = .error .syntaxError := by
  set t : Str n := ⟨f, s, ms ++ [xs ++ b :: ys], e, g⟩ with ht
  have hlen : t.ms.length - 1 = ms.length := by simp [ht]
  have hum : t.uniqueMiddle = some (ms.length, xs.length) := by
    unfold Str.uniqueMiddle; rw [hno.uniqueIn, hlen, hb.uniqueIn]; rfl
  obtain ⟨zs, hz, hzp⟩ := toFront_perm xs ys b
  have hl0 : ms.length ≠ 0 := by simpa using hne
  have chars : (f = '⟨' ∧ g = ']') ∨ (f = '[' ∧ g = '⟩') := by
    have h0 : ¬ (ms.length + 1) % 2 = 0 := by omega
    rcases w with ⟨w1, w2⟩ | ⟨w1, w2⟩ <;> simp only [ht, List.length_append, List.length_singleton, h0, if_false] at w1 w2
    · exact Or.inl ⟨w1, w2⟩
    · exact Or.inr ⟨w1, w2⟩
  set f' : Char := if g = '⟩' then '⟨' else '[' with hf'
  set g' : Char := if f = '⟨' then '⟩' else ']' with hg'
  have hu : t.toFirst ms.length xs.length = ⟨f', e, (b :: zs) :: ms.reverse, s, g'⟩ := by
    have e1 : t.ms.getD ms.length [] = xs ++ b :: ys := by simp [ht, List.getD]
    have e2 : t.ms.set ms.length (b :: zs) = ms ++ [b :: zs] := by simp [ht]
    simp only [Str.toFirst, e1, hz, e2, hl0, if_false, List.reverse_append, List.reverse_singleton,
      List.singleton_append]
    rfl
  have hwf : ∀ m : List (Fin n), (⟨f', e, m :: ms.reverse, s, g'⟩ : Str n).Wf := by
    intro m
    unfold Str.Wf
    simp only [List.length_cons, List.length_reverse, hod]
    rcases chars with ⟨rfl, rfl⟩ | ⟨rfl, rfl⟩ <;> simp [hf', hg']
  have hend : endOfPart ps f b ms.reverse s g' = .error .syntaxError := by
    have hr : ms.reverse ≠ [] := by simpa using hne
    have hlr : ms.reverse.length % 2 = 0 := by rw [List.length_reverse]; omega
    generalize hm : ms.reverse = mr at hr hlr
    cases mr with
    | nil => exact absurd rfl hr
    | cons m mr =>
      have hs1 : nbSyntaxError ((m :: mr).map plusOf).length '[' '⟩' = true := by
        rw [List.length_map, nbSyntaxError, hlr]; decide
      have hs2 : nbSyntaxError ((m :: mr).map plusOf).length '⟨' ']' = true := by
        rw [List.length_map, nbSyntaxError, hlr]; decide
      rcases chars with ⟨rfl, rfl⟩ | ⟨rfl, rfl⟩
      · simp only [endOfPart, hg', computeNB, if_true, hs1]
      · simp only [endOfPart, hg', computeNB, show ('[' : Char) ≠ '⟨' from by decide, if_false, hs2, if_true]
  simp only [setNB, noFlip hpq, false_and, if_false, Option.getD_none, Option.isSome_none, Bool.false_eq_true]
  rw [if_neg (hmode.cond (by rw [hum]; simp)), hum]
  have v1 := Str.value_eq (h : Spin c ps r l) (hwf (b :: zs))
  have v2 := Str.value_eq (h : Spin c ps r l) (hwf [b])
  have htf : t.first = f := rfl
  simp only [setMiddle, hu, v1, v2, htf, hend]

end Lips

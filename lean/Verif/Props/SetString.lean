import Verif.Lemmas.Set
import Verif.Props.Compute

/-! Properties C62 and C63: setting spinor strings. -/

namespace Lips

open Matrix

set_option linter.unusedSectionVars false

variable {K : Type*} [Field K] {n : ℕ}

/-! ### Specification -/

/-- The brackets at the two ends fit the number of slots. -/
def Str.Wf (t : Str n) : Prop :=
  (t.first = '⟨' ∧ t.last = if t.ms.length % 2 = 0 then '⟩' else ']') ∨
  (t.first = '[' ∧ t.last = if t.ms.length % 2 = 0 then ']' else '⟩')

/-- The particles after a successful call: momentum is conserved, all are massless and consistent and
have spinors. -/
def GoodPoint (c : Ctx K) (ps : Point K n) : Prop :=
  Conserves ps ∧ ∃ r l : Fin n → V2 K, ∀ k, IsMassless c (ps k) (r k) (l k)

/-! ### Values -/

/-- The upper or lower spinor at the head. -/
def headSp (r l : Fin n → V2 K) (t : Str n) : V2 K := if t.first = '⟨' then ![r t.s 1, -r t.s 0] else l t.s

/-- The spinor at the tail. -/
def tailSp (r l : Fin n → V2 K) (t : Str n) : V2 K := if t.last = '⟩' then r t.e else ![l t.e 1, -l t.e 0]

theorem Str.value_eq {c : Ctx K} {ps : Point K n} {r l : Fin n → V2 K} (h : Spin c ps r l) {t : Str n} (w : t.Wf) :
    t.value ps = .ok (bil (headSp r l t) (chain ps (t.first = '⟨') (t.ms.map plusOf)) (tailSp r l t)) := by
  obtain ⟨h1, h2, h3, h4⟩ := computeNB_ok c ps (h t.s).toHasSpinors (h t.e).toHasSpinors (t.ms.map plusOf)
  rw [List.length_map] at h1 h2 h3 h4
  unfold Str.value headSp tailSp
  rcases w with ⟨w1, w2⟩ | ⟨w1, w2⟩ <;> rcases Nat.mod_two_eq_zero_or_one t.ms.length with p | p
  · rw [w1, w2, if_pos p, h1 p]; simp
  · rw [w1, w2, if_neg (by omega), h2 p]; simp
  · rw [w1, w2, if_pos p, h3 p]; simp
  · rw [w1, w2, if_neg (by omega), h4 p]; simp

/-- The value depends on the particles that occur. -/
theorem Str.value_congr {ps ps' : Point K n} {t : Str n} (h : ∀ k ∈ t.labels, ps' k = ps k) :
    t.value ps' = t.value ps := by
  unfold Str.value
  refine computeNB_congr _ _ (h _ ?_) (h _ ?_) ?_
  · simp [Str.labels]
  · simp [Str.labels]
  · rintro k ⟨s, hs, b, hb⟩
    obtain ⟨m, hm, rfl⟩ := List.mem_map.mp hs
    apply h
    simp only [plusOf, List.mem_map, Prod.mk.injEq] at hb
    obtain ⟨x, hx, _, rfl⟩ := hb
    simp only [Str.labels, List.mem_cons, List.mem_append, List.mem_flatten]
    exact Or.inr (Or.inl ⟨m, hm, hx⟩)

theorem occurs_plus {k : Fin n} {ms : List (List (Fin n))} (h : Occurs k (ms.map plusOf)) : k ∈ ms.flatten := by
  obtain ⟨s, hs, b, hb⟩ := h
  obtain ⟨m, hm, rfl⟩ := List.mem_map.mp hs
  simp only [plusOf, List.mem_map, Prod.mk.injEq] at hb
  obtain ⟨x, hx, _, rfl⟩ := hb
  exact List.mem_flatten.mpr ⟨m, hm, hx⟩

/-! ### The head -/

theorem bil_update (u : V2 K) (M : M2 K) (w : V2 K) : bil u M w = u 0 * M.mulVec w 0 + u 1 * M.mulVec w 1 := by
  simp [bil_eq, mulVec, dotProduct]; ring

/-- The linear equation for the head. One component of the head is kept. -/
theorem setHead_linear_comp [NeZero (2 : K)] {c : Ctx K} {ps : Point K n} {r l : Fin n → V2 K} (h : Spin c ps r l)
    {t : Str n} (w : t.Wf) (hs : t.s ∉ t.ms.flatten) (hne : t.ms.length % 2 = 1 ∨ t.s ≠ t.e) (X : K)
    (hv : ((chain ps (t.first = '⟨') (t.ms.map plusOf)).mulVec (tailSp r l t)) 0 ≠ 0) :
    ∃ ps' r' l', setHead c ps t X = .ok ps' ∧ Spin c ps' r' l' ∧ t.value ps' = .ok X ∧
      (∀ k, k ≠ t.s → ps' k = ps k) ∧ (t.first = '⟨' → l' = l) ∧ (t.first = '[' → r' = r) ∧
      (∀ k, k ≠ t.s → r' k = r k ∧ l' k = l k) ∧ (t.first = '⟨' → r' t.s 0 = r t.s 0) ∧ (t.first = '[' → l' t.s 1 = l t.s 1) := by
  have tail : (if t.last = '⟩' then need (ps t.e).r_d else need (ps t.e).l_u) = .ok (tailSp r l t) := by
    unfold tailSp; split
    · rw [(h t.e).r_d]; rfl
    · rw [(h t.e).l_u]; rfl
  have quad : ¬(t.s = t.e ∧ t.ms.length % 2 = 0) := by
    rintro ⟨h1, h2⟩; rcases hne with h | h
    · omega
    · exact h h1
  have occ : ∀ k, Occurs k (t.ms.map plusOf) → k ≠ t.s := fun k hk e => hs (e ▸ occurs_plus hk)
  rcases w with ⟨w1, w2⟩ | ⟨w1, w2⟩
  · set v := (chain ps (t.first = '⟨') (t.ms.map plusOf)).mulVec (tailSp r l t) with hvdef
    obtain ⟨q, e1, hq⟩ := setRu_massless (h t.s) ![(X - (-r t.s 0) * v 1) / v 0, -r t.s 0]
    obtain ⟨ps1, e2, h1, o1⟩ := store_r h t.s e1 hq
    refine ⟨ps1, _, l, ?_, h1, ?_, o1, fun _ => rfl, ?_, ?_, ?_, ?_⟩
    · simp only [setHead, tail, quad, if_false, ← hvdef]
      simp only [w1, (h t.s).r_u, need_some, Matrix.cons_val_zero, Matrix.cons_val_one,
        pyDiv_ok hv, if_true]
      simpa using e2
    · rw [Str.value_eq h1 (Or.inl ⟨w1, w2⟩), bil_update]
      have ec : chain ps1 (t.first = '⟨') (t.ms.map plusOf) = chain ps (t.first = '⟨') (t.ms.map plusOf) :=
        chain_congr' (fun k hk => o1 k (occ k hk)) _
      have et : tailSp (Function.update r t.s ![-(![(X - (-r t.s 0) * v 1) / v 0, -r t.s 0] : V2 K) 1,
          (![(X - (-r t.s 0) * v 1) / v 0, -r t.s 0] : V2 K) 0]) l t = tailSp r l t := by
        unfold tailSp
        split
        · rename_i hl
          have : t.ms.length % 2 = 0 := by
            by_contra hc
            rw [w2, if_neg hc] at hl; simp at hl
          have : t.e ≠ t.s := by rcases hne with h | h; · omega
                                 · exact h.symm
          rw [Function.update_of_ne this]
        · rfl
      rw [ec, et, ← hvdef]
      simp only [headSp, w1, if_true, Function.update_self, Matrix.cons_val_zero, Matrix.cons_val_one]
      congr 1; field_simp; ring
    · intro hc; rw [w1] at hc; simp at hc
    · intro k hk; exact ⟨Function.update_of_ne hk _ _, rfl⟩
    · intro _; simp
    · intro hc; exact absurd (w1.symm.trans hc) (by decide)
  · set v := (chain ps (t.first = '⟨') (t.ms.map plusOf)).mulVec (tailSp r l t) with hvdef
    obtain ⟨q, e1, hq⟩ := setLd_massless (h t.s) ![(X - l t.s 1 * v 1) / v 0, l t.s 1]
    obtain ⟨ps1, e2, h1, o1⟩ := store_l h t.s e1 hq
    refine ⟨ps1, r, _, ?_, h1, ?_, o1, ?_, fun _ => rfl, ?_, ?_, ?_⟩
    · simp only [setHead, tail, quad, if_false, ← hvdef]
      simp only [w1, (h t.s).l_d, need_some, pyDiv_ok hv]
      simpa using e2
    · rw [Str.value_eq h1 (Or.inr ⟨w1, w2⟩), bil_update]
      have ec : chain ps1 (t.first = '⟨') (t.ms.map plusOf) = chain ps (t.first = '⟨') (t.ms.map plusOf) :=
        chain_congr' (fun k hk => o1 k (occ k hk)) _
      have et : tailSp r (Function.update l t.s ![(X - l t.s 1 * v 1) / v 0, l t.s 1]) t = tailSp r l t := by
        unfold tailSp
        split
        · rfl
        · rename_i hl
          have : t.ms.length % 2 = 0 := by
            by_contra hc
            rw [w2, if_neg hc] at hl; simp at hl
          have : t.e ≠ t.s := by rcases hne with h | h; · omega
                                 · exact h.symm
          rw [Function.update_of_ne this]
      rw [ec, et, ← hvdef]
      simp only [headSp, w1, Function.update_self]
      simp
      field_simp; ring
    · intro hc; rw [w1] at hc; simp at hc
    · intro k hk; exact ⟨rfl, Function.update_of_ne hk _ _⟩
    · intro hc; exact absurd (w1.symm.trans hc) (by decide)
    · intro _; simp

/-- The linear equation for the head. -/
theorem setHead_linear [NeZero (2 : K)] {c : Ctx K} {ps : Point K n} {r l : Fin n → V2 K} (h : Spin c ps r l)
    {t : Str n} (w : t.Wf) (hs : t.s ∉ t.ms.flatten) (hne : t.ms.length % 2 = 1 ∨ t.s ≠ t.e) (X : K)
    (hv : ((chain ps (t.first = '⟨') (t.ms.map plusOf)).mulVec (tailSp r l t)) 0 ≠ 0) :
    ∃ ps' r' l', setHead c ps t X = .ok ps' ∧ Spin c ps' r' l' ∧ t.value ps' = .ok X ∧
      (∀ k, k ≠ t.s → ps' k = ps k) ∧ (t.first = '⟨' → l' = l) ∧ (t.first = '[' → r' = r) ∧
      (∀ k, k ≠ t.s → r' k = r k ∧ l' k = l k) := by
  obtain ⟨ps', r', l', h1, h2, h3, h4, h5, h6, h7, -⟩ := setHead_linear_comp h w hs hne X hv
  exact ⟨ps', r', l', h1, h2, h3, h4, h5, h6, h7⟩

/-- Momentum fixed with two labels that do not occur. -/
theorem fixNB_free [NeZero (2 : K)] {c : Ctx K} {ps : Point K n} {r l : Fin n → V2 K} (h : Spin c ps r l)
    {t : Str n} {p q : Fin n} (hpq : FirstTwoFree t.labels p q) (hd : SpecSquare (l p) (l q) ≠ 0) (a : Fin n) (f : Char) :
    ∃ ps' r', fixNB c ps t a f = .ok ps' ∧ Conserves ps' ∧ Spin c ps' r' l ∧ t.value ps' = t.value ps ∧
      (∀ k, k ≠ p → k ≠ q → ps' k = ps k) := by
  obtain ⟨ps', r', e, hc, hs, ho⟩ := fixAxis1_spin h hpq.2.2.1.ne hd
  obtain ⟨rest, hr⟩ := freeLabels_firstTwo hpq
  refine ⟨ps', r', ?_, hc, hs, ?_, fun k h1 h2 => (ho k h1 h2).1⟩
  · simp [fixNB, hr, fixFirstTwo, e]
  · refine Str.value_congr fun k hk => ?_
    obtain ⟨h1, h2⟩ := firstTwoFree_ne hpq hk
    exact (ho k h1 h2).1

theorem noFlip {t : Str n} {p q : Fin n} (hpq : FirstTwoFree t.labels p q) : ¬(freeLabels t.labels).length < 2 := by
  obtain ⟨rest, hr⟩ := freeLabels_firstTwo hpq
  simp [hr]

/-- What the part behind the head evaluates to. -/
theorem openBegin_eq {c : Ctx K} {ps : Point K n} {r l : Fin n → V2 K} (h : Spin c ps r l) {t : Str n} (w : t.Wf) :
    computeOpenBegin ps (t.ms.map plusOf) t.e t.last =
      .ok ((chain ps (t.first = '⟨') (t.ms.map plusOf)).mulVec (tailSp r l t)) := by
  have tail : (if t.last = '⟩' then need (ps t.e).r_d else need (ps t.e).l_u) = .ok (tailSp r l t) := by
    unfold tailSp; split
    · rw [(h t.e).r_d]; rfl
    · rw [(h t.e).l_u]; rfl
  unfold computeOpenBegin
  rw [tail, List.length_map]
  have : decide ((t.last = '⟩' ∧ t.ms.length % 2 = 0) ∨ (t.last = ']' ∧ t.ms.length % 2 = 1)) = decide (t.first = '⟨') := by
    rcases w with ⟨w1, w2⟩ | ⟨w1, w2⟩ <;> rcases Nat.mod_two_eq_zero_or_one t.ms.length with p | p <;>
      simp [w1, w2, p]
  simp only [this]

theorem Spin.good {c : Ctx K} {ps : Point K n} {r l : Fin n → V2 K} (h : Spin c ps r l) (hc : Conserves ps) :
    GoodPoint c ps := ⟨hc, r, l, h⟩

/-- `setNB` when no slot is replaced and the head is set. -/
theorem setNB_head [NeZero (2 : K)] {c : Ctx K} {ps ps1 : Point K n} {r1 l1 : Fin n → V2 K} {t : Str n}
    {p q : Fin n} (hpq : FirstTwoFree t.labels p q) (hd : SpecSquare (l1 p) (l1 q) ≠ 0) {X : K} {fuel : ℕ}
    (hu : t.uniqueEnd ≠ some true)
    (hh : (t.uniqueEnd.isSome = true ∨ (t.s = t.e ∧ t.s ∉ t.ms.flatten ∧ t.ms.length % 2 = 0)))
    (e : setHead c ps t X = .ok ps1) (h1 : Spin c ps1 r1 l1) (hv : t.value ps1 = .ok X)
    (o : ∀ k, k ≠ t.s → ps1 k = ps k) :
    ∃ ps', setNB c (fuel + 1) ps t X true 1 = .ok ps' ∧ t.value ps' = .ok X ∧ GoodPoint c ps' ∧
      (∀ k, k ≠ t.s → k ≠ p → k ≠ q → ps' k = ps k) := by
  obtain ⟨ps2, r2, e2, hc, h2, v2, o2⟩ := fixNB_free h1 hpq hd t.s t.first
  refine ⟨ps2, ?_, v2.trans hv, h2.good hc, fun k a b d => (o2 k b d).trans (o k a)⟩
  simp only [setNB, noFlip hpq, false_and, if_false, Option.getD_none, Option.isSome_none, Bool.false_eq_true]
  rw [if_pos (Or.inl ⟨hh, trivial⟩), if_neg hu]
  simp only [e, e2, if_true]

theorem uniqueEnd_head {t : Str n} (hs : t.s ∉ t.ms.flatten) (hne : t.ms.length % 2 = 1 ∨ t.s ≠ t.e) :
    t.uniqueEnd = some false := by
  unfold Str.uniqueEnd; rw [if_pos ⟨hs, hne⟩]

/-- C62: a string whose head occurs in no slot (and not as tail, unless the two ends are spinors of
different kinds), with two labels `p`, `q` that do not occur: the head is set so that the string is
`X`, momentum is conserved, and only the head, `p` and `q` change. The guards: the first component of
what stands behind the head and the bracket `[p|q]` are nonzero. -/
theorem C62_head_linear [NeZero (2 : K)] (c : Ctx K) (ps : Point K n) (r l : Fin n → V2 K)
    (h : ∀ k, IsMassless c (ps k) (r k) (l k)) (t : Str n) (w : t.Wf) (hs : t.s ∉ t.ms.flatten)
    (hne : t.ms.length % 2 = 1 ∨ t.s ≠ t.e) (p q : Fin n) (hpq : FirstTwoFree t.labels p q) (X : K) {v : V2 K}
    (hv : computeOpenBegin ps (t.ms.map plusOf) t.e t.last = .ok v) (hv0 : v 0 ≠ 0)
    (hd : SpecSquare (l p) (l q) ≠ 0) (fuel : ℕ) :
    ∃ ps', setNB c (fuel + 1) ps t X true 1 = .ok ps' ∧ t.value ps' = .ok X ∧ GoodPoint c ps' ∧
      (∀ k, k ≠ t.s → k ≠ p → k ≠ q → ps' k = ps k) := by
  rw [openBegin_eq h w] at hv
  injection hv with hv
  obtain ⟨ps1, r1, l1, e1, h1, v1, o1, -, -, o1'⟩ := setHead_linear (h : Spin c ps r l) w hs hne X (by rw [hv]; exact hv0)
  have hsl : t.s ∈ t.labels := by simp [Str.labels]
  obtain ⟨np, nq⟩ := firstTwoFree_ne hpq hsl
  have hu := uniqueEnd_head hs hne
  refine setNB_head hpq ?_ (by rw [hu]; simp) (Or.inl (by rw [hu]; rfl)) e1 h1 v1 o1
  rw [(o1' p np.symm).2, (o1' q nq.symm).2]; exact hd

/-- The quadratic equation for the head. -/
theorem setHead_quadratic [NeZero (2 : K)] {c : Ctx K} {ps : Point K n} {r l : Fin n → V2 K} (h : Spin c ps r l)
    {t : Str n} (w : t.Wf) (hs : t.s ∉ t.ms.flatten) (hse : t.s = t.e) (hev : t.ms.length % 2 = 0) (X y : K)
    {M : M2 K} (hM : chain ps (t.first = '⟨') (t.ms.map plusOf) = M)
    (hy : (t.first = '⟨' → c.sqrt ((r t.s 1 * M 0 0 - r t.s 1 * M 1 1) * (r t.s 1 * M 0 0 - r t.s 1 * M 1 1) +
        4 * M 1 0 * (r t.s 1 * r t.s 1 * M 0 1 - X)) = some y ∧ M 1 0 ≠ 0) ∧
      (t.first = '[' → c.sqrt ((l t.s 1 * M 0 0 - l t.s 1 * M 1 1) * (l t.s 1 * M 0 0 - l t.s 1 * M 1 1) +
        4 * M 0 1 * (l t.s 1 * l t.s 1 * M 1 0 - X)) = some y ∧ M 0 1 ≠ 0)) :
    ∃ ps' r' l', setHead c ps t X = .ok ps' ∧ Spin c ps' r' l' ∧ t.value ps' = .ok X ∧
      (∀ k, k ≠ t.s → ps' k = ps k) ∧ (∀ k, k ≠ t.s → r' k = r k ∧ l' k = l k) ∧
      (t.first = '⟨' → l' = l) ∧ (t.first = '[' → r' = r) := by
  have h2 : (2 : K) ≠ 0 := NeZero.ne 2
  have occ : ∀ k, Occurs k (t.ms.map plusOf) → k ≠ t.s := fun k hk e => hs (e ▸ occurs_plus hk)
  rcases w with ⟨w1, w2⟩ | ⟨w1, w2⟩
  · obtain ⟨hy, hM0⟩ := hy.1 w1
    have hsq := c.sqrt_sq _ _ hy
    obtain ⟨q, e1, hq⟩ := setRd_massless (h t.s)
      ![(r t.s 1 * M 0 0 - r t.s 1 * M 1 1 + y) / (2 * M 1 0), r t.s 1]
    obtain ⟨ps1, e2, h1, o1⟩ := store_r h t.s e1 hq
    refine ⟨ps1, _, l, ?_, h1, ?_, o1, fun k hk => ⟨Function.update_of_ne hk _ _, rfl⟩, fun _ => rfl,
      fun e => by rw [w1] at e; exact absurd e (by decide)⟩
    · simp only [setHead, hM]
      rw [if_neg (by simp [w1]), if_pos ⟨hse, hev⟩, if_pos w1]
      simp only [(h t.s).r_d, need_some, hy, pyDiv_ok (mul_ne_zero h2 hM0), e2]
    · rw [Str.value_eq h1 (Or.inl ⟨w1, w2⟩), chain_congr' (fun k hk => o1 k (occ k hk)), hM]
      simp only [headSp, tailSp, w1, w2, hev, if_true, ← hse, Function.update_self, bil_eq,
        Matrix.cons_val_zero, Matrix.cons_val_one]
      congr 1
      field_simp
      linear_combination (-1 : K) * hsq
  · obtain ⟨hy, hM0⟩ := hy.2 w1
    have hsq := c.sqrt_sq _ _ hy
    obtain ⟨q, e1, hq⟩ := setLd_massless (h t.s)
      ![(l t.s 1 * M 0 0 - l t.s 1 * M 1 1 + y) / (2 * M 0 1), l t.s 1]
    obtain ⟨ps1, e2, h1, o1⟩ := store_l h t.s e1 hq
    have w1' : t.first ≠ '⟨' := by rw [w1]; decide
    refine ⟨ps1, r, _, ?_, h1, ?_, o1, fun k hk => ⟨rfl, Function.update_of_ne hk _ _⟩, fun e => absurd e w1',
      fun _ => rfl⟩
    · simp only [setHead, hM]
      rw [if_neg (by simp [w1]), if_pos ⟨hse, hev⟩, if_neg w1']
      simp only [(h t.s).l_d, need_some, hy, pyDiv_ok (mul_ne_zero h2 hM0), e2]
    · rw [Str.value_eq h1 (Or.inr ⟨w1, w2⟩), chain_congr' (fun k hk => o1 k (occ k hk)), hM]
      have : t.last ≠ '⟩' := by rw [w2, if_pos hev]; decide
      simp only [headSp, tailSp, w1', this, if_false, ← hse, Function.update_self, bil_eq,
        Matrix.cons_val_zero, Matrix.cons_val_one]
      congr 1
      field_simp
      linear_combination (-1 : K) * hsq

/-- C62: a string of an even number of slots whose head and tail are the same label, occurring in no
slot: the head is set through a quadratic equation, with either square root, so that the string is
`X`. The guards: the field has a root `y` of the discriminant, the coefficient of the square and the
bracket `[p|q]` are nonzero; `M` is the product of the slots, `u` is the second component of the lower
spinor that is set. -/
theorem C62_head_quadratic [NeZero (2 : K)] (c : Ctx K) (ps : Point K n) (r l : Fin n → V2 K)
    (h : ∀ k, IsMassless c (ps k) (r k) (l k)) (t : Str n) (w : t.Wf) (hs : t.s ∉ t.ms.flatten)
    (hse : t.s = t.e) (hev : t.ms.length % 2 = 0) (p q : Fin n) (hpq : FirstTwoFree t.labels p q) (X y : K)
    {M : M2 K} (hM : chain ps (t.first = '⟨') (t.ms.map plusOf) = M)
    (hy : (t.first = '⟨' → c.sqrt ((r t.s 1 * M 0 0 - r t.s 1 * M 1 1) * (r t.s 1 * M 0 0 - r t.s 1 * M 1 1) +
        4 * M 1 0 * (r t.s 1 * r t.s 1 * M 0 1 - X)) = some y ∧ M 1 0 ≠ 0) ∧
      (t.first = '[' → c.sqrt ((l t.s 1 * M 0 0 - l t.s 1 * M 1 1) * (l t.s 1 * M 0 0 - l t.s 1 * M 1 1) +
        4 * M 0 1 * (l t.s 1 * l t.s 1 * M 1 0 - X)) = some y ∧ M 0 1 ≠ 0))
    (hd : SpecSquare (l p) (l q) ≠ 0) (fuel : ℕ) :
    ∃ ps', setNB c (fuel + 1) ps t X true 1 = .ok ps' ∧ t.value ps' = .ok X ∧ GoodPoint c ps' ∧
      (∀ k, k ≠ t.s → k ≠ p → k ≠ q → ps' k = ps k) := by
  obtain ⟨ps1, r1, l1, e1, h1, v1, o1, o1', -⟩ := setHead_quadratic (h : Spin c ps r l) w hs hse hev X y hM hy
  have hsl : t.s ∈ t.labels := by simp [Str.labels]
  obtain ⟨np, nq⟩ := firstTwoFree_ne hpq hsl
  have hu : t.uniqueEnd = none := by
    unfold Str.uniqueEnd
    rw [if_neg, if_neg]
    · rintro ⟨-, h | h⟩
      · omega
      · exact h hse
    · rintro ⟨-, h | h⟩
      · omega
      · exact h hse
  refine setNB_head hpq ?_ (by rw [hu]; simp) (Or.inr ⟨hse, hs, hev⟩) e1 h1 v1 o1
  rw [(o1' p np.symm).2, (o1' q nq.symm).2]; exact hd

/-! ### The tail -/

theorem mirror_mirror {ch : Char} (h : ch = '⟨' ∨ ch = '⟩' ∨ ch = '[' ∨ ch = ']') : mirror (mirror ch) = ch := by
  rcases h with rfl | rfl | rfl | rfl <;> decide

theorem slotMat_reverse (f : Particle K → M2 K) (ps : Point K n) (m : List (Fin n)) :
    slotMat f ps (plusOf m.reverse) = slotMat f ps (plusOf m) := by
  unfold slotMat plusOf
  exact ((List.reverse_perm m).map _ |>.map _).sum_eq

theorem chain_mapReverse (ps : Point K n) (ms : List (List (Fin n))) (b : Bool) :
    chain ps b ((ms.map List.reverse).map plusOf) = chain ps b (ms.map plusOf) := by
  induction ms generalizing b with
  | nil => rfl
  | cons m ms ih =>
    rw [List.map_cons, List.map_cons, List.map_cons, chain_cons, chain_cons, ih, slotMat_reverse]

theorem Str.reverse_wf {t : Str n} (w : t.Wf) : t.reverse.Wf := by
  unfold Str.Wf Str.reverse
  simp only [List.length_reverse, List.length_map]
  rcases w with ⟨w1, w2⟩ | ⟨w1, w2⟩ <;> rw [w1, w2] <;> rcases Nat.mod_two_eq_zero_or_one t.ms.length with p | p <;>
    simp [p, mirror]

/-- The value of the reversed text. -/
theorem Str.reverse_value {c : Ctx K} {ps : Point K n} {r l : Fin n → V2 K} (h : Spin c ps r l) {t : Str n} (w : t.Wf)
    {x : K} (hx : t.reverse.value ps = .ok x) :
    t.value ps = .ok (if t.ms.length % 2 = 0 then -x else x) := by
  obtain ⟨ev, od⟩ := C18_reversal c ps (h t.s).toHasSpinors (h t.e).toHasSpinors (t.ms.map plusOf)
    (fun k _ => (h k).cons)
  rw [List.length_map] at ev od
  have key : ∀ f g, computeNB ps f t.e (t.ms.map plusOf).reverse t.s g =
      computeNB ps f t.e (t.reverse.ms.map plusOf) t.s g := by
    intro f g
    have : chain ps (decide (f = '⟨')) (t.ms.map plusOf).reverse = chain ps (decide (f = '⟨')) (t.reverse.ms.map plusOf) := by
      rw [← List.map_reverse, Str.reverse, ← List.map_reverse, chain_mapReverse]
    unfold computeNB
    rw [this]
    simp [Str.reverse]
  simp only [key] at ev od
  unfold Str.value at hx ⊢
  rcases w with ⟨w1, w2⟩ | ⟨w1, w2⟩ <;> rcases Nat.mod_two_eq_zero_or_one t.ms.length with p | p
  · obtain ⟨x', y', e1, e2, -, -⟩ := ev p
    rw [w1, w2, if_pos p, if_pos p, e1]
    have : (Except.ok x : Except Err K) = .ok (-x') := by
      rw [← hx, ← e2]; simp [Str.reverse, w1, w2, p, mirror]
    injection this with this; rw [this, neg_neg]
  · obtain ⟨x', e1, e2⟩ := od p
    rw [w1, w2, if_neg (by omega), if_neg (by omega), e1]
    have : (Except.ok x : Except Err K) = .ok x' := by
      rw [← hx, ← e2]; simp [Str.reverse, w1, w2, p, mirror]
    rw [this]
  · obtain ⟨x', y', -, -, e1, e2⟩ := ev p
    rw [w1, w2, if_pos p, if_pos p, e1]
    have : (Except.ok x : Except Err K) = .ok (-y') := by
      rw [← hx, ← e2]; simp [Str.reverse, w1, w2, p, mirror]
    injection this with this; rw [this, neg_neg]
  · obtain ⟨ev', od'⟩ := C18_reversal c ps (h t.e).toHasSpinors (h t.s).toHasSpinors (t.reverse.ms.map plusOf)
      (fun k _ => (h k).cons)
    have hl : (t.reverse.ms.map plusOf).length % 2 = 1 := by simp [Str.reverse, p]
    obtain ⟨x', e1, e2⟩ := od' hl
    have : computeNB ps '[' t.s (t.reverse.ms.map plusOf).reverse t.e '⟩' =
        computeNB ps '[' t.s (t.ms.map plusOf) t.e '⟩' := by
      have : chain ps false (t.reverse.ms.map plusOf).reverse = chain ps false (t.ms.map plusOf) := by
        rw [← List.map_reverse, Str.reverse, List.reverse_reverse, chain_mapReverse]
      unfold computeNB
      rw [show (decide ('[' = '⟨')) = false from by decide, this]
      simp [Str.reverse]
    rw [w1, w2, if_neg (by omega), if_neg (by omega), ← this, e2]
    have : (Except.ok x : Except Err K) = .ok x' := by
      rw [← hx, ← e1]; simp [Str.reverse, w1, w2, p, mirror]
    rw [this]

theorem reverse_flatten (ms : List (List (Fin n))) (k : Fin n) :
    k ∈ ((ms.map List.reverse).reverse).flatten ↔ k ∈ ms.flatten := by
  simp only [List.mem_flatten, List.mem_reverse, List.mem_map]
  constructor
  · rintro ⟨_, ⟨m, hm, rfl⟩, hk⟩; exact ⟨m, hm, List.mem_reverse.mp hk⟩
  · rintro ⟨m, hm, hk⟩; exact ⟨_, ⟨m, hm, rfl⟩, List.mem_reverse.mpr hk⟩

theorem freeLabels_congr {xs ys : List (Fin n)} (h : ∀ k, k ∈ xs ↔ k ∈ ys) : freeLabels xs = freeLabels ys := by
  unfold freeLabels
  exact List.filter_congr fun k _ => by simp [h k]

theorem firstTwoFree_congr {xs ys : List (Fin n)} (h : ∀ k, k ∈ xs ↔ k ∈ ys) {p q : Fin n}
    (hx : FirstTwoFree xs p q) : FirstTwoFree ys p q := by
  obtain ⟨a, b, d, e⟩ := hx
  exact ⟨fun hk => a ((h p).mpr hk), fun hk => b ((h q).mpr hk), d, fun k hk => e k fun hk' => hk ((h k).mp hk')⟩

theorem reverse_labels (t : Str n) (k : Fin n) : k ∈ t.labels ↔ k ∈ t.reverse.labels := by
  simp only [Str.labels, Str.reverse, List.mem_cons, List.mem_append, reverse_flatten, List.not_mem_nil, or_false]
  tauto

/-- C62: a string of which only the tail occurs once is handed to the same method with its text
reversed and the same value. With an odd number of slots this sets the string to `X`. With an even
number reversal changes the sign, and the string is set to `-X`: the method is wrong there (and
`_set` raises unless `2X` is within the tolerance). -/
theorem C62_tail_partial [NeZero (2 : K)] (c : Ctx K) (ps : Point K n) (r l : Fin n → V2 K)
    (h : ∀ k, IsMassless c (ps k) (r k) (l k)) (t : Str n) (w : t.Wf) (hs : t.s ∈ t.ms.flatten)
    (he : t.e ∉ t.ms.flatten) (p q : Fin n) (hpq : FirstTwoFree t.labels p q) (X : K) {v : V2 K}
    (hv : computeOpenBegin ps (t.reverse.ms.map plusOf) t.s t.reverse.last = .ok v) (hv0 : v 0 ≠ 0)
    (hd : SpecSquare (l p) (l q) ≠ 0) (fuel : ℕ) :
    ∃ ps', setNB c (fuel + 2) ps t X true 1 = .ok ps' ∧
      t.value ps' = .ok (if t.ms.length % 2 = 0 then -X else X) ∧ GoodPoint c ps' ∧
      (∀ k, k ≠ t.e → k ≠ p → k ≠ q → ps' k = ps k) := by
  have hne : t.s ≠ t.e := fun e => he (e ▸ hs)
  have hu : t.uniqueEnd = some true := by
    unfold Str.uniqueEnd
    rw [if_neg (fun hh => hh.1 hs), if_pos ⟨he, Or.inr hne⟩]
  obtain ⟨ps', e, hval, hg, ho⟩ := C62_head_linear c ps r l h t.reverse (Str.reverse_wf w)
    (fun hk => he ((reverse_flatten t.ms t.e).mp hk)) (Or.inr hne.symm) p q (firstTwoFree_congr (reverse_labels t) hpq)
    X hv hv0 hd fuel
  refine ⟨ps', ?_, ?_, hg, ho⟩
  · rw [setNB]
    simp only [noFlip hpq, false_and, if_false, Option.getD_none, Option.isSome_none, Bool.false_eq_true]
    rw [if_pos (Or.inl ⟨Or.inl (by rw [hu]; rfl), trivial⟩), if_pos hu]
    exact e
  · obtain ⟨-, r', l', hr'⟩ := hg
    exact Str.reverse_value hr' w hval

/-! ### Rewriting a slot through momentum conservation -/

theorem perm_free {m : List (Fin n)} (hm : m.Nodup) : (m ++ freeLabels m).Perm (List.finRange n) := by
  refine (List.perm_ext_iff_of_nodup ?_ (List.nodup_finRange n)).mpr ?_
  · refine List.nodup_append.mpr ⟨hm, (List.nodup_finRange n).filter _, ?_⟩
    rintro a ha b hb rfl
    exact (mem_freeLabels m a).mp hb ha
  · intro k
    simp only [List.mem_append, mem_freeLabels, List.mem_finRange, iff_true]
    tauto

theorem flip_value_core {c : Ctx K} {ps : Point K n} {r l : Fin n → V2 K} (h : Spin c ps r l) (hc : Conserves ps)
    (s e : Fin n) (f g : Char) (hf : f = '⟨' ∨ f = '[') (hg : g = '⟩' ∨ g = ']') (pre post : List (List (Fin n)))
    {m alt : List (Fin n)} (hm : m.Nodup)
    (ha : alt = freeLabels m ∨ (pre = [] ∧ alt = freeLabels (m ++ [s])) ∨ (post = [] ∧ alt = freeLabels (m ++ [e])))
    {x : K} (hx : computeNB ps f s ((pre ++ m :: post).map plusOf) e g = .ok x) :
    computeNB ps f s ((pre ++ alt :: post).map plusOf) e g = .ok (-x) := by
  have hcomp : ∀ m' : List (Fin n), m'.Nodup → ∀ y : K,
      computeNB ps f s (pre.map plusOf ++ plusSlot m' :: post.map plusOf) e g = .ok y →
      computeNB ps f s (pre.map plusOf ++ plusSlot (freeLabels m') :: post.map plusOf) e g = .ok (-y) :=
    fun m' hm' y hy => C19_complement_in_slot c ps (fun k => (h k).cons) hc (h s).toHasSpinors (h e).toHasSpinors
      (pre.map plusOf) (post.map plusOf) (perm_free hm') f g hy
  have em : ∀ m' : List (Fin n), (pre ++ m' :: post).map plusOf = pre.map plusOf ++ plusSlot m' :: post.map plusOf := by
    intro m'; rw [List.map_append, List.map_cons]; rfl
  rw [em] at hx ⊢
  rcases ha with ha | ⟨hp, ha⟩ | ⟨hp, ha⟩
  · rw [ha]; exact hcomp m hm x hx
  · by_cases hs : s ∈ m
    · have : freeLabels (m ++ [s]) = freeLabels m := freeLabels_congr fun k => by
        simp only [List.mem_append, List.mem_singleton]
        exact ⟨fun h => h.elim id (fun h => h ▸ hs), Or.inl⟩
      rw [ha, this]; exact hcomp m hm x hx
    · have e1 : freeLabels (m ++ [s]) = freeLabels (s :: m) := freeLabels_congr fun k => by
        simp only [List.mem_append, List.mem_cons, List.not_mem_nil, or_false]; tauto
      rw [ha, e1]
      refine hcomp (s :: m) (List.nodup_cons.mpr ⟨hs, hm⟩) x ?_
      rw [← hx, hp]
      exact (C19_end_label_drops c ps (h s) (h e) (plusSlot m) (post.map plusOf) true f g hf hg).1
  · by_cases hs : e ∈ m
    · have : freeLabels (m ++ [e]) = freeLabels m := freeLabels_congr fun k => by
        simp only [List.mem_append, List.mem_singleton]
        exact ⟨fun h => h.elim id (fun h => h ▸ hs), Or.inl⟩
      rw [ha, this]; exact hcomp m hm x hx
    · have e1 : freeLabels (m ++ [e]) = freeLabels (e :: m) := freeLabels_congr fun k => by
        simp only [List.mem_append, List.mem_cons, List.not_mem_nil, or_false]; tauto
      rw [ha, e1]
      refine hcomp (e :: m) (List.nodup_cons.mpr ⟨hs, hm⟩) x ?_
      rw [← hx, hp]
      exact (C19_end_label_drops c ps (h s) (h e) (plusSlot m) (pre.map plusOf) true f g hf hg).2

theorem Str.Wf.chars {t : Str n} (w : t.Wf) : (t.first = '⟨' ∨ t.first = '[') ∧ (t.last = '⟩' ∨ t.last = ']') := by
  rcases w with ⟨w1, w2⟩ | ⟨w1, w2⟩ <;> rw [w1, w2] <;> split <;> simp

/-- C62: when fewer than two labels are free, a slot is replaced by the labels that remain (and the end
next to it left out) and the value negated. On every point that conserves momentum the replaced
string is minus the original one, so that setting the former to `-X` is setting the latter to `X`. -/
theorem C62_rewritten_slot (c : Ctx K) (ps : Point K n) (t₀ t : Str n) (w : t₀.Wf) (hnd : ∀ m ∈ t₀.ms, m.Nodup)
    (hfew : (freeLabels t₀.labels).length < 2) (hf : t₀.findFlip = some t) (X : K) (mode fuel : ℕ) :
    setNB c (fuel + 1) ps t₀ X true mode = setNB c (fuel + 1) ps t (-X) true mode ∧ t.Wf ∧
      2 ≤ (freeLabels t.labels).length ∧
      ∀ ps', GoodPoint c ps' → ∀ x, t.value ps' = .ok (-x) → t₀.value ps' = .ok x := by
  unfold Str.findFlip at hf
  rw [Option.map_eq_some_iff] at hf
  obtain ⟨i, hi, rfl⟩ := hf
  have hfree := List.find?_some hi
  have hir : i < t₀.ms.length := List.mem_range.mp (List.mem_of_find?_eq_some hi)
  simp only [decide_eq_true_eq] at hfree
  have w' : ({ t₀ with ms := t₀.flip i } : Str n).Wf := by
    have : (t₀.flip i).length = t₀.ms.length := by simp [Str.flip]
    unfold Str.Wf at w ⊢
    simp only [this]
    exact w
  refine ⟨?_, w', hfree, ?_⟩
  · have h1 : ¬ (freeLabels ({ t₀ with ms := t₀.flip i } : Str n).labels).length < 2 := by omega
    have h2 : t₀.findFlip = some { t₀ with ms := t₀.flip i } := by
      unfold Str.findFlip; rw [hi]; rfl
    conv_lhs => rw [setNB]
    conv_rhs => rw [setNB]
    simp only [hfew, h1, true_and, false_and, if_false, if_true, h2, Option.getD_some, Option.getD_none,
      Option.isSome_some, Option.isSome_none, Bool.false_eq_true]
  · rintro ps' ⟨hc, r, l, h⟩ x hx
    have hsp : t₀.ms = t₀.ms.take i ++ t₀.ms[i] :: t₀.ms.drop (i + 1) := by
      rw [List.getElem_cons_drop, List.take_append_drop]
    have hset : ∀ alt, t₀.ms.set i alt = t₀.ms.take i ++ alt :: t₀.ms.drop (i + 1) :=
      fun alt => List.set_eq_take_append_cons_drop.trans (if_pos hir)
    have hv := Str.value_eq (h : Spin c ps' r l) w
    set y := bil (headSp r l t₀) (chain ps' (t₀.first = '⟨') (t₀.ms.map plusOf)) (tailSp r l t₀)
    have hgd : t₀.ms.getD i [] = t₀.ms[i] := by simp [List.getD, List.getElem?_eq_getElem hir]
    have hv' : computeNB ps' t₀.first t₀.s ((t₀.ms.take i ++ t₀.ms[i] :: t₀.ms.drop (i + 1)).map plusOf) t₀.e t₀.last = .ok y := by
      rw [← hsp]; exact hv
    have key := flip_value_core h hc t₀.s t₀.e t₀.first t₀.last w.chars.1 w.chars.2 (t₀.ms.take i) (t₀.ms.drop (i + 1))
      (m := t₀.ms[i]) (hnd _ (List.getElem_mem hir))
      (alt := if i = 0 then freeLabels (t₀.ms[i] ++ [t₀.s]) else
        if i = t₀.ms.length - 1 then freeLabels (t₀.ms[i] ++ [t₀.e]) else freeLabels t₀.ms[i])
      (by
        by_cases h0 : i = 0
        · right; left; rw [if_pos h0]; exact ⟨by rw [h0]; rfl, rfl⟩
        · rw [if_neg h0]
          by_cases h1 : i = t₀.ms.length - 1
          · right; right; rw [if_pos h1]; exact ⟨List.drop_eq_nil_of_le (by omega), rfl⟩
          · left; rw [if_neg h1]) hv'
    have ev : ({ t₀ with ms := t₀.flip i } : Str n).value ps' = .ok (-y) := by
      unfold Str.value Str.flip
      simp only [hset, hgd]
      exact key
    rw [ev] at hx
    injection hx with hx
    rw [neg_inj] at hx
    rw [hv, hx]

/-! ### C63 -/

/-- Setting `⟨A|B⟩` without fixing momentum. -/
theorem setA2_nofix [NeZero (2 : K)] {c : Ctx K} {ps : Point K n} {r l : Fin n → V2 K} (h : Spin c ps r l)
    {A B : Fin n} (X : K) (hA : r A 1 ≠ 0) :
    ∃ ps' r', setA2 c ps A B X false = .ok ps' ∧ Spin c ps' r' l ∧ SpecAngle (r A) (r' B) = X ∧
      ∀ k, k ≠ B → ps' k = ps k ∧ r' k = r k := by
  obtain ⟨b, e1, hb⟩ := setRd_massless (h B) ![(X - (-r A 0) * r B 1) / r A 1, r B 1]
  obtain ⟨ps1, e2, h1, o1⟩ := store_r h B e1 hb
  refine ⟨ps1, _, ?_, h1, ?_, fun k hk => ⟨o1 k hk, Function.update_of_ne hk _ _⟩⟩
  · simp only [setA2, (h A).r_u, (h B).r_d, need_some, Matrix.cons_val_zero, Matrix.cons_val_one,
      pyDiv_ok hA, e2, fixIf]
    simp
  · rw [Function.update_self]
    simp only [SpecAngle, Matrix.cons_val_zero, Matrix.cons_val_one]
    field_simp; ring

/-- Setting `[A|B]` without fixing momentum. -/
theorem setS2_nofix [NeZero (2 : K)] {c : Ctx K} {ps : Point K n} {r l : Fin n → V2 K} (h : Spin c ps r l)
    {A B : Fin n} (X : K) (hA : l A 0 ≠ 0) :
    ∃ ps' l', setS2 c ps A B X false = .ok ps' ∧ Spin c ps' r l' ∧ SpecSquare (l A) (l' B) = X ∧
      ∀ k, k ≠ B → ps' k = ps k ∧ l' k = l k := by
  obtain ⟨b, e1, hb⟩ := setLu_massless (h B) ![(X - l A 1 * (-l B 0)) / l A 0, -l B 0]
  obtain ⟨ps1, e2, h1, o1⟩ := store_l h B e1 hb
  refine ⟨ps1, _, ?_, h1, ?_, fun k hk => ⟨o1 k hk, Function.update_of_ne hk _ _⟩⟩
  · simp only [setS2, (h A).l_d, (h B).l_u, need_some, Matrix.cons_val_zero, Matrix.cons_val_one,
      pyDiv_ok hA, e2, fixIf]
    simp
  · rw [Function.update_self]
    simp only [SpecSquare, Matrix.cons_val_zero, Matrix.cons_val_one]
    field_simp; ring

/-- A string split at the first label of its first slot. -/
theorem split_angle {c : Ctx K} {ps : Point K n} {r l : Fin n → V2 K} (h : Spin c ps r l) (s b : Fin n)
    (zs : List (Fin n)) (rest : List (Slot n)) (w : V2 K) :
    bil ![r s 1, -r s 0] (chain ps true (plusOf (b :: zs) :: rest)) w =
      SpecAngle (r s) (r b) * bil (l b) (chain ps false rest) w +
        bil ![r s 1, -r s 0] (slotMat Particle.r2b ps (plusOf zs) * chain ps false rest) w := by
  have : plusOf (b :: zs) = (true, b) :: plusOf zs := rfl
  rw [chain, this, slotMat_cons, if_pos rfl, add_mul, bil_add, (h b).r2b, bil_mul, vecMul_outer, bil_smul_left, dot2_angle]

theorem split_square {c : Ctx K} {ps : Point K n} {r l : Fin n → V2 K} (h : Spin c ps r l) (s b : Fin n)
    (zs : List (Fin n)) (rest : List (Slot n)) (w : V2 K) :
    bil (l s) (chain ps false (plusOf (b :: zs) :: rest)) w =
      SpecSquare (l s) (l b) * bil ![r b 1, -r b 0] (chain ps true rest) w +
        bil (l s) (slotMat Particle.r2 ps (plusOf zs) * chain ps true rest) w := by
  have : plusOf (b :: zs) = (true, b) :: plusOf zs := rfl
  rw [chain, this, slotMat_cons, if_pos rfl, add_mul, bil_add, (h b).r2, bil_mul, vecMul_outer, bil_smul_left, dot2_square]

/-- What stands behind the label `b` of the first slot: `[b|...` for a string that begins with an
angle bracket, `⟨b|...` otherwise. -/
theorem endOfPart_eq {c : Ctx K} {ps : Point K n} {r l : Fin n → V2 K} (h : Spin c ps r l) {t : Str n} (w : t.Wf)
    {m : List (Fin n)} {rest : List (List (Fin n))} (hms : t.ms = m :: rest) (b : Fin n) :
    endOfPart ps t.first b rest t.e t.last = .ok (if t.first = '⟨' then bil (l b) (chain ps false (rest.map plusOf)) (tailSp r l t)
      else bil ![r b 1, -r b 0] (chain ps true (rest.map plusOf)) (tailSp r l t)) := by
  obtain ⟨h1, h2, h3, h4⟩ := computeNB_ok c ps (h b).toHasSpinors (h t.e).toHasSpinors (rest.map plusOf)
  rw [List.length_map] at h1 h2 h3 h4
  have hl : t.ms.length = rest.length + 1 := by rw [hms]; rfl
  unfold tailSp
  rcases w with ⟨w1, w2⟩ | ⟨w1, w2⟩ <;> rw [hl] at w2 <;> rcases Nat.mod_two_eq_zero_or_one rest.length with p | p
  · rw [if_neg (by omega)] at w2
    cases rest with
    | nil => simp [endOfPart, w1, w2, square, (h b).l_d, (h t.e).l_u, chain, bil_one]
    | cons a as =>
      simp only [endOfPart, w1, w2, if_true]
      rw [h3 p]; simp
  · rw [if_pos (by omega)] at w2
    cases rest with
    | nil => simp at p
    | cons a as =>
      simp only [endOfPart, w1, w2, if_true]
      rw [h4 p]
  · rw [if_neg (by omega)] at w2
    cases rest with
    | nil => simp [endOfPart, w1, w2, angle, (h b).r_u, (h t.e).r_d, chain, bil_one]
    | cons a as =>
      simp only [endOfPart, w1, w2, if_true]
      simp only [show ('[' : Char) ≠ '⟨' from by decide, if_false]
      rw [h1 p]
  · rw [if_pos (by omega)] at w2
    cases rest with
    | nil => simp at p
    | cons a as =>
      simp only [endOfPart, w1, w2]
      simp only [show ('[' : Char) ≠ '⟨' from by decide, if_false, show (']' : Char) ≠ '⟩' from by decide]
      rw [h2 p]

end Lips

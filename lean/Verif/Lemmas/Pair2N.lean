import Verif.Model.Pair2N
import Verif.Lemmas.Pair33
import Verif.Props.SetPairFix

/-! Helper lemmas on setting a two-bracket and a spinor string. -/

namespace Lips

open Matrix

set_option linter.unusedSectionVars false

variable {K Γ : Type*} [Field K] [LinearOrder Γ] {n : ℕ}

/-- Only one spinor changed: the angle spinor of particle `k` if `ang`, else its square spinor. -/
structure OneSpinor (c : Ctx K) (ps ps' : Point K n) (r l r' l' : Fin n → V2 K) (k : Fin n) (ang : Bool) : Prop where
  after : Spin c ps' r' l'
  rest : ∀ j, j ≠ k → ps' j = ps j ∧ r' j = r j ∧ l' j = l j
  kept : if ang then l' = l else r' = r

theorem store_rd [NeZero (2 : K)] {c : Ctx K} {ps ps' : Point K n} {r l : Fin n → V2 K} (h : Spin c ps r l) {k : Fin n}
    {s : V2 K} (e : store ps k (setRd c (ps k) s) = .ok ps') : ∃ r', OneSpinor c ps ps' r l r' l k true := by
  obtain ⟨q, e1, hq⟩ := setRd_massless (h k) s
  obtain ⟨ps1, e2, h1, o1⟩ := store_r h k e1 hq
  rw [e2] at e; injection e with e; subst e
  exact ⟨_, h1, fun j hj => ⟨o1 j hj, Function.update_of_ne hj _ _, rfl⟩, by simp⟩

theorem store_ru [NeZero (2 : K)] {c : Ctx K} {ps ps' : Point K n} {r l : Fin n → V2 K} (h : Spin c ps r l) {k : Fin n}
    {s : V2 K} (e : store ps k (setRu c (ps k) s) = .ok ps') : ∃ r', OneSpinor c ps ps' r l r' l k true := by
  obtain ⟨q, e1, hq⟩ := setRu_massless (h k) s
  obtain ⟨ps1, e2, h1, o1⟩ := store_r h k e1 hq
  rw [e2] at e; injection e with e; subst e
  exact ⟨_, h1, fun j hj => ⟨o1 j hj, Function.update_of_ne hj _ _, rfl⟩, by simp⟩

theorem store_ld [NeZero (2 : K)] {c : Ctx K} {ps ps' : Point K n} {r l : Fin n → V2 K} (h : Spin c ps r l) {k : Fin n}
    {s : V2 K} (e : store ps k (setLd c (ps k) s) = .ok ps') : ∃ l', OneSpinor c ps ps' r l r l' k false := by
  obtain ⟨q, e1, hq⟩ := setLd_massless (h k) s
  obtain ⟨ps1, e2, h1, o1⟩ := store_l h k e1 hq
  rw [e2] at e; injection e with e; subst e
  exact ⟨_, h1, fun j hj => ⟨o1 j hj, rfl, Function.update_of_ne hj _ _⟩, by simp⟩

theorem store_lu [NeZero (2 : K)] {c : Ctx K} {ps ps' : Point K n} {r l : Fin n → V2 K} (h : Spin c ps r l) {k : Fin n}
    {s : V2 K} (e : store ps k (setLu c (ps k) s) = .ok ps') : ∃ l', OneSpinor c ps ps' r l r l' k false := by
  obtain ⟨q, e1, hq⟩ := setLu_massless (h k) s
  obtain ⟨ps1, e2, h1, o1⟩ := store_l h k e1 hq
  rw [e2] at e; injection e with e; subst e
  exact ⟨_, h1, fun j hj => ⟨o1 j hj, rfl, Function.update_of_ne hj _ _⟩, by simp⟩

/-- Whatever `_set_A2` does, without restoring momentum conservation. -/
theorem setA2_only [NeZero (2 : K)] {c : Ctx K} {ps ps' : Point K n} {r l : Fin n → V2 K} (h : Spin c ps r l) {A B : Fin n}
    {X : K} (e : setA2 c ps A B X false = .ok ps') : ∃ r', OneSpinor c ps ps' r l r' l B true := by
  simp only [setA2, (h A).r_u, (h B).r_d, need_some, fixIf] at e
  split at e
  · cases e
  · split at e
    · cases e
    · rename_i hs
      simp only [Bool.false_eq_true, if_false] at e
      injection e with e; subst e
      exact store_rd h hs

/-- Whatever `_set_S2` does, without restoring momentum conservation. -/
theorem setS2_only [NeZero (2 : K)] {c : Ctx K} {ps ps' : Point K n} {r l : Fin n → V2 K} (h : Spin c ps r l) {A B : Fin n}
    {X : K} (e : setS2 c ps A B X false = .ok ps') : ∃ l', OneSpinor c ps ps' r l r l' B false := by
  simp only [setS2, (h A).l_d, (h B).l_u, need_some, fixIf] at e
  split at e
  · cases e
  · split at e
    · cases e
    · rename_i hs
      simp only [Bool.false_eq_true, if_false] at e
      injection e with e; subst e
      exact store_lu h hs

/-- Whatever setting the head does. -/
theorem setHead_only [NeZero (2 : K)] {c : Ctx K} {ps ps' : Point K n} {r l : Fin n → V2 K} (h : Spin c ps r l) {t : Str n}
    {X : K} (e : setHead c ps t X = .ok ps') :
    ∃ r' l', OneSpinor c ps ps' r l r' l' t.s (decide (t.first = '⟨')) := by
  unfold setHead at e
  split_ifs at e with h0 h1 h2
  · cases hr : need (ps t.s).r_d with
    | error er => simp [hr] at e
    | ok rr =>
      simp only [hr] at e
      split at e
      · cases e
      · split at e
        · cases e
        · obtain ⟨r', o⟩ := store_rd h e
          exact ⟨r', l, by rw [decide_eq_true h2]; exact o⟩
  · cases hr : need (ps t.s).l_d with
    | error er => simp [hr] at e
    | ok rr =>
      simp only [hr] at e
      split at e
      · cases e
      · split at e
        · cases e
        · obtain ⟨l', o⟩ := store_ld h e
          exact ⟨r, l', by rw [decide_eq_false h2]; exact o⟩
  all_goals
    dsimp only at e
    split at e
    · cases e
    · split at e
      · cases e
      · split at e
        · cases e
        · first
          | (obtain ⟨r', o⟩ := store_ru h e; exact ⟨r', l, by rw [decide_eq_true (by assumption)]; exact o⟩)
          | (obtain ⟨l', o⟩ := store_ld h e; exact ⟨r, l', by rw [decide_eq_false (by assumption)]; exact o⟩)

/-- Setting a head that is not the same spinor as the tail keeps one of its components. -/
theorem setHead_component [NeZero (2 : K)] {c : Ctx K} {ps ps' : Point K n} {r l : Fin n → V2 K} (h : Spin c ps r l) {t : Str n}
    {X : K} (hq : ¬(t.s = t.e ∧ t.ms.length % 2 = 0)) (e : setHead c ps t X = .ok ps') :
    ∃ r' l', OneSpinor c ps ps' r l r' l' t.s (decide (t.first = '⟨')) ∧
      if t.first = '⟨' then r' t.s 0 = r t.s 0 else l' t.s 1 = l t.s 1 := by
  unfold setHead at e
  by_cases h0 : t.first ≠ '⟨' ∧ t.first ≠ '['
  · rw [if_pos h0] at e; cases e
  rw [if_neg h0] at e
  dsimp only at e
  rw [if_neg hq] at e
  clear hq
  generalize (if t.last = '⟩' then need (ps t.e).r_d else need (ps t.e).l_u) = y at e
  cases y with
  | error er => cases e
  | ok y =>
    dsimp only at e
    by_cases h2 : t.first = '⟨'
    · rw [if_pos h2] at e
      simp only [(h t.s).r_u, need_some] at e
      split at e
      · cases e
      · rename_i x hx
        obtain ⟨q, e1, hq⟩ := setRu_massless (h t.s) ![x, (![r t.s 1, -r t.s 0] : V2 K) 1]
        obtain ⟨ps1, e2, h1, o1⟩ := store_r h t.s e1 hq
        rw [e2] at e; injection e with e; subst e
        refine ⟨_, l, ⟨h1, fun j hj => ⟨o1 j hj, Function.update_of_ne hj _ _, rfl⟩, by simp [h2]⟩, ?_⟩
        rw [if_pos h2]; simp
    · rw [if_neg h2] at e
      simp only [(h t.s).l_d, need_some] at e
      split at e
      · cases e
      · rename_i x hx
        obtain ⟨q, e1, hq⟩ := setLd_massless (h t.s) ![x, l t.s 1]
        obtain ⟨ps1, e2, h1, o1⟩ := store_l h t.s e1 hq
        rw [e2] at e; injection e with e; subst e
        refine ⟨r, _, ⟨h1, fun j hj => ⟨o1 j hj, rfl, Function.update_of_ne hj _ _⟩, by simp [h2]⟩, ?_⟩
        rw [if_neg h2]; simp

/-- Whatever setting through a slot does: the first label `b` of the rewritten string changes. -/
theorem setMiddle_only [NeZero (2 : K)] {c : Ctx K} {ps ps' : Point K n} {r l : Fin n → V2 K} (h : Spin c ps r l) {t : Str n}
    {i j : ℕ} {X : K} (e : setMiddle c ps t i j X = .ok ps') :
    ∃ b zs rest, (t.toFirst i j).ms = (b :: zs) :: rest ∧
      ∃ r' l', OneSpinor c ps ps' r l r' l' b (decide (t.first = '⟨')) := by
  unfold setMiddle at e
  dsimp only at e
  split at e
  · rename_i b zs rest hms
    refine ⟨b, zs, rest, hms, ?_⟩
    split at e
    · split at e
      · cases e
      · split_ifs at e with h1 h2
        · obtain ⟨r', o⟩ := setA2_only h e
          exact ⟨r', l, by rw [decide_eq_true h1]; exact o⟩
        · obtain ⟨l', o⟩ := setS2_only h e
          exact ⟨r, l', by rw [decide_eq_false h1]; exact o⟩
    · cases e
    · cases e
    · cases e
  · cases e

/-- Restoring momentum conservation succeeds only if the bracket of the two particles is not zero. -/
theorem fixAxis1_ne {c : Ctx K} {ps ps' : Point K n} {r l : Fin n → V2 K} (h : Spin c ps r l) {p q : Fin n}
    (e : fixAxis1 c ps p q = .ok ps') : SpecSquare (l p) (l q) ≠ 0 := by
  intro h0
  have hs : square (ps p) (ps q) = .ok (SpecSquare (l p) (l q)) := twoVal_eq h false p q
  rw [h0] at hs
  simp [fixAxis1, (h q).l_d, hs, bind, Except.bind, throw, throwThe, MonadExceptOf.throw] at e

theorem fixAxis2_ne {c : Ctx K} {ps ps' : Point K n} {r l : Fin n → V2 K} (h : Spin c ps r l) {p q : Fin n}
    (e : fixAxis2 c ps p q = .ok ps') : SpecAngle (r p) (r q) ≠ 0 := by
  intro h0
  have hs : angle (ps p) (ps q) = .ok (SpecAngle (r p) (r q)) := twoVal_eq h true p q
  rw [h0] at hs
  simp [fixAxis2, (h q).r_d, hs, bind, Except.bind, throw, throwThe, MonadExceptOf.throw] at e

/-! ### Which spinor setting a string changes -/

/-- The particle whose spinor `_set_NB` changes, and whether that is its angle spinor. -/
def Str.moved (t : Str n) (mode : ℕ) : Fin n × Bool :=
  if ((t.uniqueEnd.isSome = true ∨ (t.s = t.e ∧ t.s ∉ t.ms.flatten ∧ t.ms.length % 2 = 0)) ∧ mode = 1) ∨ t.uniqueMiddle = none then
    if t.uniqueEnd = some true then (t.e, decide (t.last = '⟩')) else (t.s, decide (t.first = '⟨'))
  else
    match t.uniqueMiddle with
    | some (i, j) => ((t.ms.getD i []).getD j t.s, decide (t.first = '⟨'))
    | none => (t.s, decide (t.first = '⟨'))

theorem toFront_head {l zs : List (Fin n)} {j : ℕ} {b d : Fin n} (h : toFront l j = b :: zs) : l.getD j d = b ∨ l[j]? = none := by
  unfold toFront at h
  split at h
  · rename_i x xs y e1 e2
    left
    simp only [List.getD, e2, Option.getD_some]
    cases j with
    | zero => simp at h e2; exact e2 ▸ h.1
    | succ j => simp at h; exact h.1
  · rename_i hx
    exact Or.inr (Option.eq_none_iff_forall_ne_some.mpr fun y hj => hx b zs y h hj)

theorem getD_lt {ms : List (List (Fin n))} {i : ℕ} (hi : i < ms.length) : ms.getD i [] = ms[i] := by
  simp [List.getD, List.getElem?_eq_getElem hi]

theorem getD_ge {ms : List (List (Fin n))} {i : ℕ} (hi : ms.length ≤ i) : ms.getD i [] = [] := by
  simp [List.getD, List.getElem?_eq_none hi]

theorem findIdx_some {l : List (Fin n)} {f : Fin n → Bool} {j : ℕ} (h : l.findIdx? f = some j) :
    ∃ x, l[j]? = some x ∧ f x = true := by
  rw [List.findIdx?_eq_some_iff_getElem] at h
  obtain ⟨hj, h1, -⟩ := h
  exact ⟨l[j], by simp [hj], h1⟩

/-- The label that is found, at either end. -/
theorem uniqueMiddle_label {t : Str n} {i j : ℕ} (h : t.uniqueMiddle = some (i, j)) :
    (i = 0 ∨ i = t.ms.length - 1) ∧ ∃ x, (t.ms.getD i [])[j]? = some x ∧ x ≠ t.s ∧ x ≠ t.e ∧ x ∉ (t.ms.eraseIdx i).flatten := by
  unfold Str.uniqueMiddle at h
  split at h
  · rename_i j' hj
    simp only [Option.some.injEq, Prod.mk.injEq] at h
    obtain ⟨rfl, rfl⟩ := h
    obtain ⟨x, e1, e2⟩ := findIdx_some hj
    exact ⟨Or.inl rfl, x, e1, by simpa using e2⟩
  · simp only [Option.map_eq_some_iff, Prod.mk.injEq] at h
    obtain ⟨j', hj, rfl, rfl⟩ := h
    obtain ⟨x, e1, e2⟩ := findIdx_some hj
    exact ⟨Or.inr rfl, x, e1, by simpa using e2⟩

theorem toFirst_head {t : Str n} {i j : ℕ} (h : t.uniqueMiddle = some (i, j)) {b : Fin n} {zs : List (Fin n)}
    {rest : List (List (Fin n))} (hm : (t.toFirst i j).ms = (b :: zs) :: rest) : (t.ms.getD i []).getD j t.s = b := by
  obtain ⟨hi, x, hx, -⟩ := uniqueMiddle_label h
  have hne : t.ms ≠ [] := by rintro e; simp [e, List.getD] at hx
  have key : toFront (t.ms.getD i []) j = b :: zs := by
    unfold Str.toFirst at hm
    dsimp only at hm
    by_cases h0 : i = 0
    · rw [if_pos h0] at hm
      subst h0
      cases hms : t.ms with
      | nil => exact absurd hms hne
      | cons m ms =>
        simp only [hms, List.getD_cons_zero, List.set_cons_zero, List.cons.injEq] at hm
        simpa [List.getD] using hm.1
    · rw [if_neg h0] at hm
      have hi' := hi.resolve_left h0
      simp only at hm
      have hl : 0 < t.ms.length := List.length_pos_iff.mpr hne
      have e1 : ((t.ms.set i (toFront (t.ms.getD i []) j)).reverse)[0]? = some (b :: zs) := by rw [hm]; rfl
      rw [List.getElem?_reverse (by simpa using hl)] at e1
      simp only [List.length_set, Nat.sub_zero] at e1
      rw [← hi', List.getElem?_set_self (by omega)] at e1
      exact Option.some.inj e1
  rcases toFront_head (d := t.s) key with h1 | h1
  · exact h1
  · rw [hx] at h1; cases h1

theorem mirror_last {t : Str n} (w : t.Wf) : mirror t.last = '⟨' ↔ t.last = '⟩' := by
  rcases w.chars.2 with h | h <;> rw [h] <;> decide

theorem mem_getD_flatten {ms : List (List (Fin n))} {i : ℕ} {x : Fin n} (h : x ∈ ms.getD i []) : x ∈ ms.flatten := by
  by_cases hi : i < ms.length
  · rw [getD_lt hi] at h
    exact List.mem_flatten.mpr ⟨_, List.getElem_mem hi, h⟩
  · rw [getD_ge (not_lt.mp hi)] at h; cases h

theorem uniqueIn_none {t : Str n} {i : ℕ} (h : t.uniqueIn i = none) {x : Fin n} (hx : x ∈ t.ms.getD i []) :
    x = t.s ∨ x = t.e ∨ x ∈ (t.ms.eraseIdx i).flatten := by
  unfold Str.uniqueIn at h
  rw [List.findIdx?_eq_none_iff] at h
  have := h x hx
  rw [decide_eq_false_iff_not] at this
  tauto

theorem uniqueIn_none_iff {t : Str n} {i : ℕ} : t.uniqueIn i = none ↔ NoUnique t i :=
  ⟨fun h _ hx => uniqueIn_none h hx, fun h => h.uniqueIn⟩

theorem uniqueMiddle_none_iff {t : Str n} : t.uniqueMiddle = none ↔ NoUnique t 0 ∧ NoUnique t (t.ms.length - 1) := by
  rw [← uniqueIn_none_iff, ← uniqueIn_none_iff]
  unfold Str.uniqueMiddle
  cases h : t.uniqueIn 0 <;> simp

theorem reverse_noUnique {t : Str n} {i : ℕ} (hi : i < t.ms.length) (h : NoUnique t i) : NoUnique t.reverse (t.ms.length - 1 - i) := by
  have hlen : t.reverse.ms.length = t.ms.length := by simp [Str.reverse]
  have e1 : t.reverse.ms.getD (t.ms.length - 1 - i) [] = (t.ms.getD i []).reverse := by
    have hj : t.ms.length - 1 - i < t.reverse.ms.length := by rw [hlen]; omega
    rw [getD_lt hj, getD_lt hi]
    simp only [Str.reverse, List.getElem_reverse, List.length_map, List.getElem_map]
    congr 2; omega
  have e2 : ∀ x, x ∈ (t.reverse.ms.eraseIdx (t.ms.length - 1 - i)).flatten ↔ x ∈ (t.ms.eraseIdx i).flatten := by
    intro x
    simp only [List.mem_flatten, List.mem_eraseIdx_iff_getElem, hlen]
    constructor
    · rintro ⟨m, ⟨k, hk, hne, rfl⟩, hx⟩
      refine ⟨t.ms[t.ms.length - 1 - k]'(by omega), ⟨_, by omega, by omega, rfl⟩, ?_⟩
      simpa [Str.reverse, List.getElem_reverse] using hx
    · rintro ⟨m, ⟨k, hk, hne, rfl⟩, hx⟩
      refine ⟨t.reverse.ms[t.ms.length - 1 - k]'(by rw [hlen]; omega), ⟨_, by omega, by omega, rfl⟩, ?_⟩
      simp only [Str.reverse, List.getElem_reverse, List.length_map, List.getElem_map, List.mem_reverse]
      convert hx using 2
      omega
  intro x hx
  rw [e1, List.mem_reverse] at hx
  rw [e2]
  rcases h x hx with a | a | a
  · right; left; exact a
  · left; exact a
  · right; right; exact a

theorem reverse_uniqueMiddle {t : Str n} (h : t.uniqueMiddle = none) : t.reverse.uniqueMiddle = none := by
  rw [uniqueMiddle_none_iff] at h ⊢
  have hlen : t.reverse.ms.length = t.ms.length := by simp [Str.reverse]
  by_cases h0 : t.ms.length = 0
  · have : t.reverse.ms = [] := List.length_eq_zero_iff.mp (hlen.trans h0)
    constructor <;> intro x hx <;> simp [this, List.getD] at hx
  · refine ⟨?_, ?_⟩
    · have := reverse_noUnique (i := t.ms.length - 1) (by omega) h.2
      rwa [Nat.sub_self] at this
    · have := reverse_noUnique (i := 0) (by omega) h.1
      rw [hlen]; simpa using this

/-- Whatever `_set_NB` does without restoring momentum conservation, it changes the spinor `moved` only. -/
theorem setNB_only [NeZero (2 : K)] {c : Ctx K} {ps ps' : Point K n} {r l : Fin n → V2 K} (h : Spin c ps r l) {fuel : ℕ}
    {t : Str n} (w : t.Wf) {X : K} {mode : ℕ} (e : setNB c fuel ps t X false mode = .ok ps') :
    ∃ r' l', OneSpinor c ps ps' r l r' l' (t.moved mode).1 (t.moved mode).2 := by
  induction fuel generalizing t with
  | zero => simp [setNB] at e
  | succ fuel ih =>
    simp only [setNB, Bool.false_eq_true, and_false, if_false, Option.getD_none, Option.isSome_none] at e
    unfold Str.moved
    split_ifs at e ⊢ with h1 h2
    · obtain ⟨r', l', o⟩ := ih (Str.reverse_wf w) e
      have hu : t.uniqueEnd = some true := h2
      unfold Str.uniqueEnd at h2
      split_ifs at h2 with a1 a2
      · simp at h2
      · have hs : t.reverse.s ∉ t.reverse.ms.flatten := fun hk => a2.1 ((reverse_flatten t.ms t.e).mp hk)
        have hlen : t.reverse.ms.length = t.ms.length := by simp [Str.reverse]
        have hne : t.reverse.ms.length % 2 = 1 ∨ t.reverse.s ≠ t.reverse.e := by
          rw [hlen]; exact a2.2.imp id fun hh => Ne.symm hh
        have hr := uniqueEnd_head hs hne
        have hm : t.reverse.moved mode = (t.e, decide (t.last = '⟩')) := by
          unfold Str.moved
          rw [if_pos, hr, if_neg (by simp)]
          · show (t.e, decide (mirror t.last = '⟨')) = _
            simp only [mirror_last w]
          · rcases h1 with h1 | h1
            · exact Or.inl ⟨Or.inl (by rw [hr]; rfl), h1.2⟩
            · exact Or.inr (reverse_uniqueMiddle h1)
        rw [hm] at o
        exact ⟨r', l', o⟩
    · split at e
      · cases e
      · rename_i q hq
        injection e with e; subst e
        exact setHead_only h hq
    · cases hum : t.uniqueMiddle with
      | none => exact absurd (Or.inr hum) h1
      | some ij =>
        obtain ⟨i, j⟩ := ij
        simp only [hum] at e ⊢
        split at e
        · cases e
        · rename_i q hq
          injection e with e; subst e
          obtain ⟨b, zs, rest, hms, r', l', o⟩ := setMiddle_only h hq
          rw [toFirst_head hum hms]
          exact ⟨r', l', o⟩

end Lips

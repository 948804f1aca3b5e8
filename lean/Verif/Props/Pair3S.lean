import Verif.Lemmas.Pair33
import Verif.Model.Pair3S
import Verif.Props.SetPairSteps
import Verif.Props.PairMandel

/-!
Property C97: setting a three-bracket and a Mandelstam invariant as a pair.
-/

namespace Lips

set_option linter.unusedSectionVars false

variable {K Γ : Type*} [Field K] [LinearOrder Γ] {n : ℕ}

/-- The string set is the given one up to the order of its middle, or the same read backwards. -/
theorem plan3S_value {c : Ctx K} {ps : Point K n} {r l : Fin n → V2 K} (h : Spin c ps r l) {t t' : T3 n} {ls : List (Fin n)}
    {mode : ℕ} (hp : plan3S t ls = some (t', mode)) : t'.str.value ps = t.str.value ps := by
  unfold plan3S at hp
  split at hp
  · cases hp; rfl
  · split at hp
    · cases hp; exact T3.value_rev h t
    · split at hp
      · rename_i x hx
        cases hp
        have hm : x ∈ t.m := (List.mem_filter.mp (List.mem_of_getLast? hx)).1
        exact T3.value_perm h rfl rfl rfl (List.perm_cons_erase hm).symm
      · cases hp

theorem plan3S_labels {t t' : T3 n} {ls : List (Fin n)} {mode : ℕ} (hp : plan3S t ls = some (t', mode)) (k : Fin n) :
    k ∈ t'.labels ↔ k ∈ t.labels := by
  unfold plan3S at hp
  split at hp
  · cases hp; rfl
  · split at hp
    · cases hp; exact T3.mem_rev
    · split at hp
      · rename_i x hx
        cases hp
        have hm : x ∈ t.m := (List.mem_filter.mp (List.mem_of_getLast? hx)).1
        simp only [mem_t3]
        rw [← (List.perm_cons_erase hm).mem_iff]
      · cases hp

/-- In mode one the head is not in the invariant, in mode two the first label in the middle is not. -/
theorem plan3S_spec {t t' : T3 n} {ls : List (Fin n)} {mode : ℕ} (hp : plan3S t ls = some (t', mode)) (hm : t.m.Nodup) :
    (mode = 1 ∧ t'.s ∉ ls) ∨ (mode = 2 ∧ t'.s ∈ ls ∧ t'.e ∈ ls ∧ ∃ x, x ∉ ls ∧ FirstMiddle t' x ∧ t'.m.head? = some x) := by
  unfold plan3S at hp
  split at hp
  · cases hp; exact .inl ⟨rfl, by assumption⟩
  · rename_i hs
    split at hp
    · cases hp; exact .inl ⟨rfl, by assumption⟩
    · rename_i he
      split at hp
      · rename_i x hx
        cases hp
        simp only [not_not] at hs he
        obtain ⟨-, hxl⟩ := List.mem_filter.mp (List.mem_of_getLast? hx)
        have hxl : x ∉ ls := by simpa using hxl
        refine .inr ⟨rfl, hs, he, x, hxl, ⟨⟨[], t.m.erase x, rfl, by simp, hm.not_mem_erase, by simp⟩, ?_, ?_⟩, rfl⟩
        · intro e; exact hxl (e ▸ hs)
        · intro e; exact hxl (e ▸ he)
      · cases hp

/-- There is a string to set unless all its labels are in the invariant. -/
theorem plan3S_none {t : T3 n} {ls : List (Fin n)} : plan3S t ls = none ↔ ∀ k ∈ t.labels, k ∈ ls := by
  have e : (∀ k ∈ t.labels, k ∈ ls) ↔ t.s ∈ ls ∧ t.e ∈ ls ∧ ∀ k ∈ t.m, k ∈ ls := by
    constructor
    · exact fun h => ⟨h _ (mem_t3.mpr (by simp)), h _ (mem_t3.mpr (by simp)), fun k hk => h k (mem_t3.mpr (by simp [hk]))⟩
    · rintro ⟨a, b, d⟩ k hk
      rcases mem_t3.mp hk with rfl | hk | rfl
      · exact a
      · exact d k hk
      · exact b
  rw [e]
  unfold plan3S
  split
  · rename_i h; simp [h]
  · rename_i h1
    split
    · rename_i h; simp [h]
    · rename_i h2
      simp only [not_not] at h1 h2
      unfold middleOnly
      constructor
      · intro h
        split at h
        · cases h
        · rename_i hx
          rw [List.getLast?_eq_none_iff, List.filter_eq_nil_iff] at hx
          exact ⟨h1, h2, fun k hk => by simpa using hx k hk⟩
      · rintro ⟨-, -, h3⟩
        have hx : (t.m.filter (· ∉ ls)).getLast? = none := by
          rw [List.getLast?_eq_none_iff, List.filter_eq_nil_iff]
          exact fun k hk => by simpa using h3 k hk
        rw [hx]

/-- What the string step needs at a point. -/
def StringGuard (r l : Fin n → V2 K) (t : T3 n) (mode : ℕ) : Prop :=
  if mode = 1 then t.s ∉ t.m ∧ t.slope r l ≠ 0
  else HeadOk t.ang (r t.s) (l t.s) ∧ ∀ x, t.m.head? = some x → if t.ang then SpecSquare (l x) (l t.e) ≠ 0 else SpecAngle (r x) (r t.e) ≠ 0

/-- The label whose spinor is changed for the string. -/
def changed3S (t : T3 n) (mode : ℕ) : Fin n := if mode = 1 then t.s else t.m.headD t.s

/-- The two steps before momentum conservation is restored. -/
theorem steps3S [NeZero (2 : K)] {c : Ctx K} {T : Tol K Γ} (hT : T.abs 0 ≤ T.tol) {ps : Point K n}
    {r l : Fin n → V2 K} (h : Spin c ps r l) {t t' : T3 n} {ls : List (Fin n)} {mode : ℕ} (hp : plan3S t ls = some (t', mode))
    (hm : t.m.Nodup) {i : Fin n} {rest : List (Fin n)} (hls : ls = i :: rest) (hi : i ∉ rest) (hlen : 2 ≤ rest.length) (v w : K)
    (h1 : SecondOk ps i rest ']')
    (h2 : ∀ qs r' l', setMandel c T ls 1 w ps = .ok qs → Spin c qs r' l' → StringGuard r' l' t' mode) :
    ∃ ps1 r1 l1 ps' r' l', setMandel c T ls 1 w ps = .ok ps1 ∧ setThree c T t' mode v ps1 = .ok ps' ∧ Spin c ps1 r1 l1 ∧ Spin c ps' r' l' ∧
      t'.str.value ps' = .ok v ∧ computeS ps' ls = w ∧ changed3S t' mode ∉ ls ∧ changed3S t' mode ∈ t'.labels ∧ l1 = l ∧
      (∀ k, k ≠ i → ps1 k = ps k ∧ r1 k = r k) ∧ (∀ k, k ≠ changed3S t' mode → ps' k = ps1 k ∧ r' k = r1 k ∧ l' k = l1 k) ∧
      (if t'.ang then l' = l1 else r' = r1) := by
  subst hls
  obtain ⟨u, hu, hu0⟩ := h1
  obtain ⟨ps1, r1, l1, e1, s1, w1, o1, k1, -⟩ := setMandel_spec hT h hi hlen (mode := 1) (.inl rfl) w (by simpa using hu) hu0
  obtain rfl := k1 rfl
  have hg := h2 ps1 r1 l1 e1 s1
  have fin : ∀ {x : Fin n} {ps' : Point K n}, x ∉ i :: rest → (∀ k, k ≠ x → ps' k = ps1 k) → computeS ps' (i :: rest) = w := by
    intro x ps' hx o
    rw [← w1]
    exact computeS_congr fun k hk => o k (by rintro rfl; exact hx hk)
  rcases plan3S_spec hp hm with ⟨rfl, hs⟩ | ⟨rfl, -, -, x, hx, hf, hxm⟩
  · unfold StringGuard at hg
    rw [if_pos rfl] at hg
    obtain ⟨ps2, r2, l2, e2, s2, v2, o2, k2, -⟩ := setThree_head hT s1 hg.1 v (headGuard_of_slope s1 hg.2)
    exact ⟨ps1, r1, l1, ps2, r2, l2, e1, e2, s1, s2, v2, fin hs fun k hk => (o2 k hk).1, hs, mem_t3.mpr (by simp [changed3S]), rfl,
      fun k hk => ⟨(o1 k hk).1, (o1 k hk).2.1⟩, fun k hk => o2 k hk, k2⟩
  · unfold StringGuard at hg
    rw [if_neg (by decide)] at hg
    have hc : changed3S t' 2 = x := by
      unfold changed3S
      rw [if_neg (by decide), List.headD_eq_head?_getD, hxm]; rfl
    obtain ⟨ps2, r2, l2, e2, s2, v2, o2, k2⟩ := setThree_middle hT s1 hf v hg.1 (hg.2 x hxm)
    refine ⟨ps1, r1, l1, ps2, r2, l2, e1, e2, s1, s2, v2, fin hx fun k hk => (o2 k hk).1, by rw [hc]; exact hx, ?_, rfl,
      fun k hk => ⟨(o1 k hk).1, (o1 k hk).2.1⟩, fun k hk => o2 k (by rwa [hc] at hk), k2⟩
    rw [hc]
    exact mem_t3.mpr (by have := List.mem_of_mem_head? hxm; simp [this])

/-- With two labels free. -/
theorem direct3S_two [NeZero (2 : K)] {c : Ctx K} {T : Tol K Γ} (hT : T.abs 0 ≤ T.tol) {ps : Point K n}
    {r l : Fin n → V2 K} (h : Spin c ps r l) {t t' : T3 n} {ls : List (Fin n)} {mode : ℕ} (hp : plan3S t ls = some (t', mode))
    (hm : t.m.Nodup) {i : Fin n} {rest : List (Fin n)} (hls : ls = i :: rest) (hi : i ∉ rest) (hlen : 2 ≤ rest.length)
    {p q : Fin n} (hpq : FirstTwoFree (ls ++ t.labels) p q) (v w : K) (h1 : SecondOk ps i rest ']')
    (h2 : ∀ qs r' l', setMandel c T ls 1 w ps = .ok qs → Spin c qs r' l' → StringGuard r' l' t' mode)
    (hd : SpecSquare (l p) (l q) ≠ 0) :
    ∃ ps', direct3S c T ps t v ls w = .ok ps' ∧ GoodPoint c ps' ∧ t.str.value ps' = .ok v ∧ computeS ps' ls = w ∧
      ∀ k, k ≠ i → k ≠ changed3S t' mode → k ≠ p → k ≠ q → ps' k = ps k := by
  obtain ⟨ps1, r1, l1, ps2, r2, l2, e1, e2, s1, s2, v2, w2, c1, c2, hl, o1, o2, k2⟩ := steps3S hT h hp hm hls hi hlen v w h1 h2
  obtain ⟨rest', ef⟩ := freeLabels_firstTwo hpq
  have ef' : freeLabels (ls ++ t'.labels) = p :: q :: rest' := by
    rw [← ef]
    refine freeLabels_congr fun k => ?_
    simp only [List.mem_append, plan3S_labels hp]
  have hmem : ∀ {k}, (k = p ∨ k = q) → k ∉ ls ∧ k ∉ t'.labels := by
    intro k hk
    have : k ∈ freeLabels (ls ++ t'.labels) := by rw [ef']; rcases hk with rfl | rfl <;> simp
    have := (mem_freeLabels _ _).mp this
    simpa using this
  have hpn := hmem (.inl rfl)
  have hqn := hmem (.inr rfl)
  have hpc : p ≠ changed3S t' mode := by intro e; exact hpn.2 (by rw [e]; exact c2)
  have hqc : q ≠ changed3S t' mode := by intro e; exact hqn.2 (by rw [e]; exact c2)
  have hne : p ≠ q := by
    have nd : (freeLabels (ls ++ t'.labels)).Nodup := (List.nodup_finRange n).filter _
    rw [ef'] at nd
    exact fun e => (List.nodup_cons.mp nd).1 (by simp [e])
  obtain ⟨ps3, r3, e3, hc, s3, o3⟩ := fixAxis1_spin s2 hne (by rw [(o2 p hpc).2.2, (o2 q hqc).2.2, hl]; exact hd)
  have away : ∀ k, k ∈ ls ∨ k ∈ t'.labels → k ≠ p ∧ k ≠ q := by
    intro k hk
    constructor
    · rintro rfl; exact hk.elim hpn.1 hpn.2
    · rintro rfl; exact hk.elim hqn.1 hqn.2
  refine ⟨ps3, ?_, s3.good hc, ?_, ?_, ?_⟩
  · unfold direct3S
    simp only [hp, e1, andThen, e2]
    unfold fix3S
    rw [ef']
    exact e3
  · rw [← plan3S_value s3 hp, ← v2]
    have sp : ∀ k ∈ t'.labels, r3 k = r2 k := fun k hk => (o3 k (away k (.inr hk)).1 (away k (.inr hk)).2).2
    refine T3.value_congr s2 s3 (fun k hk => ⟨sp k (mem_t3.mpr (by simp [hk])), rfl⟩) ?_ ?_ <;> split
    · exact sp _ (mem_t3.mpr (by simp))
    · rfl
    · rfl
    · exact sp _ (mem_t3.mpr (by simp))
  · rw [← w2]
    exact computeS_congr fun k hk => (o3 k (away k (.inl hk)).1 (away k (.inl hk)).2).1
  · intro k a b d e
    rw [(o3 k d e).1, (o2 k b).1, (o1 k a).1]

/-- Setting a three-bracket and a Mandelstam invariant as a pair, with two labels in neither of them: `t'` is the
string as it is set, given or read backwards or with another label first in its middle. -/
theorem C97_two_free [NeZero (2 : K)] (c : Ctx K) (T : Tol K Γ) (hT : T.abs 0 ≤ T.tol) (ps : Point K n)
    (r l : Fin n → V2 K) (h : Spin c ps r l) (t t' : T3 n) (hm : t.m.Nodup) (mode : ℕ) (i : Fin n) (rest : List (Fin n))
    (hp : plan3S t (i :: rest) = some (t', mode)) (hi : i ∉ rest) (hlen : 2 ≤ rest.length)
    (p q : Fin n) (hpq : FirstTwoFree (i :: rest ++ t.labels) p q) (v w : K) (h1 : SecondOk ps i rest ']')
    (h2 : ∀ qs r' l', setMandel c T (i :: rest) 1 w ps = .ok qs → Spin c qs r' l' → StringGuard r' l' t' mode)
    (hd : SpecSquare (l p) (l q) ≠ 0) :
    ∃ ps', pair3S c T ps t v (i :: rest) w = .ok ps' ∧ GoodPoint c ps' ∧ t.str.value ps' = .ok v ∧ computeS ps' (i :: rest) = w ∧
      ∀ k, k ≠ i → k ≠ changed3S t' mode → k ≠ p → k ≠ q → ps' k = ps k := by
  obtain ⟨rest', ef⟩ := freeLabels_firstTwo hpq
  have : 2 ≤ freeAsIs t (i :: rest) := by unfold freeAsIs; rw [ef]; simp
  unfold pair3S
  rw [if_pos (.inl this)]
  exact direct3S_two hT h hp hm rfl hi hlen hpq v w h1 h2 hd

/-- With the invariant replaced by its complement: the values are those asked for. -/
theorem C97_complement [NeZero (2 : K)] (c : Ctx K) (T : Tol K Γ) (hT : T.abs 0 ≤ T.tol) (ps : Point K n)
    (r l : Fin n → V2 K) (h : Spin c ps r l) (t t' : T3 n) (hm : t.m.Nodup) (ls : List (Fin n)) (hn : ls.Nodup) (mode : ℕ)
    (i : Fin n) (rest : List (Fin n)) (hls : freeLabels ls = i :: rest) (hf : freeAsIs t ls < 2) (hf1 : 2 ≤ freeFirst t ls)
    (hp : plan3S t (i :: rest) = some (t', mode)) (hlen : 2 ≤ rest.length)
    (p q : Fin n) (hpq : FirstTwoFree (i :: rest ++ t.labels) p q) (v w : K) (h1 : SecondOk ps i rest ']')
    (h2 : ∀ qs r' l', setMandel c T (i :: rest) 1 w ps = .ok qs → Spin c qs r' l' → StringGuard r' l' t' mode)
    (hd : SpecSquare (l p) (l q) ≠ 0) :
    ∃ ps', pair3S c T ps t v ls w = .ok ps' ∧ GoodPoint c ps' ∧ t.str.value ps' = .ok v ∧ computeS ps' ls = w ∧
      ∀ k, k ≠ i → k ≠ changed3S t' mode → k ≠ p → k ≠ q → ps' k = ps k := by
  have hi : i ∉ rest := by
    have nd : (freeLabels ls).Nodup := (List.nodup_finRange n).filter _
    rw [hls] at nd
    exact (List.nodup_cons.mp nd).1
  obtain ⟨ps', e, g, v', w', o⟩ := direct3S_two hT h hp hm rfl hi hlen hpq v w h1 h2 hd
  refine ⟨ps', ?_, g, v', ?_, o⟩
  · unfold pair3S
    rw [if_neg (by omega), if_pos hf1, hls]
    exact e
  · rw [← w', ← hls, C16_complement ps' g.1 (perm_free hn)]

/-- With the middle of the string replaced (finding): the string ends with minus the value. -/
theorem C97_negated_partial [NeZero (2 : K)] (c : Ctx K) (T : Tol K Γ) (hT : T.abs 0 ≤ T.tol) (ps : Point K n)
    (r l : Fin n → V2 K) (h : Spin c ps r l) (t t' : T3 n) (hm : t.m.Nodup) (mode : ℕ) (i : Fin n) (rest : List (Fin n))
    (hf : freeAsIs t (i :: rest) < 2) (hf1 : freeFirst t (i :: rest) < 2) (hf2 : 2 ≤ freeSecond t (i :: rest))
    (hp : plan3S t.flip (i :: rest) = some (t', mode)) (hi : i ∉ rest) (hlen : 2 ≤ rest.length)
    (p q : Fin n) (hpq : FirstTwoFree (i :: rest ++ t.flip.labels) p q) (v w : K) (h1 : SecondOk ps i rest ']')
    (h2 : ∀ qs r' l', setMandel c T (i :: rest) 1 w ps = .ok qs → Spin c qs r' l' → StringGuard r' l' t' mode)
    (hd : SpecSquare (l p) (l q) ≠ 0) :
    ∃ ps', pair3S c T ps t v (i :: rest) w = .ok ps' ∧ GoodPoint c ps' ∧ t.str.value ps' = .ok (-v) ∧ computeS ps' (i :: rest) = w ∧
      ∀ k, k ≠ i → k ≠ changed3S t' mode → k ≠ p → k ≠ q → ps' k = ps k := by
  have hfm : t.flip.m.Nodup := (List.nodup_finRange n).filter _
  obtain ⟨ps', e, g, v', w', o⟩ := direct3S_two hT h hp hfm rfl hi hlen hpq v w h1 h2 hd
  refine ⟨ps', ?_, g, ?_, w', o⟩
  · unfold pair3S
    rw [if_neg (by omega), if_neg (by omega)]
    exact e
  · obtain ⟨hc, r', l', s'⟩ := g
    have hz := t.value_eq s'
    have := T3.flip_value s' hc t hm hz
    rw [v'] at this
    injection this with this
    rw [hz, this, neg_neg]

/-- The recursive calls made by the method, in `_set_pair_inner`, come back to it with the arguments for which it makes
no further one: two labels are then free. -/
theorem C97_again {V : Type*} (t : T3 n) (v w : V) (ls : List (Fin n)) (h : ¬(2 ≤ freeAsIs t ls ∨ (freeFirst t ls < 2 ∧ freeSecond t ls < 2))) :
    (2 ≤ freeFirst t ls → step3S t v ls w = some ((.mandel (freeLabels ls), w), (.three t, v)) ∧ 2 ≤ freeAsIs t (freeLabels ls)) ∧
    (freeFirst t ls < 2 → step3S t v ls w = some ((.mandel ls, w), (.three t.flip, v)) ∧ 2 ≤ freeAsIs t.flip ls) ∧
    ∀ (A : List (Fin n)) (u : T3 n), dispatchPair (V := V) (.mandel A, w) (.three u, v) =
      some (((.three u, v) : Req n V), ((.mandel A, w) : Req n V)) := by
  refine ⟨fun h1 => ⟨?_, ?_⟩, fun h1 => ⟨?_, ?_⟩, fun A u => rfl⟩
  · unfold step3S
    unfold freeAsIs freeFirst freeSecond at h
    unfold freeFirst at h1
    rw [if_neg h, if_pos h1]
  · unfold freeAsIs
    unfold freeFirst at h1
    rwa [freeLabels_congr (ys := t.labels ++ freeLabels ls) fun k => by simp only [List.mem_append]; tauto]
  · unfold step3S
    unfold freeAsIs freeFirst freeSecond at h
    unfold freeFirst at h1
    rw [if_neg h, if_neg (by omega)]
  · have h2 : 2 ≤ freeSecond t ls := by omega
    unfold freeAsIs
    unfold freeSecond at h2
    rwa [freeLabels_congr (ys := ls ++ [t.s, t.e] ++ freeLabels t.labels) fun k => by
      simp only [List.mem_append, mem_t3, T3.flip, List.mem_cons, List.not_mem_nil, or_false]; tauto]

/-- All labels of the string in the invariant (finding): another pair is set, with the values exchanged. -/
theorem C97_contained_partial (c : Ctx K) (T : Tol K Γ) (ps : Point K n) (t : T3 n) (v w : K) (ls : List (Fin n))
    (hc : ∀ k ∈ t.labels, k ∈ ls) (hf : 2 ≤ freeAsIs t ls) (j k : Fin n) (m : List (Fin n)) (hm : t.m = j :: k :: m) :
    pair3S c T ps t v ls w = pair2S c T ps true j k w ls v := by
  unfold pair3S
  rw [if_pos (.inl hf)]
  unfold direct3S
  simp only [plan3S_none.mpr hc, hm]

/-- C97: when the string and the invariant leave no label free and cannot be rewritten, the method returns normally only at
a point that conserves momentum within the tolerance. -/
theorem C97_none_free_checked (c : Ctx K) (T : Tol K Γ) (ps ps' : Point K n) (t t' : T3 n) (mode : ℕ) (v w : K) (ls : List (Fin n))
    (hp : plan3S t ls = some (t', mode)) (hf : freeLabels (ls ++ t.labels) = []) (hf1 : freeFirst t ls < 2) (hf2 : freeSecond t ls < 2)
    (h : pair3S c T ps t v ls w = .ok ps') : ∀ i j, T.abs (∑ k, (ps' k).r2 i j) ≤ T.tol := by
  have hf' : freeLabels (ls ++ t'.labels) = [] := by
    rw [← hf]
    exact freeLabels_congr fun k => by simp only [List.mem_append, plan3S_labels hp k]
  unfold pair3S at h
  rw [if_pos (.inr ⟨hf1, hf2⟩)] at h
  unfold direct3S at h
  rw [hp] at h
  obtain ⟨qs, -, h⟩ := andThen_eq_ok.mp h
  unfold fix3S at h
  rw [hf'] at h
  rcases ls with _ | ⟨i, _ | ⟨j, ls⟩⟩
  · cases h
  · cases h
  simp only at h
  obtain ⟨qs', -, h⟩ := andThen_eq_ok.mp h
  rcases hm : momentumConservationCheck T.abs T.tol qs' with e | _ | _ <;> rw [hm] at h
  · cases h
  · cases h
  · cases h
    exact (C49_momentum_conservation_check T.abs T.tol _).1.mp hm

/-- With one label free, and one end of the string not in the invariant: momentum conservation is restored with the free
particle and that end. -/
theorem C97_one_free [NeZero (2 : K)] (c : Ctx K) (T : Tol K Γ) (hT : T.abs 0 ≤ T.tol) (ps : Point K n)
    (r l : Fin n → V2 K) (h : Spin c ps r l) (t t' : T3 n) (hm : t.m.Nodup) (i : Fin n) (rest : List (Fin n))
    (hp : plan3S t (i :: rest) = some (t', 1)) (hi : i ∉ rest) (hlen : 2 ≤ rest.length) (hse : t.s ≠ t.e)
    (p : Fin n) (hfree : freeLabels (i :: rest ++ t.labels) = [p]) (hf1 : freeFirst t (i :: rest) < 2)
    (hf2 : freeSecond t (i :: rest) < 2) (v w : K) (h1 : SecondOk ps i rest ']')
    (h2 : ∀ qs r' l', setMandel c T (i :: rest) 1 w ps = .ok qs → Spin c qs r' l' → StringGuard r' l' t' 1)
    (hd : ∀ qs r' l', andThen (setMandel c T (i :: rest) 1 w ps) (setThree c T t' 1 v) = .ok qs → Spin c qs r' l' →
      if t'.ang then SpecAngle (r' p) (r' t'.s) ≠ 0 else SpecSquare (l' p) (l' t'.s) ≠ 0) :
    ∃ ps', pair3S c T ps t v (i :: rest) w = .ok ps' ∧ GoodPoint c ps' ∧ t.str.value ps' = .ok v ∧ computeS ps' (i :: rest) = w ∧
      ∀ k, k ≠ i → k ≠ t'.s → k ≠ p → ps' k = ps k := by
  obtain ⟨ps1, r1, l1, ps2, r2, l2, e1, e2, s1, s2, v2, w2, c1, c2, hl, o1, o2, k2⟩ := steps3S hT h hp hm rfl hi hlen v w h1 h2
  have hg := h2 ps1 r1 l1 e1 s1
  unfold StringGuard at hg
  rw [if_pos rfl] at hg
  have hsm := hg.1
  have c1 : t'.s ∉ i :: rest := c1
  have ef : freeLabels (i :: rest ++ t'.labels) = [p] := by
    rw [← hfree]
    refine freeLabels_congr fun k => ?_
    simp only [List.mem_append, plan3S_labels hp]
  have hpn : p ∉ i :: rest ∧ p ∉ t'.labels := by
    have : p ∈ freeLabels (i :: rest ++ t'.labels) := by rw [ef]; simp
    have := (mem_freeLabels _ _).mp this
    rw [List.mem_append, not_or] at this
    exact this
  have hps : p ≠ t'.s := fun e => hpn.2 (mem_t3.mpr (.inl e))
  have hpe : p ≠ t'.e := fun e => hpn.2 (mem_t3.mpr (.inr (.inr e)))
  have hpm : ∀ k ∈ t'.m, k ≠ p ∧ k ≠ t'.s := fun k hk =>
    ⟨fun e => hpn.2 (mem_t3.mpr (.inr (.inl (e ▸ hk)))), fun e => hsm (e ▸ hk)⟩
  have hse' : t'.s ≠ t'.e := by
    unfold plan3S at hp
    split at hp
    · cases hp; exact hse
    · split at hp
      · cases hp; exact hse.symm
      · split at hp
        · cases hp
        · cases hp
  have hdg := hd ps2 r2 l2 (by rw [e1]; exact e2) s2
  have start : pair3S c T ps t v (i :: rest) w = fix3S c T t' (i :: rest) ps2 := by
    unfold pair3S
    rw [if_pos (.inr ⟨hf1, hf2⟩)]
    unfold direct3S
    simp only [hp, e1, andThen, e2]
  have hS : ∀ {ps3 : Point K n}, (∀ k, k ≠ p → k ≠ t'.s → ps3 k = ps2 k) → computeS ps3 (i :: rest) = w := by
    intro ps3 o3
    rw [← w2]
    refine computeS_congr fun k hk => o3 k ?_ ?_
    · rintro rfl; exact hpn.1 hk
    · rintro rfl; exact c1 hk
  have hrest : ∀ {ps3 : Point K n}, (∀ k, k ≠ p → k ≠ t'.s → ps3 k = ps2 k) →
      ∀ k, k ≠ i → k ≠ t'.s → k ≠ p → ps3 k = ps k := by
    intro ps3 o3 k a b d
    rw [o3 k d b, (o2 k (by unfold changed3S; rwa [if_pos rfl])).1, (o1 k a).1]
  rcases ha : t'.ang with _ | _
  · rw [ha] at hdg
    simp only [Bool.false_eq_true, if_false] at hdg
    obtain ⟨ps3, r3, e3, hc, s3, o3⟩ := fixAxis1_spin s2 hps hdg
    refine ⟨ps3, ?_, s3.good hc, ?_, hS fun k a b => (o3 k a b).1, hrest fun k a b => (o3 k a b).1⟩
    · rw [start]
      unfold fix3S
      simp only [ef, ha]
      rw [if_neg (by simp), if_pos ⟨c1, trivial⟩]
      exact e3
    · rw [← plan3S_value s3 hp, ← v2]
      refine T3.value_congr s2 s3 (fun k hk => ⟨(o3 k (hpm k hk).1 (hpm k hk).2).2, rfl⟩) (by simp [ha]) ?_
      simp only [ha, Bool.false_eq_true, if_false]
      exact (o3 t'.e hpe.symm hse'.symm).2
  · rw [ha] at hdg
    simp only [if_true] at hdg
    obtain ⟨ps3, l3, e3, hc, s3, o3⟩ := fixAxis2_spin s2 hps hdg
    refine ⟨ps3, ?_, s3.good hc, ?_, hS fun k a b => (o3 k a b).1, hrest fun k a b => (o3 k a b).1⟩
    · rw [start]
      unfold fix3S
      simp only [ef, ha]
      rw [if_pos ⟨c1, trivial⟩]
      exact e3
    · rw [← plan3S_value s3 hp, ← v2]
      refine T3.value_congr s2 s3 (fun k hk => ⟨rfl, (o3 k (hpm k hk).1 (hpm k hk).2).2⟩) (by simp [ha]) ?_
      simp only [ha, if_true]
      exact (o3 t'.e hpe.symm hse'.symm).2

/-- Momentum conservation determines `|i⟩` when all other angle spinors but one are known. -/
theorem conserve_unique_sq {c : Ctx K} {A B : Point K n} {r r' l : Fin n → V2 K} (hA : Spin c A r l) (hB : Spin c B r' l)
    (cA : Conserves A) (cB : Conserves B) {x i : Fin n} (hr : ∀ k, k ≠ x → k ≠ i → r k = r' k)
    (hd : SpecSquare (l i) (l x) ≠ 0) : r i = r' i := by
  rw [hA.conserves_iff] at cA
  rw [hB.conserves_iff] at cB
  funext j
  have key : ∑ k, SpecSquare (l k) (l x) * (r k j - r' k j) = 0 := by
    have e : ∀ k, SpecSquare (l k) (l x) * (r k j - r' k j) =
        SpecSquare ![1, 0] (l x) * (r k j * l k 0 - r' k j * l k 0) + SpecSquare ![0, 1] (l x) * (r k j * l k 1 - r' k j * l k 1) := by
      intro k; unfold SpecSquare; simp; ring
    simp only [e, Finset.sum_add_distrib, ← Finset.mul_sum, Finset.sum_sub_distrib, cA, cB]
    simp
  rw [Finset.sum_eq_single i] at key
  · rcases mul_eq_zero.mp key with h | h
    · exact absurd h hd
    · exact sub_eq_zero.mp h
  · intro k _ hk
    by_cases hkx : k = x
    · subst hkx
      have : SpecSquare (l k) (l k) = 0 := by unfold SpecSquare; ring
      rw [this, zero_mul]
    · rw [hr k hkx hk, sub_self, mul_zero]
  · simp

/-- With one label free and both ends of the string in the invariant (finding): momentum conservation is not restored.
The two values are those asked for, but the total momentum is not zero unless the invariant had its value before. -/
theorem C97_not_conserving_partial [NeZero (2 : K)] (c : Ctx K) (T : Tol K Γ) (hT : T.abs 0 ≤ T.tol) (ps : Point K n)
    (r l : Fin n → V2 K) (h : Spin c ps r l) (hcons : Conserves ps) (t t' : T3 n) (ha : t.ang = true) (hm : t.m.Nodup) (i : Fin n) (rest : List (Fin n))
    (hp : plan3S t (i :: rest) = some (t', 2)) (hi : i ∉ rest) (hlen : 2 ≤ rest.length)
    (p : Fin n) (hfree : freeLabels (i :: rest ++ t.labels) = [p]) (hf1 : freeFirst t (i :: rest) < 2)
    (hf2 : freeSecond t (i :: rest) < 2) (v w : K) (h1 : SecondOk ps i rest ']')
    (h2 : ∀ qs r' l', setMandel c T (i :: rest) 1 w ps = .ok qs → Spin c qs r' l' → StringGuard r' l' t' 2)
    (hd : SpecSquare (l i) (l (changed3S t' 2)) ≠ 0) (hw : w ≠ computeS ps (i :: rest)) :
    ∃ ps', pair3S c T ps t v (i :: rest) w = .ok ps' ∧ t.str.value ps' = .ok v ∧ computeS ps' (i :: rest) = w ∧ ¬ Conserves ps' := by
  obtain ⟨ps1, r1, l1, ps2, r2, l2, e1, e2, s1, s2, v2, w2, c1, c2, hl, o1, o2, k2⟩ := steps3S hT h hp hm rfl hi hlen v w h1 h2
  have ef : freeLabels (i :: rest ++ t'.labels) = [p] := by
    rw [← hfree]
    refine freeLabels_congr fun k => ?_
    simp only [List.mem_append, plan3S_labels hp]
  have hin : t'.s ∈ i :: rest ∧ t'.e ∈ i :: rest := by
    rcases plan3S_spec hp hm with ⟨h0, -⟩ | ⟨-, hs, he, -⟩
    · cases h0
    · exact ⟨hs, he⟩
  have hang : t'.ang = true := by
    unfold plan3S at hp
    split at hp
    · cases hp
    · split at hp
      · cases hp
      · split at hp
        · cases hp; exact ha
        · cases hp
  refine ⟨ps2, ?_, by rw [← plan3S_value s2 hp]; exact v2, w2, fun hc => ?_⟩
  · unfold pair3S
    rw [if_pos (.inr ⟨hf1, hf2⟩)]
    unfold direct3S
    simp only [hp, e1, andThen, e2]
    unfold fix3S
    simp only [ef, hin, not_true_eq_false, false_and, if_false]
  · rw [hang] at k2
    have k2 : l2 = l1 := by simpa using k2
    rw [k2, hl] at s2
    have hx : changed3S t' 2 ≠ i := fun e => c1 (by rw [e]; simp)
    have e3 := conserve_unique_sq s2 h hc hcons (x := changed3S t' 2) (i := i)
      (fun k a b => by rw [(o2 k a).2.1, (o1 k b).2]) hd
    refine hw ?_
    rw [← w2]
    unfold computeS
    have : sumR2 ps2 (i :: rest) = sumR2 ps (i :: rest) := by
      unfold sumR2
      congr 1
      refine List.map_congr_left fun k hk => ?_
      have hkx : k ≠ changed3S t' 2 := by rintro rfl; exact c1 hk
      by_cases hki : k = i
      · subst hki; rw [(s2 k).r2, (h k).r2, e3]
      · rw [(o2 k hkx).1, (o1 k hki).1]
    rw [this]

end Lips

import Verif.Lemmas.Pair33
import Verif.Props.SetPairStops

/-! Property C90: setting two three-brackets. -/

namespace Lips

set_option linter.unusedSectionVars false

variable {K Γ : Type*} [Field K] [LinearOrder Γ] {n : ℕ}

/-- The two strings have the same labels, three in number: the formula is used. -/
def SameThree (t u : T3 n) : Prop := (∀ k, k ∈ t.labels ↔ k ∈ u.labels) ∧ t.labels.dedup.length = 3

/-- With two particles in neither string, nothing is rewritten. -/
theorem norm33_two_free {t u : T3 n} {p q : Fin n} (h : FirstTwoFree (t.labels ++ u.labels) p q) : norm33 t u = (t, u) := by
  obtain ⟨rest, e⟩ := freeLabels_firstTwo h
  have h2 : 2 ≤ free33 t u := by unfold free33; rw [e]; simp
  unfold norm33 norm33a norm33b
  simp only [if_pos h2, if_pos (fix33_some_of_free h2)]

/-- The second string with the label put first. -/
def T3.front (u : T3 n) (x : Fin n) : T3 n := { u with m := x :: u.m.erase x }

theorem T3.front_mem {u : T3 n} {x : Fin n} (hx : x ∈ u.m) {k : Fin n} : k ∈ (u.front x).labels ↔ k ∈ u.labels := by
  have := (List.perm_cons_erase hx).mem_iff (a := k)
  simp only [mem_t3, T3.front, this]

theorem T3.front_value {c : Ctx K} {ps : Point K n} {r l : Fin n → V2 K} (h : Spin c ps r l) {u : T3 n} {x : Fin n} (hx : x ∈ u.m) :
    (u.front x).str.value ps = u.str.value ps :=
  T3.value_perm h rfl rfl rfl (List.perm_cons_erase hx).symm

theorem GoodPoint.spin {c : Ctx K} {ps : Point K n} (h : GoodPoint c ps) : ∃ r l, Spin c ps r l := h.2

/-- The plan, when the label chosen is not the start of a string `[s|...|e⟩`. -/
theorem plan33_middle {longer : Bool} {t u : T3 n} (h3 : ¬SameThree t u) {x : Fin n} {xs : List (Fin n)}
    (hu : u.m.filter (· ∉ t.m) = x :: xs) (hs : x = t.s → x ≠ t.e ∧ t.ang = true) :
    plan33 longer t u = .steps (if x = t.s then t.rev else t)
      ((u.front x).orient (if x = t.s then t.rev else t).ang) 2 (decide (u.m.length < t.m.length)) := by
  unfold plan33
  unfold SameThree at h3
  simp only [hu]
  have hc : x :: xs ≠ [t.s] ∨ x :: xs ≠ [t.e] := by
    by_cases e : x = t.s
    · exact Or.inr fun hh => (hs e).1 (by injection hh)
    · exact Or.inl fun hh => e (by injection hh)
  rw [if_neg h3, if_pos ⟨by simp, hc⟩]
  · unfold rebuild33
    by_cases e : x = t.s
    · obtain ⟨h1, h2⟩ := hs e
      simp only [if_neg (fun hh : x = t.s ∧ x = t.e => h1 hh.2), if_pos e, h2, if_true]
      simp [T3.rev, T3.front, h2]
    · simp only [if_neg (fun hh : x = t.s ∧ x = t.e => e hh.1), if_neg e]
      simp [T3.front]

/-- The same for strings that may have been rewritten. -/
theorem middle_run [NeZero (2 : K)] {c : Ctx K} {T : Tol K Γ} (hT : T.abs 0 ≤ T.tol) {ps : Point K n}
    {r l : Fin n → V2 K} (h : Spin c ps r l) (longer : Bool) {t₀ u₀ t u : T3 n} (h0 : norm33 t₀ u₀ = (t, u)) {p q : Fin n}
    (hpq : FirstTwoFree (t.labels ++ u.labels) p q) (hd : SpecSquare (l p) (l q) ≠ 0) (h3 : ¬SameThree t u)
    {x : Fin n} {xs : List (Fin n)} (hx : u.m.filter (· ∉ t.m) = x :: xs) (hn : u.m.Nodup) (xs' : x ≠ u.s) (xe' : x ≠ u.e)
    (hs : x = t.s → x ≠ t.e ∧ t.ang = true) (hl : t.m.length ≤ u.m.length) {t₁ u₁ : T3 n}
    (ht₁ : t₁ = if x = t.s then t.rev else t) (hu₁ : u₁ = (u.front x).orient t₁.ang) (hts : t₁.s ∉ t₁.m) (v w : K)
    (g1 : t₁.slope r l ≠ 0) (g2 : if u₁.s = t₁.s then v + t₁.kept r l * t₁.rest r l ≠ 0 else u₁.moved r l ≠ 0)
    (g3 : if t₁.ang then SpecSquare (l x) (l u₁.e) ≠ 0 else SpecAngle (r x) (r u₁.e) ≠ 0) :
    ∃ ps', pair33 c T longer ps t₀ v u₀ w = some (.ok ps') ∧ GoodPoint c ps' ∧ t.str.value ps' = .ok v ∧
      u.str.value ps' = .ok w ∧ ∀ k, k ≠ t₁.s → k ≠ x → k ≠ p → k ≠ q → ps' k = ps k := by
  have hxm : x ∈ u.m ∧ x ∉ t.m := by
    have : x ∈ u.m.filter (· ∉ t.m) := by rw [hx]; simp
    simpa using List.mem_filter.mp this
  have ht1 : t₁.m = t.m := by rw [ht₁]; split <;> rfl
  have hu1 : u₁.m = x :: u.m.erase x := by rw [hu₁, T3.orient_m]; rfl
  have hua : u₁.ang = t₁.ang := by rw [hu₁, T3.orient_ang]
  have hfm : FirstMiddle u₁ x := by
    refine ⟨⟨[], u.m.erase x, by simpa using hu1, by simp, fun hh => ((hn.mem_erase_iff).mp hh).1 rfl, by simp⟩, ?_, ?_⟩
    · rcases (u.front x).orient_ends t₁.ang with e | e <;> rw [hu₁, e.1] <;> assumption
    · rcases (u.front x).orient_ends t₁.ang with e | e <;> rw [hu₁, e.2] <;> assumption
  have hxs : x ≠ t₁.s := by
    rw [ht₁]
    split
    · rename_i e; exact (hs e).1
    · assumption
  have mt : ∀ k, k ∈ t₁.labels ↔ k ∈ t.labels := by
    intro k; rw [ht₁]; split
    · exact T3.mem_rev
    · rfl
  have mu : ∀ k, k ∈ u₁.labels ↔ k ∈ u.labels := by
    intro k; rw [hu₁, T3.mem_orient, T3.front_mem hxm.1]
  obtain ⟨ps1, r1, l1, ps2, r2, l2, e1, s1, v1, e2, s2, v2, o1, k1, o2, k2, -, -⟩ :=
    steps_middle hT h hua hts v w g1 hfm g2 (by rw [hua]; exact g3)
  have keep : t₁.str.value ps2 = .ok v := by
    rw [← v1]
    refine T3.value_congr s1 s2 (fun k hk => (o2 k fun e => hxm.2 (by rw [← ht1, ← e]; exact hk)).2) ?_ ?_
    · split <;> simp only [(o2 _ hxs.symm).2]
    · split <;> rename_i b <;> simp only [b, if_true, if_false, Bool.false_eq_true] at k2 <;> rw [k2]
  have hpq' : FirstTwoFree (t₁.labels ++ u₁.labels) p q :=
    firstTwoFree_congr (fun k => by simp only [List.mem_append, mt, mu]) hpq
  have nl := fun k (hk : k ∈ t₁.labels ++ u₁.labels) => firstTwoFree_ne hpq' hk
  have ns := nl t₁.s (by simp [mem_t3])
  have nx := nl x (by simp [mem_t3, hu1])
  have hd' : SpecSquare (l2 p) (l2 q) ≠ 0 := by
    rw [(o2 p nx.1.symm).2.2, (o2 q nx.2.symm).2.2, (o1 p ns.1.symm).2.2, (o1 q ns.2.symm).2.2]; exact hd
  obtain ⟨ps3, e3, hc, good, v3, w3, o3⟩ := fixThree_free (c := c) s2 hpq' hd'
  obtain ⟨r3, l3, s3⟩ := good.spin
  refine ⟨ps3, ?_, good, ?_, ?_, ?_⟩
  · unfold pair33
    rw [h0]
    simp only [plan33_middle h3 hx hs, ← ht₁, ← hu₁]
    rw [decide_eq_false (by omega)]
    simp only [Bool.false_eq_true, if_false, andThen, e1, e2, e3]
  · have : t.str.value ps3 = t₁.str.value ps3 := by
      rw [ht₁]; split
      · exact (t.value_rev s3).symm
      · rfl
    rw [this, v3, keep]
  · rw [← T3.front_value s3 hxm.1, ← T3.value_orient s3 _ t₁.ang, ← hu₁, w3, v2]
  · intro k a1 a2 a3 a4
    rw [o3 k a3 a4, (o2 k a2).1, (o1 k a1).1]

/-- C90: two three-brackets, with two particles in neither, where the middle of the second has a label that the
middle of the first has not, and is not shorter. `t₁` and `u₁` are the strings as they are set: the label chosen
is not the start of `t₁`. Both end at the values asked for. -/
theorem C90_middle [NeZero (2 : K)] {c : Ctx K} {T : Tol K Γ} (hT : T.abs 0 ≤ T.tol) {ps : Point K n}
    {r l : Fin n → V2 K} (h : Spin c ps r l) (longer : Bool) {t u : T3 n} {p q : Fin n}
    (hpq : FirstTwoFree (t.labels ++ u.labels) p q) (hd : SpecSquare (l p) (l q) ≠ 0) (h3 : ¬SameThree t u)
    {x : Fin n} {xs : List (Fin n)} (hx : u.m.filter (· ∉ t.m) = x :: xs) (hn : u.m.Nodup) (xs' : x ≠ u.s) (xe' : x ≠ u.e)
    (hs : x = t.s → x ≠ t.e ∧ t.ang = true) (hl : t.m.length ≤ u.m.length) {t₁ u₁ : T3 n}
    (ht₁ : t₁ = if x = t.s then t.rev else t) (hu₁ : u₁ = (u.front x).orient t₁.ang) (hts : t₁.s ∉ t₁.m) (v w : K)
    (g1 : t₁.slope r l ≠ 0) (g2 : if u₁.s = t₁.s then v + t₁.kept r l * t₁.rest r l ≠ 0 else u₁.moved r l ≠ 0)
    (g3 : if t₁.ang then SpecSquare (l x) (l u₁.e) ≠ 0 else SpecAngle (r x) (r u₁.e) ≠ 0) :
    ∃ ps', pair33 c T longer ps t v u w = some (.ok ps') ∧ GoodPoint c ps' ∧ t.str.value ps' = .ok v ∧
      u.str.value ps' = .ok w ∧ ∀ k, k ≠ t₁.s → k ≠ x → k ≠ p → k ≠ q → ps' k = ps k :=
  middle_run hT h longer (norm33_two_free hpq) hpq hd h3 hx hn xs' xe' hs hl ht₁ hu₁ hts v w g1 g2 g3

/-- C90: the same where the middle of the first is longer: then the second is set first, through its head, and the
first through the first label `y` in its middle. Both end at the values asked for when `y` does not occur in the
middle of the second and is not the start of `u₁`. -/
theorem C90_longer [NeZero (2 : K)] {c : Ctx K} {T : Tol K Γ} (hT : T.abs 0 ≤ T.tol) {ps : Point K n}
    {r l : Fin n → V2 K} (h : Spin c ps r l) (longer : Bool) {t u : T3 n} {p q : Fin n}
    (hpq : FirstTwoFree (t.labels ++ u.labels) p q) (hd : SpecSquare (l p) (l q) ≠ 0) (h3 : ¬SameThree t u)
    {x : Fin n} {xs : List (Fin n)} (hx : u.m.filter (· ∉ t.m) = x :: xs)
    (hs : x = t.s → x ≠ t.e ∧ t.ang = true) (hl : u.m.length < t.m.length) {t₁ u₁ : T3 n}
    (ht₁ : t₁ = if x = t.s then t.rev else t) (hu₁ : u₁ = (u.front x).orient t₁.ang) (hus : u₁.s ∉ u.m)
    {y : Fin n} (hy : FirstMiddle t₁ y) (hyu : y ∉ u.m) (hys : y ≠ u₁.s) (v w : K)
    (g1 : u₁.slope r l ≠ 0) (g2 : if t₁.s = u₁.s then w + u₁.kept r l * u₁.rest r l ≠ 0 else t₁.moved r l ≠ 0)
    (g3 : if t₁.ang then SpecSquare (l y) (l t₁.e) ≠ 0 else SpecAngle (r y) (r t₁.e) ≠ 0) :
    ∃ ps', pair33 c T longer ps t v u w = some (.ok ps') ∧ GoodPoint c ps' ∧ t.str.value ps' = .ok v ∧
      u.str.value ps' = .ok w := by
  have hxm : x ∈ u.m ∧ x ∉ t.m := by
    have : x ∈ u.m.filter (· ∉ t.m) := by rw [hx]; simp
    simpa using List.mem_filter.mp this
  have ht1 : t₁.m = t.m := by rw [ht₁]; split <;> rfl
  have hu1 : u₁.m = x :: u.m.erase x := by rw [hu₁, T3.orient_m]; rfl
  have hum : ∀ k, k ∈ u₁.m ↔ k ∈ u.m := fun k => by rw [hu1]; exact ((List.perm_cons_erase hxm.1).mem_iff).symm
  have hua : u₁.ang = t₁.ang := by rw [hu₁, T3.orient_ang]
  have mt : ∀ k, k ∈ t₁.labels ↔ k ∈ t.labels := by
    intro k; rw [ht₁]; split
    · exact T3.mem_rev
    · rfl
  have mu : ∀ k, k ∈ u₁.labels ↔ k ∈ u.labels := by
    intro k; rw [hu₁, T3.mem_orient, T3.front_mem hxm.1]
  obtain ⟨ps1, r1, l1, ps2, r2, l2, e1, s1, v1, e2, s2, v2, o1, k1, o2, k2, -, -⟩ :=
    steps_middle hT h hua.symm (fun hh => hus ((hum _).mp hh)) w v g1 hy g2 g3
  have keep : u₁.str.value ps2 = .ok w := by
    rw [← v1]
    refine T3.value_congr s1 s2 (fun k hk => (o2 k fun e => hyu ((hum y).mp (e ▸ hk))).2) ?_ ?_
    · split <;> simp only [(o2 _ hys.symm).2]
    · split <;> rename_i b <;> simp only [b, if_true, if_false, Bool.false_eq_true] at k2 <;> rw [k2]
  have hpq' : FirstTwoFree (u₁.labels ++ t₁.labels) p q :=
    firstTwoFree_congr (fun k => by simp only [List.mem_append, mt, mu]; exact or_comm) hpq
  have nl := fun k (hk : k ∈ u₁.labels ++ t₁.labels) => firstTwoFree_ne hpq' hk
  have ns := nl u₁.s (by simp [mem_t3])
  have ny := nl y (by
    obtain ⟨⟨a, b, e, -⟩, -⟩ := hy
    simp [mem_t3, e])
  have hd' : SpecSquare (l2 p) (l2 q) ≠ 0 := by
    rw [(o2 p ny.1.symm).2.2, (o2 q ny.2.symm).2.2, (o1 p ns.1.symm).2.2, (o1 q ns.2.symm).2.2]; exact hd
  obtain ⟨ps3, e3, hc, good, v3, w3, o3⟩ := fixThree_free (c := c) s2 hpq' hd'
  obtain ⟨r3, l3, s3⟩ := good.spin
  refine ⟨ps3, ?_, good, ?_, ?_⟩
  · unfold pair33
    rw [norm33_two_free hpq]
    simp only [plan33_middle h3 hx hs, ← ht₁, ← hu₁]
    rw [decide_eq_true hl]
    simp only [if_true, andThen, e1, e2, e3]
  · have : t.str.value ps3 = t₁.str.value ps3 := by
      rw [ht₁]; split
      · exact (t.value_rev s3).symm
      · rfl
    rw [this, w3, v2]
  · rw [← T3.front_value s3 hxm.1, ← T3.value_orient s3 _ t₁.ang, ← hu₁, v3, keep]

/-- C90, exception: the first string is longer, both begin with the same label, and the label `y` through which the
first is set occurs in the second as well. The second does not end at the value asked for, except for one
value `v₀` of the first. -/
theorem C90_longer_partial [NeZero (2 : K)] {c : Ctx K} {T : Tol K Γ} (hT : T.abs 0 ≤ T.tol) {ps : Point K n}
    {r l : Fin n → V2 K} (h : Spin c ps r l) (longer : Bool) {t u : T3 n} {p q : Fin n}
    (hpq : FirstTwoFree (t.labels ++ u.labels) p q) (hd : SpecSquare (l p) (l q) ≠ 0) (h3 : ¬SameThree t u)
    {x : Fin n} {xs : List (Fin n)} (hx : u.m.filter (· ∉ t.m) = x :: xs) (hn : u.m.Nodup)
    (ha : t.ang = true) (hb : u.ang = true) (hst : u.s = t.s) (hxs : x ≠ t.s) (hl : u.m.length < t.m.length)
    (hus : t.s ∉ u.m) {y : Fin n} (hy : FirstMiddle t y) (hyu : y ∈ u.m) (w : K)
    (g1 : u.slope r l ≠ 0) (g2 : w + u.kept r l * u.rest r l ≠ 0)
    (g3 : SpecSquare (l y) (l t.e) ≠ 0) (g4 : SpecSquare (l y) (l u.e) ≠ 0) :
    ∃ v₀ k, k ≠ 0 ∧ ∀ v, ∃ ps', pair33 c T longer ps t v u w = some (.ok ps') ∧ GoodPoint c ps' ∧
      t.str.value ps' = .ok v ∧ u.str.value ps' = .ok (w + k * (v - v₀)) := by
  have hxm : x ∈ u.m ∧ x ∉ t.m := by
    have : x ∈ u.m.filter (· ∉ t.m) := by rw [hx]; simp
    simpa using List.mem_filter.mp this
  set u₁ : T3 n := u.front x with hu₁
  have ou : u₁.orient t.ang = u₁ := by unfold T3.orient; rw [if_pos]; rw [ha, hu₁]; exact hb
  have hu1 : u₁.m = x :: u.m.erase x := rfl
  have hum : ∀ k, k ∈ u₁.m ↔ k ∈ u.m := fun k => by rw [hu1]; exact ((List.perm_cons_erase hxm.1).mem_iff).symm
  have hua : t.ang = u₁.ang := by rw [ha, hu₁]; exact hb.symm
  have mu : ∀ k, k ∈ u₁.labels ↔ k ∈ u.labels := fun k => T3.front_mem hxm.1
  have pm : u₁.m.Perm u.m := (List.perm_cons_erase hxm.1).symm
  have sl : u₁.slope r l = u.slope r l := (pm.map _).sum_eq
  have rs : u₁.rest r l = u.rest r l := (pm.map _).sum_eq
  have hst' : t.s = u₁.s := hst.symm
  have hy2 := hy
  obtain ⟨⟨a, b, em, ya, yb, -⟩, ys, ye⟩ := hy2
  have hnu : u₁.m.Nodup := pm.nodup_iff.mpr hn
  -- the value of the first string before it is set
  obtain ⟨qs1, a1, b1, -, -, -, f1, t1, w1, -, -, -, p1, j1, -, -, -, -⟩ :=
    steps_middle hT h hua (fun hh => hus (by rw [hst']; exact (hum _).mp hh)) w 0 (by rw [sl]; exact g1) hy
      (by rw [if_pos hst', rs]; exact g2) (by rw [if_pos ha]; exact g3)
  refine ⟨(t.m.map (t.term a1 b1)).sum, SpecSquare (l y) (l u.e) / SpecSquare (l y) (l t.e), div_ne_zero g4 g3, fun v => ?_⟩
  obtain ⟨ps1, r1, l1, ps2, r2, l2, e1, s1, v1, e2, s2, v2, o1, k1, o2, k2, -, -⟩ :=
    steps_middle hT h hua (fun hh => hus (by rw [hst']; exact (hum _).mp hh)) w v (by rw [sl]; exact g1) hy
      (by rw [if_pos hst', rs]; exact g2) (by rw [if_pos ha]; exact g3)
  obtain rfl : qs1 = ps1 := by rw [f1] at e1; injection e1
  obtain ⟨ea, eb⟩ : a1 = r1 ∧ b1 = l1 := by
    constructor <;> funext k
    · have := (t1 k).r_d; rw [(s1 k).r_d] at this; injection this with this; exact this.symm
    · have := (t1 k).l_d; rw [(s1 k).l_d] at this; injection this with this; exact this.symm
  subst ea eb
  rw [← hua, if_pos ha] at k1 k2
  subst k1 k2
  -- only the bracket of the start with `y` changes
  have diff : ∀ (z : T3 n) (zs : List (Fin n)), z.ang = true → z.s = t.s → z.m.Perm (y :: zs) → y ∉ zs →
      (z.m.map (z.term r2 l2)).sum = (z.m.map (z.term a1 l2)).sum +
        (SpecAngle (r2 t.s) (r2 y) - SpecAngle (a1 t.s) (a1 y)) * SpecSquare (l2 y) (l2 z.e) := by
    intro z zs za zt pz hyz
    rw [((pz.map (z.term r2 l2))).sum_eq, ((pz.map (z.term a1 l2))).sum_eq, List.map_cons, List.map_cons, List.sum_cons, List.sum_cons]
    have : zs.map (z.term r2 l2) = zs.map (z.term a1 l2) := by
      refine List.map_congr_left fun k hk => ?_
      simp only [T3.term, za, if_true]
      rw [(o2 k fun e => hyz (e ▸ hk)).2.1, zt, (o2 _ ys.symm).2.1]
    rw [this]
    generalize (zs.map (z.term a1 l2)).sum = S
    unfold T3.term
    rw [za, zt]
    simp only [if_true]
    ring
  have tv := t.value_eq s2
  rw [v2] at tv
  injection tv with tv
  have uv := u₁.value_eq s2
  have uv1 := u₁.value_eq s1
  rw [v1] at uv1
  injection uv1 with uv1
  rw [diff u₁ (u₁.m.erase y) hb hst (List.perm_cons_erase ((hum y).mpr hyu)) (fun hh => (hnu.mem_erase_iff.mp hh).1 rfl), ← uv1] at uv
  rw [diff t (a ++ b) ha rfl (by rw [em]; exact List.perm_middle) (by simp [ya, yb])] at tv
  have hpq' : FirstTwoFree (u₁.labels ++ t.labels) p q :=
    firstTwoFree_congr (fun k => by simp only [List.mem_append, mu]; exact or_comm) hpq
  obtain ⟨ps3, e3, hc, good, v3, w3, o3⟩ := fixThree_free (c := c) s2 hpq' hd
  obtain ⟨r3, l3, s3⟩ := good.spin
  refine ⟨ps3, ?_, good, by rw [w3, v2], ?_⟩
  · unfold pair33
    rw [norm33_two_free hpq]
    simp only [plan33_middle h3 hx (fun e => absurd e hxs), if_neg hxs, ← hu₁, ou]
    rw [decide_eq_true hl]
    simp only [if_true, andThen, e1, e2, e3]
  · rw [← T3.front_value s3 hxm.1, ← hu₁, v3, uv]
    congr 2
    rw [div_mul_eq_mul_div, eq_div_iff g3, tv]
    have : u₁.e = u.e := rfl
    rw [this]
    ring

/-- Spinors are determined by the point. -/
theorem Spin.unique {c : Ctx K} {ps : Point K n} {r l r' l' : Fin n → V2 K} (h : Spin c ps r l) (h' : Spin c ps r' l') :
    r' = r ∧ l' = l := by
  constructor <;> funext k
  · have := (h k).r_d; rw [(h' k).r_d] at this; injection this
  · have := (h k).l_d; rw [(h' k).l_d] at this; injection this

/-- C90, exception: the label that only the middle of the second has is the start of a first string `[x|...|e⟩`. The
strings are not rewritten, and the second is set through the first label `y` in its middle, which the first
has as well. The first does not end at the value asked for, except for one value `w₀` of the second. -/
theorem C90_square_partial [NeZero (2 : K)] {c : Ctx K} {T : Tol K Γ} (hT : T.abs 0 ≤ T.tol) {ps : Point K n}
    {r l : Fin n → V2 K} (h : Spin c ps r l) {t u : T3 n} {p q : Fin n}
    (hpq : FirstTwoFree (t.labels ++ u.labels) p q) (hd : SpecSquare (l p) (l q) ≠ 0) (h3 : ¬SameThree t u)
    {xs : List (Fin n)} (hx : u.m.filter (· ∉ t.m) = t.s :: xs) (hn : t.m.Nodup)
    (ha : t.ang = false) (hb : u.ang = true) (hst : u.s = t.e) (hse : t.s ≠ t.e) (hue : u.e ≠ t.s)
    {y : Fin n} (hy : FirstMiddle u y) (hyt : y ∈ t.m) (v : K)
    (g1 : t.slope r l ≠ 0) (g2 : r t.e 1 ≠ 0) (g3 : SpecSquare (l y) (l u.e) ≠ 0)
    (g4 : (v + l t.s 1 * t.rest r l) * l y 1 ≠ t.slope r l * (l t.s 1 * l y 0)) :
    ∃ w₀ k, k ≠ 0 ∧ ∀ w, ∃ ps', pair33 c T false ps t v u w = some (.ok ps') ∧ GoodPoint c ps' ∧
      u.str.value ps' = .ok w ∧ t.str.value ps' = .ok (v + k * (w - w₀)) := by
  have hxm : t.s ∈ u.m ∧ t.s ∉ t.m := by
    have : t.s ∈ u.m.filter (· ∉ t.m) := by rw [hx]; simp
    simpa using List.mem_filter.mp this
  have hxy : y ≠ t.s := fun e => hxm.2 (e ▸ hyt)
  have hy2 := hy
  obtain ⟨⟨a, b, em, ya, yb, -⟩, ys, ye⟩ := hy2
  obtain ⟨ps1, r1, l1, e1, s1, v1, o1, k1, c1⟩ := setThree_head hT h hxm.2 v (headGuard_of_slope h g1)
  simp only [ha, Bool.false_eq_true, if_false] at k1 c1
  subst k1
  have sl : t.slope r1 l1 = t.slope r1 l := T3.slope_congr (fun k hk => (o1 k fun e => hxm.2 (e ▸ hk)).2) (by simp [ha])
  have rs : t.rest r1 l1 = t.rest r1 l := by
    unfold T3.rest
    congr 1
    refine List.map_congr_left fun k hk => ?_
    simp only [ha, Bool.false_eq_true, if_false, (o1 k fun e => hxm.2 (e ▸ hk)).2.2]
  have val := t.value_slope s1
  rw [v1, sl, rs] at val
  injection val with val
  simp only [T3.moved, T3.kept, ha, Bool.false_eq_true, if_false, c1] at val
  have sq1 : SpecSquare (l1 t.s) (l y) ≠ 0 := by
    intro z
    unfold SpecSquare at z
    rw [c1] at z
    apply g4
    linear_combination (t.slope r1 l) * z + l y 1 * val
  refine ⟨(u.m.map (u.term r1 l1)).sum, -(SpecSquare (l1 t.s) (l y) / SpecSquare (l y) (l u.e)),
    neg_ne_zero.mpr (div_ne_zero sq1 g3), fun w => ?_⟩
  have ly : l1 y = l y := (o1 y hxy).2.2
  have lu : l1 u.e = l u.e := (o1 _ hue).2.2
  obtain ⟨ps2, r2, l2, e2, s2, v2, o2, k2⟩ := setThree_middle hT s1 hy w (by simpa [HeadOk, hb, hst] using g2) (by
    rw [if_pos hb, ly, lu]; exact g3)
  simp only [hb, if_true] at k2
  subst k2
  have ny : t.e ≠ y := fun e => ys (by rw [hst, e])
  have udiff : (u.m.map (u.term r2 l2)).sum = (u.m.map (u.term r1 l2)).sum +
        (SpecAngle (r2 t.e) (r2 y) - SpecAngle (r1 t.e) (r1 y)) * SpecSquare (l2 y) (l2 u.e) := by
    have pz : u.m.Perm (y :: (a ++ b)) := by rw [em]; exact List.perm_middle
    rw [((pz.map (u.term r2 l2))).sum_eq, ((pz.map (u.term r1 l2))).sum_eq, List.map_cons, List.map_cons, List.sum_cons, List.sum_cons]
    have : (a ++ b).map (u.term r2 l2) = (a ++ b).map (u.term r1 l2) := by
      refine List.map_congr_left fun k hk => ?_
      have hk' : k ≠ y := fun e => by
        rw [e, List.mem_append] at hk; exact hk.elim ya yb
      simp only [T3.term, hb, if_true, hst]
      rw [(o2 k hk').2.1, (o2 _ ny).2.1]
    rw [this]
    generalize ((a ++ b).map (u.term r1 l2)).sum = S
    simp only [T3.term, hb, if_true, hst]
    ring
  have tdiff : (t.m.map (t.term r2 l2)).sum = (t.m.map (t.term r1 l2)).sum +
        SpecSquare (l2 t.s) (l2 y) * (SpecAngle (r2 y) (r2 t.e) - SpecAngle (r1 y) (r1 t.e)) := by
    have pz := List.perm_cons_erase hyt
    rw [((pz.map (t.term r2 l2))).sum_eq, ((pz.map (t.term r1 l2))).sum_eq, List.map_cons, List.map_cons, List.sum_cons, List.sum_cons]
    have : (t.m.erase y).map (t.term r2 l2) = (t.m.erase y).map (t.term r1 l2) := by
      refine List.map_congr_left fun k hk => ?_
      have hk' := (hn.mem_erase_iff.mp hk).1
      simp only [T3.term, ha, Bool.false_eq_true, if_false]
      rw [(o2 k hk').2.1, (o2 _ ny).2.1]
    rw [this]
    generalize ((t.m.erase y).map (t.term r1 l2)).sum = S
    simp only [T3.term, ha, Bool.false_eq_true, if_false]
    ring
  have uv := u.value_eq s2
  rw [v2, udiff] at uv
  injection uv with uv
  have tv := t.value_eq s2
  have tv1 := t.value_eq s1
  rw [v1] at tv1
  injection tv1 with tv1
  rw [tdiff, ← tv1] at tv
  have nl := fun k (hk : k ∈ t.labels ++ u.labels) => firstTwoFree_ne hpq hk
  have ns := nl t.s (by simp [mem_t3])
  obtain ⟨ps3, e3, hc, good, v3, w3, o3⟩ := fixThree_free (c := c) s2 hpq (by
    rw [(o1 p ns.1.symm).2.2, (o1 q ns.2.symm).2.2]; exact hd)
  refine ⟨ps3, ?_, good, by rw [w3, v2], ?_⟩
  · have hp : plan33 false t u = .steps t u 2 false := by
      unfold plan33
      unfold SameThree at h3
      simp only [hx]
      rw [if_neg h3, if_pos ⟨by simp, Or.inr fun hh => hse (by injection hh)⟩]
      unfold rebuild33
      simp [hse, ha]
    unfold pair33
    rw [norm33_two_free hpq]
    simp only [hp, Bool.false_eq_true, if_false, andThen, e1, e2, e3]
  · rw [v3, tv]
    congr 2
    rw [ly, lu] at uv
    rw [ly, neg_mul, div_mul_eq_mul_div, eq_neg_iff_add_eq_zero, ← mul_right_inj' g3, mul_add, mul_div_cancel₀ _ g3, uv]
    unfold SpecAngle
    ring

end Lips

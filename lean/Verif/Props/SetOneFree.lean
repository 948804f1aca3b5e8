import Verif.Props.SetPairFix

/-! Property C62, strings that leave one label free: momentum conservation is restored with that label and the head. -/

namespace Lips

variable {K : Type*} [Field K] {n : ℕ}

/-- The bracket of the kind of the head. -/
def headBracket (ps : Point K n) (t : Str n) (p : Fin n) : Except Err K :=
  if t.first = '⟨' then angle (ps p) (ps t.s) else square (ps p) (ps t.s)

theorem headBracket_eq {c : Ctx K} {ps : Point K n} {r l : Fin n → V2 K} (h : Spin c ps r l) (t : Str n) (p : Fin n) :
    headBracket ps t p = .ok (if t.first = '⟨' then SpecAngle (r p) (r t.s) else SpecSquare (l p) (l t.s)) := by
  unfold headBracket
  split
  · simp only [angle, (h p).r_u, (h t.s).r_d, dot2, SpecAngle, Matrix.cons_val_zero, Matrix.cons_val_one]; congr 1; ring
  · simp only [square, (h p).l_d, (h t.s).l_u, dot2, SpecSquare, Matrix.cons_val_zero, Matrix.cons_val_one]; congr 1; ring

/-- The bracket of `p` and the head after the head was set to make the string `X`, times `v 0`, where `v` stands behind
the head: it is not zero. -/
def NewHeadOk (r l : Fin n → V2 K) (t : Str n) (p : Fin n) (v : V2 K) (X : K) : Prop :=
  if t.first = '⟨' then r p 1 * r t.s 0 * v 0 - r p 0 * (X + r t.s 0 * v 1) ≠ 0
  else l p 0 * l t.s 1 * v 0 - l p 1 * (X - l t.s 1 * v 1) ≠ 0

/-- Setting the head, with the bracket of the new head. -/
theorem setHead_bracket [NeZero (2 : K)] {c : Ctx K} {ps : Point K n} {r l : Fin n → V2 K} (h : Spin c ps r l)
    {t : Str n} (w : t.Wf) (hs : t.s ∉ t.ms.flatten) (hne : t.ms.length % 2 = 1 ∨ t.s ≠ t.e) (X : K) {v : V2 K}
    (hv : computeOpenBegin ps (t.ms.map plusOf) t.e t.last = .ok v) (hv0 : v 0 ≠ 0) {p : Fin n} (hps : p ≠ t.s) (hd : NewHeadOk r l t p v X) :
    ∃ ps' r' l', setHead c ps t X = .ok ps' ∧ Spin c ps' r' l' ∧ t.value ps' = .ok X ∧
      (∀ k, k ≠ t.s → ps' k = ps k) ∧ (t.first = '⟨' → l' = l) ∧ (t.first = '[' → r' = r) ∧
      (∀ k, k ≠ t.s → r' k = r k ∧ l' k = l k) ∧
      (if t.first = '⟨' then SpecAngle (r' p) (r' t.s) else SpecSquare (l' p) (l' t.s)) ≠ 0 := by
  rw [openBegin_eq h w] at hv
  injection hv with hv
  obtain ⟨ps1, r1, l1, e1, h1, v1, o1, kl, kr, o1', g1, g2⟩ := setHead_linear_comp h w hs hne X (by rw [hv]; exact hv0)
  refine ⟨ps1, r1, l1, e1, h1, v1, o1, kl, kr, o1', ?_⟩
  have ht : tailSp r1 l1 t = tailSp r l t := by
    unfold tailSp
    rcases hne with q | q
    · rcases w with ⟨w1, w2⟩ | ⟨w1, w2⟩ <;> rw [if_neg (by omega)] at w2
      · rw [w2, kl w1]; simp
      · rw [w2, kr w1]; simp
    · rw [(o1' t.e q.symm).1, (o1' t.e q.symm).2]
  rw [Str.value_eq h1 w, chain_congr' (ps := ps) (fun k hk => o1 k fun e => hs (e ▸ occurs_plus hk)), ht, bil_update, hv] at v1
  injection v1 with v1
  rw [(o1' p hps).1, (o1' p hps).2]
  unfold NewHeadOk at hd
  unfold headSp at v1
  rcases w with ⟨w1, -⟩ | ⟨w1, -⟩
  · simp only [w1, if_true, Matrix.cons_val_zero, Matrix.cons_val_one, g1 w1] at hd v1 ⊢
    refine fun z => hd ?_
    unfold SpecAngle at z
    rw [g1 w1] at z
    linear_combination v 0 * z + r p 0 * v1
  · simp only [w1, show ¬(('[' : Char) = '⟨') by decide, if_false] at hd v1 ⊢
    refine fun z => hd ?_
    unfold SpecSquare at z
    rw [g2 w1] at z v1
    linear_combination v 0 * z + l p 1 * v1

/-- What the method does when it sets the head and one label is free. -/
theorem setNB_one_free {c : Ctx K} {ps ps1 : Point K n} {t : Str n} {p : Fin n} (hp : freeLabels t.labels = [p])
    (hf : t.findFlip = none) (hu : t.uniqueEnd = some false) {X : K} (e : setHead c ps t X = .ok ps1) (fuel : ℕ) :
    setNB c (fuel + 1) ps t X true 1 = fixPair c ps1 p t.s (decide (t.first ≠ '[')) := by
  simp only [setNB, hf]
  simp [e, fixNB, hp, fixFirstTwo, fixPair, hu]

/-- C62: one label `p` is free and no slot can be rewritten; the head occurs once. The head is set so that the string
is `X`, and momentum conservation is restored with the other kind of spinor of the head and of `p`. The guards: the
first component of what stands behind the head, and the bracket of `p` and the new head. -/
theorem C62_head_one_free [NeZero (2 : K)] (c : Ctx K) (ps : Point K n) (r l : Fin n → V2 K)
    (h : ∀ k, IsMassless c (ps k) (r k) (l k)) (t : Str n) (w : t.Wf) (hs : t.s ∉ t.ms.flatten) (hne : t.s ≠ t.e)
    (p : Fin n) (hp : freeLabels t.labels = [p]) (hf : t.findFlip = none) (X : K) {v : V2 K}
    (hv : computeOpenBegin ps (t.ms.map plusOf) t.e t.last = .ok v) (hv0 : v 0 ≠ 0) (fuel : ℕ)
    (hd : NewHeadOk r l t p v X) :
    ∃ ps', setNB c (fuel + 1) ps t X true 1 = .ok ps' ∧ t.value ps' = .ok X ∧ GoodPoint c ps' ∧
      (∀ k, k ≠ t.s → k ≠ p → ps' k = ps k) := by
  have hpl : ∀ k ∈ t.labels, k ≠ p := fun k hk => free_ne hp hk
  have hps : p ≠ t.s := (hpl t.s (by simp [Str.labels])).symm
  obtain ⟨ps1, r1, l1, e1, h1, v1, o1, -, -, -, hd1⟩ := setHead_bracket (h : Spin c ps r l) w hs (Or.inr hne) X hv hv0 hps hd
  have s2 := setNB_one_free hp hf (uniqueEnd_head hs (Or.inr hne)) e1 fuel
  obtain ⟨ps', r', l', e, hc, ho⟩ := fixPair_only c ps1 r1 l1 h1 hps (decide (t.first ≠ '[')) (by
    rcases w with ⟨w1, -⟩ | ⟨w1, -⟩ <;> simpa [w1] using hd1)
  have safe : StrSafe t p t.s (decide (t.first ≠ '[')) := by
    refine ⟨fun k hk => ⟨hpl k (by simp [mem_str, hk]), fun e => hs (e ▸ hk)⟩, Or.inl ?_,
      Or.inr ⟨hpl t.e (by simp [mem_str]), hne.symm⟩⟩
    rcases w with ⟨w1, -⟩ | ⟨w1, -⟩ <;> simp [w1]
  exact ⟨ps', s2.trans e, (safe.value ho w).trans v1, ⟨hc, r', l', ho.after⟩, fun k k1 k2 => (ho.rest k k2 k1).trans (o1 k k1)⟩

/-- C62: the same string with its head as tail, `⟨a|..|a]`. Restoring momentum conservation changes the tail: the
string ends at `X` times the old over the new bracket of `p` and `a`. -/
theorem C62_same_end_one_free_partial [NeZero (2 : K)] (c : Ctx K) (ps : Point K n) (r l : Fin n → V2 K)
    (h : ∀ k, IsMassless c (ps k) (r k) (l k)) (hcons : Conserves ps) (t : Str n) (w : t.Wf) (hs : t.s ∉ t.ms.flatten) (he : t.s = t.e)
    (hodd : t.ms.length % 2 = 1)
    (p : Fin n) (hp : freeLabels t.labels = [p]) (hf : t.findFlip = none) (X : K) {v : V2 K}
    (hv : computeOpenBegin ps (t.ms.map plusOf) t.e t.last = .ok v) (hv0 : v 0 ≠ 0) (fuel : ℕ)
    (hd : NewHeadOk r l t p v X) :
    ∃ ps' x before after, setNB c (fuel + 1) ps t X true 1 = .ok ps' ∧ t.value ps' = .ok x ∧
      headBracket ps t p = .ok before ∧ headBracket ps' t p = .ok after ∧ after ≠ 0 ∧ x * after = X * before := by
  have hpl : ∀ k ∈ t.labels, k ≠ p := fun k hk => free_ne hp hk
  have hps : p ≠ t.s := (hpl t.s (by simp [Str.labels])).symm
  obtain ⟨ps1, r1, l1, e1, h1, v1, o1, kl, kr, o1', hd1⟩ := setHead_bracket (h : Spin c ps r l) w hs (Or.inl hodd) X hv hv0 hps hd
  have s2 := setNB_one_free hp hf (uniqueEnd_head hs (Or.inl hodd)) e1 fuel
  obtain ⟨ps', r', l', e, hc, ho⟩ := fixPair_only c ps1 r1 l1 h1 hps (decide (t.first ≠ '[')) (by
    rcases w with ⟨w1, -⟩ | ⟨w1, -⟩ <;> simpa [w1] using hd1)
  have h' : Spin c ps' r' l' := ho.after
  -- the momenta of the two particles together
  have key : ∀ i j, (ps' p).r2 i j + (ps' t.s).r2 i j = (ps p).r2 i j + (ps t.s).r2 i j := by
    intro i j
    have z : ∑ k, ((ps' k).r2 i j - (ps k).r2 i j) = 0 := by rw [Finset.sum_sub_distrib, hc, hcons, sub_self]
    have z1 : ∑ k, ((ps' k).r2 i j - (ps k).r2 i j) = ∑ k ∈ ({p, t.s} : Finset (Fin n)), ((ps' k).r2 i j - (ps k).r2 i j) := by
      symm
      apply Finset.sum_subset (Finset.subset_univ _)
      intro k _ hk
      simp only [Finset.mem_insert, Finset.mem_singleton, not_or] at hk
      rw [ho.rest k hk.1 hk.2, o1 k hk.2, sub_self]
    rw [z1, Finset.sum_insert (by simpa using hps), Finset.sum_singleton] at z
    linear_combination z
  have k00 := key 0 0
  have k01 := key 0 1
  have k10 := key 1 0
  have k11 := key 1 1
  simp only [(h p).r2, (h t.s).r2, (h' p).r2, (h' t.s).r2, outer_apply, Matrix.cons_val_zero, Matrix.cons_val_one] at k00 k01 k10 k11
  have hchain : chain ps' (t.first = '⟨') (t.ms.map plusOf) = chain ps1 (t.first = '⟨') (t.ms.map plusOf) := by
    refine chain_congr' (fun k hk => ?_) _
    have := occurs_plus hk
    exact ho.rest k (hpl k (by simp [mem_str, this])) (fun e => hs (e ▸ this))
  rw [Str.value_eq h1 w] at v1
  injection v1 with v1
  have hkept := ho.kept
  refine ⟨ps', _, _, _, s2.trans e, Str.value_eq h' w, headBracket_eq h t p, headBracket_eq h' t p, ?_⟩
  rw [hchain, ← v1, bil_eq, bil_eq]
  generalize chain ps1 _ _ = M
  rcases w with ⟨w1, w2⟩ | ⟨w1, w2⟩
  · rw [if_neg (by omega)] at w2
    have rk : r' = r1 := by simpa [w1] using hkept
    have lk := kl w1
    have rp := (o1' p hps).1
    subst rk
    simp only [w1, if_true] at hd1 ⊢
    simp only [headSp, tailSp, w1, w2, if_true, ← he, lk, show ¬((']' : Char) = '⟩') by decide, if_false, Matrix.cons_val_zero, Matrix.cons_val_one]
    refine ⟨hd1, ?_⟩
    have a0 : SpecAngle (r' p) (r' t.s) * l' t.s 0 = SpecAngle (r p) (r t.s) * l t.s 0 := by
      unfold SpecAngle; rw [rp] at k10 k11 ⊢
      linear_combination r p 0 * k10 + r p 1 * k11
    have a1 : SpecAngle (r' p) (r' t.s) * l' t.s 1 = SpecAngle (r p) (r t.s) * l t.s 1 := by
      unfold SpecAngle; rw [rp] at k00 k01 ⊢
      linear_combination -r p 0 * k00 - r p 1 * k01
    linear_combination (r' t.s 1 * M 0 0 - r' t.s 0 * M 1 0) * a1 - (r' t.s 1 * M 0 1 - r' t.s 0 * M 1 1) * a0
  · rw [if_neg (by omega)] at w2
    have lk : l' = l1 := by simpa [w1] using hkept
    have rk := kr w1
    have lp := (o1' p hps).2
    subst lk
    simp only [w1, show ¬(('[' : Char) = '⟨') by decide, if_false] at hd1 ⊢
    simp only [headSp, tailSp, w1, w2, if_true, ← he, rk, show ¬(('[' : Char) = '⟨') by decide, if_false]
    refine ⟨hd1, ?_⟩
    have a0 : SpecSquare (l' p) (l' t.s) * r' t.s 0 = SpecSquare (l p) (l t.s) * r t.s 0 := by
      unfold SpecSquare; rw [lp] at k01 k11 ⊢
      linear_combination -l p 0 * k01 - l p 1 * k11
    have a1 : SpecSquare (l' p) (l' t.s) * r' t.s 1 = SpecSquare (l p) (l t.s) * r t.s 1 := by
      unfold SpecSquare; rw [lp] at k00 k10 ⊢
      linear_combination l p 0 * k00 + l p 1 * k10
    linear_combination (l' t.s 0 * M 0 0 + l' t.s 1 * M 1 0) * a0 + (l' t.s 0 * M 0 1 + l' t.s 1 * M 1 1) * a1

end Lips

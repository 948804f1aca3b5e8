import Verif.Lemmas.Set

/-! Property C61: setting two-particle brackets. -/

namespace Lips

open Matrix

variable {K : Type*} [Field K] {n : ℕ}

/-- C61: setting `⟨A|B⟩` to `X`, with the first component of `⟨A|` and the angle bracket of the two
smallest other labels `p`, `q` nonzero: the bracket is `X` exactly, momentum is conserved, all
particles are massless and consistent and have spinors, `|B⟩`, `|p]` and `|q]` are all that changes. -/
theorem C61_set_angle [NeZero (2 : K)] (c : Ctx K) (ps : Point K n) (r l : Fin n → V2 K)
    (h : ∀ k, IsMassless c (ps k) (r k) (l k)) (A B p q : Fin n) (hAB : A ≠ B) (hpq : FirstTwoFree [A, B] p q)
    (X : K) (hA : r A 1 ≠ 0) (hd : SpecAngle (r p) (r q) ≠ 0) :
    ∃ ps', setA2 c ps A B X true = .ok ps' ∧ angle (ps' A) (ps' B) = .ok X ∧ Conserves ps' ∧
      (∃ r' l' : Fin n → V2 K, ∀ k, IsMassless c (ps' k) (r' k) (l' k)) ∧
      ps' A = ps A ∧ (ps' B).l_d = some (l B) ∧ (ps' p).r_d = some (r p) ∧ (ps' q).r_d = some (r q) ∧
      (∀ k, k ≠ B → k ≠ p → k ≠ q → ps' k = ps k) := by
  have hs : Spin c ps r l := h
  have hApq := firstTwoFree_ne hpq (k := A) (by simp)
  have hBpq := firstTwoFree_ne hpq (k := B) (by simp)
  obtain ⟨b, e1, hb⟩ := setRd_massless (h B) ![(X - (-r A 0) * r B 1) / r A 1, r B 1]
  obtain ⟨ps1, e2, h1, o1⟩ := store_r hs B e1 hb
  obtain ⟨ps2, l2, e3, hc, h2, o2⟩ := fixAxis2_spin h1 hpq.2.2.1.ne (a := p) (b := q) (by
    rw [Function.update_of_ne hBpq.1.symm, Function.update_of_ne hBpq.2.symm]; exact hd)
  have eA : ps2 A = ps A := (o2 A hApq.1 hApq.2).1.trans (o1 A hAB)
  have run : setA2 c ps A B X true = .ok ps2 := by
    simp only [setA2, (h A).r_u, (h B).r_d, need_some, Matrix.cons_val_zero, Matrix.cons_val_one,
      pyDiv_ok hA, e2, fixIf, if_true, fixFirstTwo_eq c ps1 hpq, e3]
  refine ⟨ps2, run, ?_, hc, ⟨_, _, h2⟩, eA, ?_, ?_, ?_, ?_⟩
  · have hB := (h2 B).r_d
    rw [Function.update_self] at hB
    simp only [angle, eA, (h A).r_u, hB, dot2, Matrix.cons_val_zero, Matrix.cons_val_one]
    congr 1; field_simp; ring
  · rw [(h2 B).l_d, (o2 B hBpq.1 hBpq.2).2]
  · rw [(h2 p).r_d, Function.update_of_ne hBpq.1.symm]
  · rw [(h2 q).r_d, Function.update_of_ne hBpq.2.symm]
  · intro k hB hp hq
    exact (o2 k hp hq).1.trans (o1 k hB)

/-- C61: setting `[A|B]`, likewise. -/
theorem C61_set_square [NeZero (2 : K)] (c : Ctx K) (ps : Point K n) (r l : Fin n → V2 K)
    (h : ∀ k, IsMassless c (ps k) (r k) (l k)) (A B p q : Fin n) (hAB : A ≠ B) (hpq : FirstTwoFree [A, B] p q)
    (X : K) (hA : l A 0 ≠ 0) (hd : SpecSquare (l p) (l q) ≠ 0) :
    ∃ ps', setS2 c ps A B X true = .ok ps' ∧ square (ps' A) (ps' B) = .ok X ∧ Conserves ps' ∧
      (∃ r' l' : Fin n → V2 K, ∀ k, IsMassless c (ps' k) (r' k) (l' k)) ∧
      ps' A = ps A ∧ (ps' B).r_d = some (r B) ∧ (ps' p).l_d = some (l p) ∧ (ps' q).l_d = some (l q) ∧
      (∀ k, k ≠ B → k ≠ p → k ≠ q → ps' k = ps k) := by
  have hs : Spin c ps r l := h
  have hApq := firstTwoFree_ne hpq (k := A) (by simp)
  have hBpq := firstTwoFree_ne hpq (k := B) (by simp)
  obtain ⟨b, e1, hb⟩ := setLu_massless (h B) ![(X - l A 1 * (-l B 0)) / l A 0, -l B 0]
  obtain ⟨ps1, e2, h1, o1⟩ := store_l hs B e1 hb
  obtain ⟨ps2, l2, e3, hc, h2, o2⟩ := fixAxis1_spin h1 hpq.2.2.1.ne (a := p) (b := q) (by
    rw [Function.update_of_ne hBpq.1.symm, Function.update_of_ne hBpq.2.symm]; exact hd)
  have eA : ps2 A = ps A := (o2 A hApq.1 hApq.2).1.trans (o1 A hAB)
  have run : setS2 c ps A B X true = .ok ps2 := by
    simp only [setS2, (h A).l_d, (h B).l_u, need_some, Matrix.cons_val_zero, Matrix.cons_val_one,
      pyDiv_ok hA, e2, fixIf, if_true, fixFirstTwo_eq c ps1 hpq, e3]
    simp
  refine ⟨ps2, run, ?_, hc, ⟨_, _, h2⟩, eA, ?_, ?_, ?_, ?_⟩
  · have hB := (h2 B).l_u
    rw [Function.update_self] at hB
    simp only [square, eA, (h A).l_d, hB, dot2, Matrix.cons_val_zero, Matrix.cons_val_one]
    congr 1; field_simp; ring
  · rw [(h2 B).r_d, (o2 B hBpq.1 hBpq.2).2]
  · rw [(h2 p).l_d, Function.update_of_ne hBpq.1.symm]
  · rw [(h2 q).l_d, Function.update_of_ne hBpq.2.symm]
  · intro k hB hp hq
    exact (o2 k hp hq).1.trans (o1 k hB)

/-- C61: with at least four particles the two compensating labels exist. -/
theorem C61_four_particles (hn : 4 ≤ n) (A B : Fin n) : ∃ p q, FirstTwoFree [A, B] p q := by
  apply exists_firstTwoFree
  have : ([A, B].dedup).length ≤ 2 := (List.dedup_sublist [A, B]).length_le
  omega

/-- C61: the guard is needed, a vanishing first component raises. -/
theorem C61_guards (c : Ctx K) (ps : Point K n) (r l : Fin n → V2 K)
    (h : ∀ k, IsMassless c (ps k) (r k) (l k)) (A B : Fin n) (X : K) (hA : r A 1 = 0) :
    setA2 c ps A B X true = .error .zeroDivision := by
  simp [setA2, (h A).r_u, (h B).r_d, need_some, hA, pyDiv]

end Lips

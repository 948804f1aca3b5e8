import Verif.Props.Pair3S
import Verif.Examples.Pair

/-! Concrete cases meeting the hypotheses of the theorems on setting a three-bracket and a Mandelstam invariant. -/

namespace Lips

/-- What setting a Mandelstam invariant leaves as it was. -/
theorem setMandel_others {n : ℕ} {c : Ctx F13} {ps qs : Point F13 n} {r l r' l' : Fin n → V2 F13} (h : Spin c ps r l) {i : Fin n}
    {rest : List (Fin n)} (hi : i ∉ rest) (hlen : 2 ≤ rest.length) {w : F13} (h1 : SecondOk ps i rest ']')
    (e : setMandel c T13 (i :: rest) 1 w ps = .ok qs) (s : Spin c qs r' l') :
    l' = l ∧ ∀ k, k ≠ i → r' k = r k := by
  obtain ⟨u, hu, hu0⟩ := h1
  obtain ⟨ps1, r1, l1, e1, s1, -, o1, k1, -⟩ := setMandel_spec T13_zero h hi hlen (mode := 1) (.inl rfl) w (by simpa using hu) hu0
  rw [e] at e1
  injection e1 with e1
  subst e1
  have er : r' = r1 := funext fun k => by
    have a := (s k).r_d
    rw [(s1 k).r_d] at a
    injection a with a
    exact a.symm
  have el : l' = l1 := funext fun k => by
    have a := (s k).l_d
    rw [(s1 k).l_d] at a
    injection a with a
    exact a.symm
  subst er el
  exact ⟨k1 rfl, fun k hk => (o1 k hk).2.1⟩

/-- C97: at eight points `⟨1|2+3|4]` to 7 and `s_524` to 5. -/
example : ∃ ps', pair3S (f13 .symmetric) T13 pt8 ⟨true, 0, [1, 2], 3⟩ 7 [4, 1, 3] 5 = .ok ps' ∧ GoodPoint (f13 .symmetric) ps' ∧
    (⟨true, 0, [1, 2], 3⟩ : T3 8).str.value ps' = .ok 7 ∧ computeS ps' [4, 1, 3] = 5 := by
  have hok : SecondOk pt8 4 [1, 3] ']' := of_headOk (by decide +kernel)
  obtain ⟨ps', h1, h2, h3, h4, -⟩ := C97_two_free (f13 .symmetric) T13 T13_zero pt8 r8 l8 spin_pt8 ⟨true, 0, [1, 2], 3⟩ ⟨true, 0, [1, 2], 3⟩
    (by decide : [(1 : Fin 8), 2].Nodup) 1 4 [1, 3] (by decide) (by decide) (by decide) 5 6 (by decide) 7 5 hok
    (fun qs r' l' e s => by
      obtain ⟨hl, hr⟩ := setMandel_others spin_pt8 (by decide) (by decide) hok e s
      refine ⟨by decide, ?_⟩
      rw [T3.slope_congr (r := r8) (l := l8) (fun k hk => ⟨hr k (by rintro rfl; revert hk; decide), by rw [hl]⟩) (by simp [hl])]
      decide +kernel) (by decide)
  exact ⟨ps', h1, h2, h3, h4⟩

/-- The spinors of `spin6`, with another right spinor of particle six. -/
def spin6s : Fin 6 → V2 F13 × V2 F13 := Function.update spin6 5 (![0, 1], ![1, 1])

/-- C97: at six points, with one label free. -/
example : ∃ ps', pair3S (f13 .symmetric) T13 (spinPoint (f13 .symmetric) spin6s) ⟨true, 0, [1, 2], 3⟩ 7 [4, 1, 2] 5 = .ok ps' ∧
    GoodPoint (f13 .symmetric) ps' ∧ (⟨true, 0, [1, 2], 3⟩ : T3 6).str.value ps' = .ok 7 ∧ computeS ps' [4, 1, 2] = 5 := by
  have hsp : Spin (f13 .symmetric) (spinPoint (f13 .symmetric) spin6s) (fun k => (spin6s k).1) (fun k => (spin6s k).2) :=
    spinPoint_isMassless (f13 .symmetric) spin6s
  have hok : SecondOk (spinPoint (f13 .symmetric) spin6s) 4 [1, 2] ']' := of_headOk (by decide +kernel)
  have slope : ∀ {r' l' : Fin 6 → V2 F13}, l' = (fun k => (spin6s k).2) → (∀ k, k ≠ 4 → r' k = (spin6s k).1) →
      (⟨true, 0, [1, 2], 3⟩ : T3 6).slope r' l' ≠ 0 := by
    intro r' l' hl hr
    rw [T3.slope_congr (r := fun k => (spin6s k).1) (l := fun k => (spin6s k).2)
      (fun k hk => ⟨hr k (by rintro rfl; revert hk; decide), by rw [hl]⟩) (by simp [hl])]
    decide +kernel
  obtain ⟨ps', h1, h2, h3, h4, -⟩ := C97_one_free (f13 .symmetric) T13 T13_zero _ _ _ hsp ⟨true, 0, [1, 2], 3⟩ ⟨true, 0, [1, 2], 3⟩
    (by decide : [(1 : Fin 6), 2].Nodup) 4 [1, 2] (by decide) (by decide) (by decide) (by decide : (0 : Fin 6) ≠ 3) 5 (by decide)
    (by decide) (by decide) 7 5 hok
    (fun qs r' l' e s => by
      obtain ⟨hl, hr⟩ := setMandel_others hsp (by decide) (by decide) hok e s
      exact ⟨by decide, slope hl hr⟩)
    (fun qs r' l' e s => by
      obtain ⟨u, hu, hu0⟩ := hok
      obtain ⟨ps1, r1, l1, e1, s1, -, o1, k1, -⟩ := setMandel_spec (T := T13) T13_zero hsp (i := 4) (rest := [1, 2]) (by decide) (by decide)
        (mode := 1) (.inl rfl) 5 (by simpa using hu) hu0
      obtain ⟨ps2, r2, l2, e2, s2, -, o2, -, hk⟩ := setThree_head (T := T13) T13_zero s1 (t := ⟨true, 0, [1, 2], 3⟩) (by decide : (0 : Fin 6) ∉ [1, 2])
        7 (headGuard_of_slope s1 (slope (k1 rfl) fun k hk => (o1 k hk).2.1))
      rw [e1] at e
      simp only [andThen, e2] at e
      injection e with e
      subst e
      have er : r' = r2 := funext fun k => by
        have a := (s k).r_d
        rw [(s2 k).r_d] at a
        injection a with a
        exact a.symm
      subst er
      simp only [if_true] at hk ⊢
      have e5 : r' 5 = ![0, 1] := by
        rw [(o2 5 (by decide)).2.1, (o1 5 (by decide)).2.1]; rfl
      have e0 : r' 0 0 = (spin6s 0).1 0 := by rw [hk, (o1 0 (by decide)).2.1]
      have : SpecAngle (r' 5) (r' 0) = r' 0 0 ∨ SpecAngle (r' 5) (r' 0) = - r' 0 0 := by
        rw [e5]; unfold SpecAngle; simp
      rcases this with h | h <;> rw [h, e0] <;> decide)
  exact ⟨ps', h1, h2, h3, h4⟩

/-- C97 (finding): at six points `⟨1|2+3|4]` to 7 and `s_5134` to 5: the total momentum is not zero. -/
example : ∃ ps', pair3S (f13 .symmetric) T13 pt6 ⟨true, 0, [1, 2], 3⟩ 7 [4, 0, 2, 3] 5 = .ok ps' ∧
    (⟨true, 0, [1, 2], 3⟩ : T3 6).str.value ps' = .ok 7 ∧ computeS ps' [4, 0, 2, 3] = 5 ∧ ¬ Conserves ps' := by
  have hok : SecondOk pt6 4 [0, 2, 3] ']' := of_headOk (by decide +kernel)
  exact C97_not_conserving_partial (f13 .symmetric) T13 T13_zero pt6 r6 l6 pt6_massless pt6_conserves ⟨true, 0, [1, 2], 3⟩
    ⟨true, 0, [1, 2], 3⟩ rfl (by decide : [(1 : Fin 6), 2].Nodup) 4 [0, 2, 3] (by decide) (by decide) (by decide) 5 (by decide) (by decide)
    (by decide) 7 5 hok
    (fun qs r' l' e s => by
      obtain ⟨hl, hr⟩ := setMandel_others pt6_massless (by decide) (by decide) hok e s
      refine ⟨?_, fun x hx => ?_⟩
      · unfold HeadOk
        simp only [if_true]
        rw [hr 0 (by decide)]; decide
      · simp only [List.head?_cons, Option.some.injEq] at hx
        subst hx
        simp only [if_true]
        rw [hl]; decide) (by decide) (by decide +kernel)

/-- C97: `⟨1|2+3|4]` and `s_234` at six points, and both rewritings. -/
example : freeAsIs (n := 6) ⟨true, 0, [1, 2], 3⟩ [0, 4, 5] = 0 ∧ freeFirst (n := 6) ⟨true, 0, [1, 2], 3⟩ [0, 4, 5] = 2 ∧
    freeAsIs (n := 7) ⟨true, 0, [1, 2, 4], 3⟩ [0, 3, 5] = 1 ∧ freeFirst (n := 7) ⟨true, 0, [1, 2, 4], 3⟩ [0, 3, 5] = 1 ∧
    freeSecond (n := 7) ⟨true, 0, [1, 2, 4], 3⟩ [0, 3, 5] = 3 := by decide

/-- Spinors of five particles. -/
def spin5s (k : Fin 5) : V2 F13 × V2 F13 := (![k.val + 1, k.val ^ 2 + 2], ![k.val ^ 2 + 4, 3 * k.val + 2])

/-- C97: at five points `⟨1|2+3|4]` and `s_523` leave no label free; the method returns, and momentum is conserved. -/
example : ∃ ps', pair3S (f13 .symmetric) T13 (spinPoint (f13 .symmetric) spin5s) ⟨true, 0, [1, 2], 3⟩ 7 [4, 1, 2] 5 = .ok ps' ∧
    ∀ i j, T13.abs (∑ k, (ps' k).r2 i j) ≤ T13.tol := by
  have hsp : Spin (f13 .symmetric) (spinPoint (f13 .symmetric) spin5s) (fun k => (spin5s k).1) (fun k => (spin5s k).2) :=
    spinPoint_isMassless (f13 .symmetric) spin5s
  have hok : SecondOk (spinPoint (f13 .symmetric) spin5s) 4 [1, 2] ']' := of_headOk (by decide +kernel)
  have hp : plan3S (⟨true, 0, [1, 2], 3⟩ : T3 5) [4, 1, 2] = some (⟨true, 0, [1, 2], 3⟩, 1) := by decide
  obtain ⟨ps1, r1, l1, ps2, r2, l2, e1, e2, s1, s2, -, -, -, -, hl1, -, o2, k2⟩ := steps3S T13_zero hsp hp
    (by decide : [(1 : Fin 5), 2].Nodup) rfl (by decide) (by decide) 7 5 hok (fun qs r' l' e s => by
      obtain ⟨hl, hr⟩ := setMandel_others hsp (by decide) (by decide) hok e s
      refine ⟨by decide, ?_⟩
      rw [T3.slope_congr (r := fun k => (spin5s k).1) (l := fun k => (spin5s k).2)
        (fun k hk => ⟨hr k (by rintro rfl; revert hk; decide), by rw [hl]⟩) (by simp [hl])]
      decide +kernel)
  simp only [if_true] at k2
  obtain ⟨ps3, r3, l3, e3, hc, -⟩ := fixPair_only (f13 .symmetric) ps2 r2 l2 s2 (by decide : (4 : Fin 5) ≠ 1) false (by
    rw [if_neg (by decide), k2, hl1]; decide)
  have chk : momentumConservationCheck T13.abs T13.tol ps3 = .ok true :=
    (C49_momentum_conservation_check T13.abs T13.tol ps3).1.mpr fun i j => by rw [hc i j]; exact T13_zero
  have hr : pair3S (f13 .symmetric) T13 (spinPoint (f13 .symmetric) spin5s) ⟨true, 0, [1, 2], 3⟩ 7 [4, 1, 2] 5 = .ok ps3 := by
    unfold pair3S
    rw [if_pos (.inr (by decide))]
    unfold direct3S
    rw [hp]
    simp only [andThen, e1, e2]
    unfold fix3S
    rw [show freeLabels ([4, 1, 2] ++ (⟨true, 0, [1, 2], 3⟩ : T3 5).labels) = [] by decide]
    have e3' : fixAxis1 (f13 .symmetric) ps2 4 1 = .ok ps3 := e3
    simp only [andThen, e3', chk]
  exact ⟨ps3, hr, C97_none_free_checked (f13 .symmetric) T13 _ ps3 _ _ 1 7 5 [4, 1, 2] hp (by decide) (by decide) (by decide) hr⟩

end Lips

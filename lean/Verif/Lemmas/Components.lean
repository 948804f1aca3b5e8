import Verif.Model.Components
import Verif.Lemmas.Set
import Verif.Examples.Compute
import Verif.Props.Generators

/-! Helper lemmas on writing all spinor components. -/

namespace Lips

open Matrix

set_option linter.unusedSectionVars false

variable {K : Type*} [Field K] {n : ℕ}

/-- Whatever the particle was, once all four spinor slots are written it is the particle built from them. -/
theorem rebuild_all (c : Ctx K) (p : Particle K) (r l : V2 K) :
    rebuildFromSpinors c { p with r_d := some r, l_d := some l, r_u := some (rDownUp r), l_u := some (lDownUp l) } =
      ⟨(ofSpinors c r l).st, none⟩ := by
  simp only [rebuildFromSpinors, ofSpinors, setLd, momFromR2b]

theorem setRd_of_l (c : Ctx K) (p : Particle K) (l : V2 K) (h : p.l_d = some l) (h' : p.l_u = some (lDownUp l)) (s : V2 K) :
    setRd c p s = ⟨(ofSpinors c s l).st, none⟩ := by
  rw [← rebuild_all c p s l, setRd]
  congr 1
  cases p; simp_all

theorem setLd_of_r (c : Ctx K) (p : Particle K) (r : V2 K) (h : p.r_d = some r) (h' : p.r_u = some (rDownUp r)) (s : V2 K) :
    setLd c p s = ⟨(ofSpinors c r s).st, none⟩ := by
  rw [← rebuild_all c p r s, setLd]
  congr 1
  cases p; simp_all

theorem ofSpinors_fields (c : Ctx K) (r l : V2 K) :
    (ofSpinors c r l).st.r_d = some r ∧ (ofSpinors c r l).st.l_d = some l ∧
      (ofSpinors c r l).st.r_u = some (rDownUp r) ∧ (ofSpinors c r l).st.l_u = some (lDownUp l) := by
  simp [ofSpinors, setLd, rebuildFromSpinors]

theorem setRd_ofSpinors (c : Ctx K) (r l s : V2 K) :
    setRd c (ofSpinors c r l).st s = ⟨(ofSpinors c s l).st, none⟩ :=
  setRd_of_l c _ l (ofSpinors_fields c r l).2.1 (ofSpinors_fields c r l).2.2.2 s

theorem setLd_ofSpinors (c : Ctx K) (r l s : V2 K) :
    setLd c (ofSpinors c r l).st s = ⟨(ofSpinors c r s).st, none⟩ :=
  setLd_of_r c _ r (ofSpinors_fields c r l).1 (ofSpinors_fields c r l).2.2.1 s

/-- A massless particle is determined by its spinors. -/
theorem IsMassless.eq_of [NeZero (2 : K)] {c : Ctx K} {p q : Particle K} {r l : V2 K} (hp : IsMassless c p r l)
    (hq : IsMassless c q r l) : p = q := by
  have h2 : p.r2 = q.r2 := by rw [hp.r2, hq.r2]
  have hm : p.mom = q.mom ∧ p.mom_d = q.mom_d := by
    rcases hi : c.imag with _ | i
    · rw [(hp.cons.mom.mom_none hi).1, (hp.cons.mom.mom_none hi).2, (hq.cons.mom.mom_none hi).1, (hq.cons.mom.mom_none hi).2]
      exact ⟨rfl, rfl⟩
    · obtain ⟨v, vd, a1, a2, a3, a4⟩ := hp.cons.mom.mom_some i hi
      obtain ⟨w, wd, b1, b2, b3, b4⟩ := hq.cons.mom.mom_some i hi
      have hi2 := c.imag_sq i hi
      have i0 : i ≠ 0 := by rintro rfl; simp at hi2
      have t0 : (2 : K) ≠ 0 := NeZero.ne 2
      rw [h2] at a4
      obtain ⟨p1, p2, p3, p4⟩ := a4
      obtain ⟨q1, q2, q3, q4⟩ := b4
      have e0 : v 0 = w 0 := mul_left_cancel₀ t0 (by linear_combination q1 + q4 - p1 - p4)
      have e3 : v 3 = w 3 := mul_left_cancel₀ t0 (by linear_combination p1 - p4 - q1 + q4)
      have e1 : v 1 = w 1 := mul_left_cancel₀ t0 (by linear_combination p2 + p3 - q2 - q3)
      have e2 : v 2 = w 2 := mul_left_cancel₀ (mul_ne_zero t0 i0) (by linear_combination p3 - p2 - q3 + q2)
      have ev : v = w := by funext μ; fin_cases μ <;> assumption
      obtain ⟨c0, c1, c2, c3⟩ := a3
      obtain ⟨d0, d1, d2, d3⟩ := b3
      have ed : vd = wd := by
        funext μ; fin_cases μ
        · exact c0.trans (e0.trans d0.symm)
        · exact c1.trans ((congrArg _ e1).trans d1.symm)
        · exact c2.trans ((congrArg _ e2).trans d2.symm)
        · exact c3.trans ((congrArg _ e3).trans d3.symm)
      rw [a1, a2, b1, b2, ev, ed]; exact ⟨rfl, rfl⟩
  have f1 := hp.r_d.trans hq.r_d.symm
  have f2 := hp.l_d.trans hq.l_d.symm
  have f3 := hp.r_u.trans hq.r_u.symm
  have f4 := hp.l_u.trans hq.l_u.symm
  have f5 := hp.r2b.trans hq.r2b.symm
  obtain ⟨f6, f7⟩ := hm
  cases p; cases q
  simp only at *
  subst h2 f1 f2 f3 f4 f5 f6 f7
  rfl

theorem IsMassless.eq_ofSpinors [NeZero (2 : K)] {c : Ctx K} {p : Particle K} {r l : V2 K} (h : IsMassless c p r l) :
    p = (ofSpinors c r l).st := h.eq_of (ofSpinors_isMassless c r l)

/-- The positions in `ks` get new particles. -/
def assign (g : Fin n → Particle K) (ks : List (Fin n)) (ps : Point K n) : Point K n := fun k => if k ∈ ks then g k else ps k

theorem assign_cons (g : Fin n → Particle K) (k : Fin n) (ks : List (Fin n)) (ps : Point K n) :
    assign g ks (Function.update ps k (g k)) = assign g (k :: ks) ps := by
  funext j
  simp only [assign, List.mem_cons]
  by_cases h1 : j ∈ ks <;> by_cases h2 : j = k <;> simp_all

theorem assign_finRange (g : Fin n → Particle K) (ps : Point K n) : assign g (List.finRange n) ps = g := by
  funext j; simp [assign]

theorem store_ok (ps : Point K n) (k : Fin n) (p : Particle K) : store ps k ⟨p, none⟩ = .ok (Function.update ps k p) := rfl

theorem symbolName_inj {a b : Char} {i j : ℕ} (h : symbolName a i = symbolName b j) : a = b ∧ i = j := by
  simp only [symbolName, List.cons.injEq] at h
  exact ⟨h.1, by have := pyStr_inj h.2; omega⟩

end Lips

import Verif.Model.Construct
import Verif.Props.Slices
import Verif.Examples.Compute

/-!
C109: the phase-space points that the constructor and `randomise_all` return.
-/

namespace Lips

open Matrix

variable {K : Type*} [Field K] {n : ℕ}

/-! ### Specification -/

/-- The sum of the momenta with these spinors is zero. -/
def SumZero (r l : Fin n → V2 K) : Prop := ∀ i j, ∑ k, r k i * l k j = 0

/-- The right spinors `r'` differ from `r` at two particles only, make the sum of the momenta zero, and are the only ones that do. -/
structure Repairs (r l : Fin n → V2 K) (a b : Fin n) (r' : Fin n → V2 K) : Prop where
  others : ∀ k, k ≠ a → k ≠ b → r' k = r k
  zero : SumZero r' l
  unique : ∀ s : Fin n → V2 K, (∀ k, k ≠ a → k ≠ b → s k = r k) → SumZero s l → s = r'

/-! ### Spinors -/

theorem split_pair {a b : Fin n} (hab : a ≠ b) (f : Fin n → K) : ∑ k, f k = f a + f b + ∑ k with k ≠ a ∧ k ≠ b, f k := by
  classical
  rw [← Finset.sum_filter_add_sum_filter_not Finset.univ (fun k => k ≠ a ∧ k ≠ b) f, add_comm]
  congr 1
  have e : (Finset.univ.filter fun k => ¬ (k ≠ a ∧ k ≠ b)) = {a, b} := by
    ext k; simp only [Finset.mem_filter, Finset.mem_univ, true_and, Finset.mem_insert, Finset.mem_singleton]; tauto
  rw [e, Finset.sum_pair hab]

/-- Two particles whose square bracket is not zero can absorb a momentum in one way only. -/
theorem repair_unique {r s l : Fin n → V2 K} {a b : Fin n} (hab : a ≠ b) (hd : SpecSquare (l a) (l b) ≠ 0)
    (ho : ∀ k, k ≠ a → k ≠ b → s k = r k) (hr : SumZero r l) (hs : SumZero s l) : s = r := by
  have key : ∀ i j, (s a i - r a i) * l a j + (s b i - r b i) * l b j = 0 := by
    intro i j
    have e1 := hr i j
    have e2 := hs i j
    rw [split_pair hab] at e1 e2
    have e3 : ∑ k with k ≠ a ∧ k ≠ b, s k i * l k j = ∑ k with k ≠ a ∧ k ≠ b, r k i * l k j := by
      refine Finset.sum_congr rfl fun k hk => ?_
      obtain ⟨h1, h2⟩ := (Finset.mem_filter.mp hk).2
      rw [ho k h1 h2]
    rw [e3] at e2
    linear_combination e2 - e1
  have ha : ∀ i, s a i = r a i := fun i => by
    have : (s a i - r a i) * SpecSquare (l a) (l b) = 0 := by
      unfold SpecSquare; linear_combination l b 1 * key i 0 - l b 0 * key i 1
    exact sub_eq_zero.mp ((mul_eq_zero.mp this).resolve_right hd)
  have hb : ∀ i, s b i = r b i := fun i => by
    have : (s b i - r b i) * SpecSquare (l a) (l b) = 0 := by
      unfold SpecSquare; linear_combination l a 0 * key i 1 - l a 1 * key i 0
    exact sub_eq_zero.mp ((mul_eq_zero.mp this).resolve_right hd)
  funext k
  by_cases h1 : k = a
  · subst h1; exact funext ha
  · by_cases h2 : k = b
    · subst h2; exact funext hb
    · exact ho k h1 h2

/-! ### `fix_mom_cons()` -/

/-- C109: `randomise_all` and `fix_mom_cons()` return the one repaired point, or raise ZeroDivisionError if the bracket of the two drawn
particles is zero. -/
theorem C109_fix [NeZero (2 : K)] {c : Ctx K} {ps : Point K n} {r l : Fin n → V2 K} (h : Spin c ps r l) (draw : ℕ × ℕ)
    (h1 : 1 ≤ draw.1 ∧ draw.1 ≤ n) (h2 : 1 ≤ draw.2 ∧ draw.2 ≤ n) (hne : draw.1 ≠ draw.2) :
    (SpecSquare (l (pos _ h1)) (l (pos _ h2)) ≠ 0 →
      ∃ ps' r', fixRandom c ps false draw = .ok ps' ∧ Spin c ps' r' l ∧ Repairs r l (pos _ h1) (pos _ h2) r' ∧
        ∀ k, k ≠ pos _ h1 → k ≠ pos _ h2 → ps' k = ps k) ∧
    (SpecSquare (l (pos _ h1)) (l (pos _ h2)) = 0 → fixRandom c ps false draw = .error .zeroDivision) := by
  have hab : pos _ h1 ≠ pos _ h2 := by
    intro e; have := congrArg Fin.val e; simp only [pos] at this; omega
  have e : fixRandom c ps false draw = fixAxis1 c ps (pos _ h1) (pos _ h2) := by
    have n2 : ¬ n < 2 := by omega
    have : draw.1 ≠ 0 := by omega
    have : draw.2 ≠ 0 := by omega
    simp only [fixRandom, if_neg n2, fixMomCons, label_ok h1, label_ok h2]
    simp [*, pos]
  rw [e]
  constructor
  · intro hd
    obtain ⟨ps', r', e1, e2, e3, e4⟩ := fixAxis1_spin h hab hd
    have z := e3.conserves_iff.mp e2
    exact ⟨ps', r', e1, e3, ⟨fun k k1 k2 => (e4 k k1 k2).2, z, fun s hs hz => repair_unique hab hd
      (fun k k1 k2 => (hs k k1 k2).trans (e4 k k1 k2).2.symm) z hz⟩, fun k k1 k2 => (e4 k k1 k2).1⟩
  · intro hd
    exact C09_vanishing_bracket_raises c ps _ _ (h _).cons.spin (h _).l_d (h _).l_d hd

/-! ### The constructor -/

theorem construct_total {Γ : Type*} [LinearOrder Γ] (c : Ctx K) {abs : K → Γ} {tol : Γ} (hx : ∀ x, abs x ≤ tol ↔ x = 0) (real : Bool) (ps : Point K n)
    (draw : ℕ × ℕ) : (Conserves ps → construct c abs tol true real ps draw = .ok ps) ∧
      (¬ Conserves ps → construct c abs tol true real ps draw = fixRandom c ps real draw) := by
  have k := C49_momentum_conservation_check abs tol ps
  have z : (∀ i j, abs (∑ k, (ps k).r2 i j) ≤ tol) ↔ Conserves ps := forall_congr' fun i => forall_congr' fun j => hx _
  rw [z] at k
  have d : construct c abs tol true real ps draw = match momentumConservationCheck abs tol ps with
      | .error e => .error e | .ok true => .ok ps | .ok false => fixRandom c ps real draw := by
    simp only [construct, momentumConservationCheck, withinTol, if_true]
    rcases pyMax ((totalEntries ps).map abs) with e | m
    · rfl
    · dsimp only
      split_ifs <;> rfl
  constructor
  · intro hc
    rw [d, k.1.mpr hc]
  · intro hc
    have : momentumConservationCheck abs tol ps = .ok false := by
      refine k.2.mpr ?_
      by_contra hn
      refine hc (z.mp fun i j => ?_)
      by_contra h
      exact hn ⟨i, j, not_le.mp h⟩
    rw [d, this]

/-- C109: given massless particles, the constructor keeps a point that conserves momentum; otherwise it returns the one point with the same
left spinors that conserves momentum and differs in the right spinors of the two drawn particles only, or raises ZeroDivisionError if their
square bracket is zero. The tolerance is one that only zero meets. -/
theorem C109_construct [NeZero (2 : K)] {Γ : Type*} [LinearOrder Γ] {c : Ctx K} {abs : K → Γ} {tol : Γ} (hx : ∀ x, abs x ≤ tol ↔ x = 0)
    {ps : Point K n} {r l : Fin n → V2 K} (h : Spin c ps r l) (draw : ℕ × ℕ)
    (h1 : 1 ≤ draw.1 ∧ draw.1 ≤ n) (h2 : 1 ≤ draw.2 ∧ draw.2 ≤ n) (hne : draw.1 ≠ draw.2) :
    (SumZero r l → construct c abs tol true false ps draw = .ok ps) ∧
    (¬ SumZero r l → SpecSquare (l (pos _ h1)) (l (pos _ h2)) ≠ 0 →
      ∃ ps' r', construct c abs tol true false ps draw = .ok ps' ∧ Spin c ps' r' l ∧ Repairs r l (pos _ h1) (pos _ h2) r') ∧
    (¬ SumZero r l → SpecSquare (l (pos _ h1)) (l (pos _ h2)) = 0 → construct c abs tol true false ps draw = .error .zeroDivision) := by
  have k := construct_total c hx false ps draw
  have f := C109_fix h draw h1 h2 hne
  refine ⟨fun hz => k.1 (h.conserves_iff.mpr hz), fun hz hd => ?_, fun hz hd => ?_⟩
  · obtain ⟨ps', r', e1, e2, e3, -⟩ := f.1 hd
    exact ⟨ps', r', (k.2 fun hc => hz (h.conserves_iff.mp hc)).trans e1, e2, e3⟩
  · exact (k.2 fun hc => hz (h.conserves_iff.mp hc)).trans (f.2 hd)

theorem random_spin [NeZero (2 : K)] (c : Ctx K) (r l : Fin n → V2 K) : Spin c (randomParticles c r l) r l := fun _ => ofSpinors_isMassless c _ _

/-- C109: `Particles(n)` is, for all draws, a massless point that conserves momentum, with the drawn left spinors; or ZeroDivisionError. -/
theorem C109_new [NeZero (2 : K)] {Γ : Type*} [LinearOrder Γ] {c : Ctx K} {abs : K → Γ} {tol : Γ} (hx : ∀ x, abs x ≤ tol ↔ x = 0)
    (r l : Fin n → V2 K) (draw : ℕ × ℕ) (h1 : 1 ≤ draw.1 ∧ draw.1 ≤ n) (h2 : 1 ≤ draw.2 ∧ draw.2 ≤ n) (hne : draw.1 ≠ draw.2) :
    (∃ ps' r', newPoint c abs tol true false r l draw = .ok ps' ∧ Spin c ps' r' l ∧ Conserves ps' ∧ (∀ k, Massless (ps' k)) ∧
      ∀ k, k ≠ pos _ h1 → k ≠ pos _ h2 → r' k = r k) ∨
    (newPoint c abs tol true false r l draw = .error .zeroDivision ∧ ¬ SumZero r l ∧ SpecSquare (l (pos _ h1)) (l (pos _ h2)) = 0) := by
  obtain ⟨k1, k2, k3⟩ := C109_construct hx (random_spin c r l) draw h1 h2 hne
  by_cases hz : SumZero r l
  · exact .inl ⟨_, r, k1 hz, random_spin c r l, (random_spin c r l).conserves_iff.mpr hz, fun k => (random_spin c r l k).massless, fun _ _ _ => rfl⟩
  · by_cases hd : SpecSquare (l (pos _ h1)) (l (pos _ h2)) = 0
    · exact .inr ⟨k3 hz hd, hz, hd⟩
    · obtain ⟨ps', r', e1, e2, e3⟩ := k2 hz hd
      exact .inl ⟨ps', r', e1, e2, e2.conserves_iff.mpr e3.zero, fun k => (e2 k).massless, e3.others⟩

/-- The components of the four momenta of some particles lie in `S`. -/
def MomIn (S : Subfield K) (ps : Point K n) (P : Fin n → Prop) : Prop := ∀ k, P k → ∀ v, (ps k).mom = some v → ∀ μ, v μ ∈ S

/-- C109: with `real_momenta` the constructor returns nothing but massless points that conserve momentum. Unless momentum was conserved
before, the momenta of the two drawn particles lie in every subfield, the reals say, that contains those of the others, which stay. -/
theorem C109_construct_real [NeZero (2 : K)] {Γ : Type*} [LinearOrder Γ] {c : Ctx K} {i : K} (hi : c.imag = some i) {abs : K → Γ} {tol : Γ}
    (hx : ∀ x, abs x ≤ tol ↔ x = 0) {ps ps' : Point K n} {r l : Fin n → V2 K} (h : Spin c ps r l) (draw : ℕ × ℕ)
    (h1 : 1 ≤ draw.1 ∧ draw.1 ≤ n) (h2 : 1 ≤ draw.2 ∧ draw.2 ≤ n) (hne : draw.1 ≠ draw.2)
    (e : construct c abs tol true true ps draw = .ok ps') :
    Conserves ps' ∧ (∀ k, Massless (ps' k)) ∧ (∀ k, Consistent c (ps' k)) ∧ (∀ k, k ≠ pos _ h1 → k ≠ pos _ h2 → ps' k = ps k) ∧
      (SumZero r l → ps' = ps) ∧
      (¬ SumZero r l → ∀ S : Subfield K, MomIn S ps (fun k => k ≠ pos _ h1 ∧ k ≠ pos _ h2) → MomIn S ps' fun _ => True) := by
  have hab : pos _ h1 ≠ pos _ h2 := by
    intro e; have := congrArg Fin.val e; simp only [pos] at this; omega
  have k := construct_total c hx true ps draw
  by_cases hz : SumZero r l
  · have hc := h.conserves_iff.mpr hz
    obtain rfl : ps = ps' := Except.ok.inj ((k.1 hc).symm.trans e)
    exact ⟨hc, fun k => (h k).massless, fun k => (h k).cons, fun _ _ _ => rfl, fun _ => rfl, fun hn => absurd hz hn⟩
  have f : fixRandom c ps true draw = fixReal c ps (pos _ h1) (pos _ h2) 1 := by
    have n2 : ¬ n < 2 := by omega
    have : draw.1 ≠ 0 := by omega
    have : draw.2 ≠ 0 := by omega
    simp only [fixRandom, if_neg n2, fixMomCons, label_ok h1, label_ok h2]
    simp [*, pos]
  rw [k.2 fun hc => hz (h.conserves_iff.mp hc), f] at e
  obtain ⟨c1, c2, c3, c4, c5, c6⟩ := C11_real_momenta c hi ps ps' (fun k => (h k).cons) hab 1 e
  refine ⟨c1, fun k => ?_, c4, c5, fun hz' => absurd hz' hz, fun _ S hS k _ v hv μ => ?_⟩
  · by_cases ha : k = pos _ h1
    · exact ha ▸ c2
    by_cases hb : k = pos _ h2
    · exact hb ▸ c3
    rw [c5 k ha hb]
    exact (h k).massless
  · by_cases ha : k = pos _ h1
    · exact c6 S (fun k k1 k2 => hS k ⟨k1, k2⟩) k v (.inl ha) hv μ
    by_cases hb : k = pos _ h2
    · exact c6 S (fun k k1 k2 => hS k ⟨k1, k2⟩) k v (.inr hb) hv μ
    rw [c5 k ha hb] at hv
    exact hS k ⟨ha, hb⟩ v hv μ

/-- C109: `Particles(n, real_momenta=True)`: what it returns. -/
theorem C109_new_real [NeZero (2 : K)] {Γ : Type*} [LinearOrder Γ] {c : Ctx K} {i : K} (hi : c.imag = some i) {abs : K → Γ} {tol : Γ}
    (hx : ∀ x, abs x ≤ tol ↔ x = 0) {ps' : Point K n} (r l : Fin n → V2 K) (draw : ℕ × ℕ)
    (h1 : 1 ≤ draw.1 ∧ draw.1 ≤ n) (h2 : 1 ≤ draw.2 ∧ draw.2 ≤ n) (hne : draw.1 ≠ draw.2) (e : newPoint c abs tol true true r l draw = .ok ps') :
    Conserves ps' ∧ (∀ k, Massless (ps' k)) ∧
      ∀ S : Subfield K, MomIn S (randomParticles c r l) (fun k => k ≠ pos _ h1 ∧ k ≠ pos _ h2 ∨ SumZero r l) → MomIn S ps' fun _ => True := by
  obtain ⟨c1, c2, -, -, c5, c6⟩ := C109_construct_real hi hx (random_spin c r l) draw h1 h2 hne e
  refine ⟨c1, c2, fun S hS => ?_⟩
  by_cases hz : SumZero r l
  · rw [c5 hz]
    exact fun k _ => hS k (.inr hz)
  · exact c6 hz S fun k hk => hS k (.inl hk)

/-- C109: `randomise_all` conserves momentum, against what its description says. -/
theorem C109_randomise_all [NeZero (2 : K)] {c : Ctx K} (qs : Point K n) (r l : Fin n → V2 K) (draw : ℕ × ℕ)
    (h1 : 1 ≤ draw.1 ∧ draw.1 ≤ n) (h2 : 1 ≤ draw.2 ∧ draw.2 ≤ n) (hne : draw.1 ≠ draw.2) :
    (SpecSquare (l (pos _ h1)) (l (pos _ h2)) ≠ 0 → ∃ ps' r', randomiseAll c qs false r l draw = .ok ps' ∧ Spin c ps' r' l ∧ Conserves ps' ∧
      Repairs r l (pos _ h1) (pos _ h2) r') ∧
    (SpecSquare (l (pos _ h1)) (l (pos _ h2)) = 0 → randomiseAll c qs false r l draw = .error .zeroDivision) := by
  have f := C109_fix (random_spin c r l) draw h1 h2 hne
  refine ⟨fun hd => ?_, f.2⟩
  obtain ⟨ps', r', e1, e2, e3, -⟩ := f.1 hd
  exact ⟨ps', r', e1, e2, e2.conserves_iff.mpr e3.zero, e3⟩

/-- C109: without `fix_mom_cons` the particles are taken as they are. -/
theorem C109_no_fix {Γ : Type*} [LinearOrder Γ] (c : Ctx K) (abs : K → Γ) (tol : Γ) (real : Bool) (ps : Point K n) (draw : ℕ × ℕ) :
    construct c abs tol false real ps draw = .ok ps := rfl

/-! ### Few particles -/

/-- C109: a single particle cannot be made to conserve momentum, ValueError. -/
theorem C109_one [NeZero (2 : K)] {Γ : Type*} [LinearOrder Γ] {c : Ctx K} {abs : K → Γ} {tol : Γ} (hx : ∀ x, abs x ≤ tol ↔ x = 0)
    (r l : Fin 1 → V2 K) (draw : ℕ × ℕ) (hr : r 0 ≠ 0) (hl : l 0 ≠ 0) : newPoint c abs tol true false r l draw = .error .valueError := by
  refine ((construct_total c hx false _ draw).2 fun hc => ?_).trans (if_pos (by decide))
  have z := (random_spin c r l).conserves_iff.mp hc
  simp only [Fin.sum_univ_one] at z
  obtain ⟨i, hi⟩ := Function.ne_iff.mp hr
  obtain ⟨j, hj⟩ := Function.ne_iff.mp hl
  exact (mul_ne_zero hi hj) (z i j)

theorem square_swap (a b : V2 K) : SpecSquare b a = -SpecSquare a b := by unfold SpecSquare; ring

/-- C109 (finding): with two particles that have been repaired, all momenta are zero. -/
theorem C109_two [NeZero (2 : K)] {Γ : Type*} [LinearOrder Γ] {c : Ctx K} {abs : K → Γ} {tol : Γ} (hx : ∀ x, abs x ≤ tol ↔ x = 0)
    (r l : Fin 2 → V2 K) (hd : SpecSquare (l 0) (l 1) ≠ 0) (draw : ℕ × ℕ) (hdr : draw = (1, 2) ∨ draw = (2, 1)) :
    ∃ ps', newPoint c abs tol true false r l draw = .ok ps' ∧ ∀ k, (ps' k).r2 = 0 := by
  have fin : ∀ (ps' : Point K 2) (r' : Fin 2 → V2 K), Spin c ps' r' l → Conserves ps' → ∀ k, (ps' k).r2 = 0 := by
    intro ps' r' hs hc k
    have e : (0 : Fin 2 → V2 K) = r' := by
      refine repair_unique (r := r') (s := 0) (l := l) (a := 0) (b := 1) (by decide) hd (fun k k0 k1 => ?_) (hs.conserves_iff.mp hc) ?_
      · fin_cases k <;> simp at k0 k1
      · intro i j; simp
    rw [(hs k).r2, ← e]
    ext i j
    rw [outer_apply]
    fin_cases j <;> simp
  have key : ∀ (h1 : 1 ≤ draw.1 ∧ draw.1 ≤ 2) (h2 : 1 ≤ draw.2 ∧ draw.2 ≤ 2), draw.1 ≠ draw.2 → SpecSquare (l (pos _ h1)) (l (pos _ h2)) ≠ 0 →
      ∃ ps', newPoint c abs tol true false r l draw = .ok ps' ∧ ∀ k, (ps' k).r2 = 0 := by
    intro h1 h2 hne hd'
    rcases C109_new (c := c) hx r l draw h1 h2 hne with ⟨ps', r', e1, e2, e3, -⟩ | ⟨-, -, e⟩
    · exact ⟨ps', e1, fin ps' r' e2 e3⟩
    · exact absurd e hd'
  rcases hdr with rfl | rfl
  · exact key (by decide) (by decide) (by decide) hd
  · exact key (by decide) (by decide) (by decide) (by rw [show pos (n := 2) 2 (by decide) = 1 from rfl, show pos (n := 2) 1 (by decide) = 0 from rfl, square_swap]; exact neg_ne_zero.mpr hd)

theorem three_angles {c : Ctx K} {ps : Point K 3} {r l : Fin 3 → V2 K} (hs : Spin c ps r l) (hc : Conserves ps) {a b : Fin 3} (hab : a ≠ b)
    (hd : SpecSquare (l a) (l b) ≠ 0) (i j : Fin 3) : SpecAngle (r i) (r j) = 0 := by
  have z := hs.conserves_iff.mp hc
  obtain ⟨e, hea, heb, he⟩ : ∃ e : Fin 3, e ≠ a ∧ e ≠ b ∧ ∀ k, k = a ∨ k = b ∨ k = e := by
    revert hab; clear hd; revert a b; decide
  have s : ∀ f : Fin 3 → K, ∑ k, f k = f a + f b + f e := by
    intro f
    rw [split_pair hab, show (Finset.univ.filter fun k => k ≠ a ∧ k ≠ b) = {e} by
      ext k; simp only [Finset.mem_filter, Finset.mem_univ, true_and, Finset.mem_singleton]
      constructor
      · rintro ⟨h1, h2⟩; exact ((he k).resolve_left h1).resolve_left h2
      · rintro rfl; exact ⟨hea, heb⟩, Finset.sum_singleton]
  have z' : ∀ i j, r a i * l a j + r b i * l b j + r e i * l e j = 0 := fun i j => by rw [← s fun k => r k i * l k j]; exact z i j
  have ea : ∀ i, r a i * SpecSquare (l a) (l b) = -(r e i * SpecSquare (l e) (l b)) := fun i => by
    unfold SpecSquare; linear_combination l b 1 * z' i 0 - l b 0 * z' i 1
  have eb : ∀ i, r b i * SpecSquare (l a) (l b) = r e i * SpecSquare (l e) (l a) := fun i => by
    unfold SpecSquare; linear_combination l a 0 * z' i 1 - l a 1 * z' i 0
  -- every right spinor is a multiple of the third
  have par : ∀ k, ∃ x, ∀ i, r k i = x * r e i := by
    intro k
    rcases he k with rfl | rfl | rfl
    · exact ⟨-(SpecSquare (l e) (l b)) / SpecSquare (l k) (l b), fun i => by field_simp; linear_combination ea i⟩
    · exact ⟨SpecSquare (l e) (l a) / SpecSquare (l a) (l k), fun i => by field_simp; linear_combination eb i⟩
    · exact ⟨1, fun i => by ring⟩
  obtain ⟨x, hx⟩ := par i
  obtain ⟨y, hy⟩ := par j
  unfold SpecAngle
  rw [hx, hx, hy, hy]; ring

/-- C109 (finding): with three particles, all angle brackets are zero if the bracket of the two drawn particles is not. -/
theorem C109_three [NeZero (2 : K)] {Γ : Type*} [LinearOrder Γ] {c : Ctx K} {abs : K → Γ} {tol : Γ} (hx : ∀ x, abs x ≤ tol ↔ x = 0)
    (r l : Fin 3 → V2 K) (draw : ℕ × ℕ) (h1 : 1 ≤ draw.1 ∧ draw.1 ≤ 3) (h2 : 1 ≤ draw.2 ∧ draw.2 ≤ 3) (hne : draw.1 ≠ draw.2)
    (hd : SpecSquare (l (pos _ h1)) (l (pos _ h2)) ≠ 0) :
    ∃ ps' r', newPoint c abs tol true false r l draw = .ok ps' ∧ Spin c ps' r' l ∧ ∀ i j, SpecAngle (r' i) (r' j) = 0 := by
  have hab : pos _ h1 ≠ pos _ h2 := by
    intro e; have := congrArg Fin.val e; simp only [pos] at this; omega
  rcases C109_new (c := c) hx r l draw h1 h2 hne with ⟨ps', r', e1, e2, e3, -⟩ | ⟨-, -, e⟩
  · exact ⟨ps', r', e1, e2, three_angles e2 e3 hab hd⟩
  · exact absurd e hd

end Lips

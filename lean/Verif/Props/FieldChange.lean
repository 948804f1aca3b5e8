import Verif.Model.FieldChange
import Verif.Lemmas.Transfer
import Verif.Lemmas.Components
import Verif.Props.Particle
import Mathlib.NumberTheory.Padics.RingHoms

/-!
C118: converting a phase-space point to another field.
-/

namespace Lips

open Matrix

variable {K L : Type*} [Field K] [Field L] {n : ℕ}

theorem map_half {R F : Type*} [CommRing R] [Field F] (g : R →+* F) {h : R} (hh : 2 * h = 1) (a : R) : g (a * h) = g a / 2 := by
  have e : (2 : F) * g h = 1 := by rw [← map_ofNat g 2, ← map_mul, hh, map_one]
  have h2 : (2 : F) ≠ 0 := fun h0 => by rw [h0, zero_mul] at e; exact zero_ne_one e
  rw [map_mul, eq_div_iff h2, mul_assoc, mul_comm (g h), e, mul_one]

theorem Lift.transfer {R : Type*} [CommRing R] (i : R →+* K) (φ : R →+* L) {h : R} (hh : 2 * h = 1) : Transfer (Lift i φ) where
  one := ⟨1, map_one i, map_one φ⟩
  add := by
    rintro _ _ _ _ ⟨a, rfl, rfl⟩ ⟨b, rfl, rfl⟩
    exact ⟨a + b, map_add i a b, map_add φ a b⟩
  mul := by
    rintro _ _ _ _ ⟨a, rfl, rfl⟩ ⟨b, rfl, rfl⟩
    exact ⟨a * b, map_mul i a b, map_mul φ a b⟩
  neg := by
    rintro _ _ ⟨a, rfl, rfl⟩
    exact ⟨-a, map_neg i a, map_neg φ a⟩
  half := by
    rintro _ _ ⟨a, rfl, rfl⟩
    exact ⟨a * h, map_half i hh a, map_half φ hh a⟩

theorem eachParticle_ok {α β : Type*} (f : α → Except Err β) : ∀ {n : ℕ} (ps : Fin n → α) (qs : Fin n → β),
    eachParticle f n ps = .ok qs ↔ ∀ k, f (ps k) = .ok (qs k)
  | 0, ps, qs => by
    refine ⟨fun _ k => k.elim0, fun _ => ?_⟩
    rw [eachParticle]
    congr 1
    exact Subsingleton.elim _ _
  | n + 1, ps, qs => by
    rw [eachParticle, Fin.forall_fin_succ]
    rcases f (ps 0) with e | q
    · simp
    have ih := eachParticle_ok f (fun k => ps k.succ) (fun k => qs k.succ)
    rcases h : eachParticle f n (fun k => ps k.succ) with e | q'
    · simp only [reduceCtorEq, false_iff, not_and]
      intro _ h'
      rw [ih.2 h'] at h
      cases h
    · constructor
      · intro h'
        obtain rfl : Fin.cons q q' = qs := Except.ok.inj h'
        exact ⟨rfl, ih.1 h⟩
      · rintro ⟨h1, h2⟩
        obtain rfl : q = qs 0 := Except.ok.inj h1
        have := ih.2 h2
        rw [h] at this
        obtain rfl : q' = fun k => qs k.succ := Except.ok.inj this
        exact congrArg Except.ok (Fin.cons_self_tail qs)

omit [Field K] [Field L] in
theorem convertSpinor_ok {cv : K → Except Err L} {o : Option (V2 K)} {w : V2 L} (h : convertSpinor cv o = .ok w) :
    ∃ v, o = some v ∧ ∀ i, cv (v i) = .ok (w i) := by
  rcases o with _ | v
  · cases h
  unfold convertSpinor at h
  rcases h0 : cv (v 0) with e | x
  · simp only [h0] at h; cases h
  rcases h1 : cv (v 1) with e | y
  · simp only [h0, h1] at h; cases h
  simp only [h0, h1] at h
  cases h
  exact ⟨v, rfl, fun i => by fin_cases i <;> simpa⟩

omit [Field K] [Field L] in
theorem convertSpinor_of {cv : K → Except Err L} {v : V2 K} {w : V2 L} (h : ∀ i, cv (v i) = .ok (w i)) : convertSpinor cv (some v) = .ok w := by
  simp only [convertSpinor, h]
  congr 1
  funext i
  fin_cases i <;> rfl

omit [Field K] in
theorem particleToField_ok {cv : K → Except Err L} {c : Ctx L} {p : Particle K} {q : Particle L} : toField cv c p = .ok q ↔
    ∃ r l r' l', p.r_d = some r ∧ p.l_d = some l ∧ (∀ i, cv (r i) = .ok (r' i)) ∧ (∀ i, cv (l i) = .ok (l' i)) ∧ q = (ofSpinors c r' l').st := by
  have fin : ∀ r' l', (setLd c { (blank : Particle L) with r_d := some r', r_u := some (rDownUp r') } l').toExcept = .ok (ofSpinors c r' l').st :=
    fun _ _ => rfl
  constructor
  · intro h
    unfold toField at h
    rcases hr : convertSpinor cv p.r_d with e | r'
    · rw [hr] at h; cases h
    rcases hl : convertSpinor cv p.l_d with e | l'
    · rw [hr, hl] at h; cases h
    simp only [hr, hl, fin] at h
    obtain ⟨r, e1, h1⟩ := convertSpinor_ok hr
    obtain ⟨l, e2, h2⟩ := convertSpinor_ok hl
    exact ⟨r, l, r', l', e1, e2, h1, h2, (Except.ok.inj h).symm⟩
  · rintro ⟨r, l, r', l', e1, e2, h1, h2, rfl⟩
    unfold toField
    rw [e1, e2, convertSpinor_of h1, convertSpinor_of h2]
    exact fin _ _

omit [Field K] in
/-- C118: the conversion returns exactly if every particle has its spinors and every component can be converted. -/
theorem C118_returns {cv : K → Except Err L} {c : Ctx L} {ps : Point K n} : (∃ qs, pointToField cv c ps = .ok qs) ↔
    ∀ k, ∃ r l, (ps k).r_d = some r ∧ (ps k).l_d = some l ∧ ∀ i, (∃ y, cv (r i) = .ok y) ∧ ∃ y, cv (l i) = .ok y := by
  constructor
  · rintro ⟨qs, h⟩ k
    obtain ⟨r, l, r', l', e1, e2, h1, h2, -⟩ := particleToField_ok.1 ((eachParticle_ok _ _ _).1 h k)
    exact ⟨r, l, e1, e2, fun i => ⟨⟨_, h1 i⟩, _, h2 i⟩⟩
  · intro h
    choose r l h1 h2 h3' using h
    choose r' h3 using fun k i => (h3' k i).1
    choose l' h4 using fun k i => (h3' k i).2
    exact ⟨fun k => (ofSpinors c (r' k) (l' k)).st, (eachParticle_ok _ _ _).2 fun k =>
      particleToField_ok.2 ⟨r k, l k, r' k, l' k, h1 k, h2 k, h3 k, h4 k, rfl⟩⟩

/-- The exception of a conversion, if it raises. -/
def raised {α β : Type*} (f : α → Except Err β) (x : α) : Option Err :=
  match f x with
  | .error e => some e
  | .ok _ => none

theorem eachParticle_error {α β : Type*} (f : α → Except Err β) (e : Err) : ∀ {n : ℕ} (ps : Fin n → α),
    eachParticle f n ps = .error e ↔ (List.finRange n).findSome? (fun k => raised f (ps k)) = some e
  | 0, ps => by simp [eachParticle]
  | n + 1, ps => by
    rw [eachParticle, List.finRange_succ, List.findSome?_cons, List.findSome?_map, raised]
    rcases h : f (ps 0) with e' | q
    · simp
    have ih := eachParticle_error f e (fun k => ps k.succ)
    simp only [Function.comp_def]
    rw [← ih]
    rcases eachParticle f n (fun k => ps k.succ) with e' | q' <;> simp

omit [Field K] [Field L] in
theorem convertSpinor_raised (cv : K → Except Err L) (v : V2 K) (e : Err) :
    convertSpinor cv (some v) = .error e ↔ [v 0, v 1].findSome? (raised cv) = some e := by
  simp only [convertSpinor, List.findSome?_cons, List.findSome?_nil, raised]
  rcases cv (v 0) with _ | _
  · simp
  · rcases cv (v 1) with _ | _ <;> simp

omit [Field K] in
/-- C118: if every particle has its spinors, a conversion that raises raises the exception of the first component that cannot be converted: particle by
particle, in `to_field` right spinor first, in `padic_to_finite_field` and `finite_field_to_padic` left spinor first. -/
theorem C118_raises {cv : K → Except Err L} {c : Ctx L} {ps : Point K n} {r l : Fin n → V2 K} (hr : ∀ k, (ps k).r_d = some (r k))
    (hl : ∀ k, (ps k).l_d = some (l k)) (e : Err) :
    (pointToField cv c ps = .error e ↔ ((List.finRange n).flatMap fun k => [r k 0, r k 1, l k 0, l k 1]).findSome? (raised cv) = some e) ∧
    (reducePoint cv c ps = .error e ↔ ((List.finRange n).flatMap fun k => [l k 0, l k 1, r k 0, r k 1]).findSome? (raised cv) = some e) := by
  have key : ∀ (f : Particle K → Except Err (Particle L)) (xs : Fin n → List K), (∀ k, raised f (ps k) = (xs k).findSome? (raised cv)) →
      (eachParticle f n ps = .error e ↔ ((List.finRange n).flatMap xs).findSome? (raised cv) = some e) := by
    intro f xs h
    rw [eachParticle_error]
    simp only [h]
    generalize List.finRange n = ks
    induction ks with
    | nil => rfl
    | cons k ks ih =>
      rw [List.flatMap_cons, List.findSome?_append, List.findSome?_cons]
      rcases (xs k).findSome? (raised cv) with _ | e'
      · rw [Option.none_or]; exact ih
      · rfl
  have conv : ∀ v : V2 K, (∃ e, convertSpinor cv (some v) = .error e ∧ [v 0, v 1].findSome? (raised cv) = some e) ∨
      ∃ w, convertSpinor cv (some v) = .ok w ∧ [v 0, v 1].findSome? (raised cv) = none := by
    intro v
    rcases h : convertSpinor cv (some v) with e | w
    · exact Or.inl ⟨e, rfl, (convertSpinor_raised cv v e).1 h⟩
    · refine Or.inr ⟨w, rfl, ?_⟩
      rcases h' : [v 0, v 1].findSome? (raised cv) with _ | e
      · rfl
      · rw [(convertSpinor_raised cv v e).2 h'] at h; cases h
  have two : ∀ (v w : V2 K), [v 0, v 1, w 0, w 1].findSome? (raised cv) = ([v 0, v 1].findSome? (raised cv)).or ([w 0, w 1].findSome? (raised cv)) :=
    fun v w => List.findSome?_append (xs := [v 0, v 1]) (ys := [w 0, w 1])
  constructor
  · refine key _ _ fun k => ?_
    rw [raised, toField, hr k, hl k, two]
    rcases conv (r k) with ⟨e, e1, e2⟩ | ⟨w, e1, e2⟩
    · rw [e1, e2]; rfl
    rw [e1, e2]
    rcases conv (l k) with ⟨e, e3, e4⟩ | ⟨w', e3, e4⟩
    · rw [e3, e4]; rfl
    · rw [e3, e4]; rfl
  · refine key _ _ fun k => ?_
    rw [raised, reduceParticle, hr k, hl k, two]
    rcases conv (l k) with ⟨e, e1, e2⟩ | ⟨w, e1, e2⟩
    · rw [e1, e2]; rfl
    rw [e1, e2]
    rcases conv (r k) with ⟨e, e3, e4⟩ | ⟨w', e3, e4⟩
    · rw [e3, e4]; rfl
    · rw [e3, e4]; rfl

omit [Field K] in
/-- C118: the components of the new spinors are the converted ones, and the new particles are massless with all representations in agreement. -/
theorem C118_spinors [NeZero (2 : L)] {cv : K → Except Err L} {c : Ctx L} {ps : Point K n} {qs : Point L n} (h : pointToField cv c ps = .ok qs)
    {r l : Fin n → V2 K} (hr : ∀ k, (ps k).r_d = some (r k)) (hl : ∀ k, (ps k).l_d = some (l k)) :
    ∃ r' l', (∀ k i, cv (r k i) = .ok (r' k i)) ∧ (∀ k i, cv (l k i) = .ok (l' k i)) ∧ Spin c qs r' l' := by
  have hk := fun k => particleToField_ok.1 ((eachParticle_ok _ _ _).1 h k)
  choose r0 l0 r' l' e1 e2 h1 h2 h3 using hk
  refine ⟨r', l', fun k i => ?_, fun k i => ?_, fun k => ?_⟩
  · rw [← Option.some.inj ((e1 k).symm.trans (hr k))]
    exact h1 k i
  · rw [← Option.some.inj ((e2 k).symm.trans (hl k))]
    exact h2 k i
  · rw [h3 k]
    exact ofSpinors_isMassless c _ _

omit [Field K] in
/-- C118: `padic_to_finite_field` and `finite_field_to_padic`, which take the spinors in the other order, return the same point as `to_field`, and
return whenever it does. -/
theorem C118_same {cv : K → Except Err L} {c : Ctx L} {ps : Point K n} {qs : Point L n} :
    reducePoint cv c ps = .ok qs ↔ pointToField cv c ps = .ok qs := by
  unfold reducePoint pointToField
  rw [eachParticle_ok, eachParticle_ok]
  refine forall_congr' fun k => ?_
  have fin : ∀ r' l', (setRd c { (blank : Particle L) with l_d := some l', l_u := some (lDownUp l') } r').toExcept = .ok (ofSpinors c r' l').st := by
    intro r' l'
    rfl
  unfold reduceParticle toField
  rcases hr : convertSpinor cv (ps k).r_d with e | r'
  · rcases hl : convertSpinor cv (ps k).l_d with e' | l' <;> simp
  · rcases hl : convertSpinor cv (ps k).l_d with e' | l'
    · simp
    · simp only [fin]
      exact Iff.rfl

theorem PRel.of_spinors {T : K → L → Prop} (hT : Transfer T) {c : Ctx K} {c' : Ctx L} {p : Particle K} {q : Particle L} {r l : V2 K} {r' l' : V2 L}
    (hp : IsMassless c p r l) (hq : IsMassless c' q r' l') (hr : ∀ i, T (r i) (r' i)) (hl : ∀ i, T (l i) (l' i)) : PRel T p q := by
  have up : ∀ {v : V2 K} {w : V2 L}, (∀ i, T (v i) (w i)) → ∀ i, T ((![v 1, -v 0] : V2 K) i) ((![w 1, -w 0] : V2 L) i) := by
    intro v w h i
    fin_cases i
    · exact h 1
    · exact hT.neg (h 0)
  refine ⟨?_, ?_, ?_, ?_, ?_, ?_⟩
  · rw [hp.r_d, hq.r_d]; exact hr
  · rw [hp.l_d, hq.l_d]; exact hl
  · rw [hp.r_u, hq.r_u]; exact up hr
  · rw [hp.l_u, hq.l_u]; exact up hl
  · intro i j
    rw [hp.r2, hq.r2]
    exact hT.mul (up hl i) (up hr j)
  · intro i j
    rw [hp.r2b, hq.r2b]
    exact hT.mul (hr i) (hl j)

/-- C118: let the conversion be given by ring homomorphisms, as the reduction of integers of a p-adic field or the embedding of a field into another,
with 2 invertible. Then `compute` gives corresponding results on a massless point and on the converted one, for every text: the same exception or values that
correspond. -/
theorem C118_values {R : Type*} [CommRing R] {i : R →+* K} {φ : R →+* L} {h2 : R} (hh : 2 * h2 = 1) {cv : K → Except Err L}
    (hcv : ∀ x y, cv x = .ok y → Lift i φ x y) {c : Ctx K} {c' : Ctx L} {ps : Point K n} {qs : Point L n} {r l : Fin n → V2 K} (hs : Spin c ps r l)
    (h : pointToField cv c' ps = .ok qs) (fuel : ℕ) (t : List Char) :
    ORel (ERel (VRel (Lift i φ))) (computeText ps fuel t) (computeText qs fuel t) := by
  have : NeZero (2 : L) := ⟨fun h0 => by
    have e : (2 : L) * φ h2 = 1 := by rw [← map_ofNat φ 2, ← map_mul, hh, map_one]
    rw [h0, zero_mul] at e
    exact zero_ne_one e⟩
  obtain ⟨r', l', hr, hl, hq⟩ := C118_spinors h (fun k => (hs k).r_d) (fun k => (hs k).l_d)
  have hT := Lift.transfer i φ hh
  unfold computeText
  split
  · exact hT.evalForm (fun k => PRel.of_spinors hT (hs k) (hq k) (fun j => hcv _ _ (hr k j)) fun j => hcv _ _ (hl k j)) _ _
  · exact rfl

/-- C118: conservation of momentum survives the conversion. -/
theorem C118_conserves {R : Type*} [CommRing R] {i : R →+* K} (hi : Function.Injective i) {φ : R →+* L} {h2 : R} (hh : 2 * h2 = 1) {cv : K → Except Err L}
    (hcv : ∀ x y, cv x = .ok y → Lift i φ x y) {c : Ctx K} {c' : Ctx L} {ps : Point K n} {qs : Point L n} {r l : Fin n → V2 K} (hs : Spin c ps r l)
    (h : pointToField cv c' ps = .ok qs) (hc : Conserves ps) : Conserves qs := by
  have : NeZero (2 : L) := ⟨fun h0 => by
    have e : (2 : L) * φ h2 = 1 := by rw [← map_ofNat φ 2, ← map_mul, hh, map_one]
    rw [h0, zero_mul] at e
    exact zero_ne_one e⟩
  obtain ⟨r', l', hr, hl, hq⟩ := C118_spinors h (fun k => (hs k).r_d) (fun k => (hs k).l_d)
  have hT := Lift.transfer i φ hh
  intro a b
  obtain ⟨x, h1, h2⟩ := hT.sum fun k => (PRel.of_spinors hT (hs k) (hq k) (fun j => hcv _ _ (hr k j)) fun j => hcv _ _ (hl k j)).r2 a b
  rw [hc a b, map_eq_zero_iff i hi] at h1
  rw [← h2, h1, map_zero]

/-- C118: converting there and back, when the conversions of numbers undo each other, returns the point one started from, with all
representations. -/
theorem C118_round_trip [NeZero (2 : K)] [NeZero (2 : L)] {cv : K → Except Err L} {cv' : L → Except Err K} (hcv : ∀ x y, cv' x = .ok y → cv y = .ok x)
    {c : Ctx K} {c' : Ctx L} {qs : Point L n} {ps : Point K n} {r l : Fin n → V2 L} (hs : Spin c' qs r l) (h : pointToField cv' c qs = .ok ps) :
    pointToField cv c' ps = .ok qs := by
  obtain ⟨r', l', hr, hl, hq⟩ := C118_spinors h (fun k => (hs k).r_d) (fun k => (hs k).l_d)
  refine (eachParticle_ok _ _ _).2 fun k => particleToField_ok.2 ⟨r' k, l' k, r k, l k, (hq k).r_d, (hq k).l_d, fun i => hcv _ _ (hr k i),
    fun i => hcv _ _ (hl k i), (hs k).eq_ofSpinors⟩

/-- C118 (finding): `to_field` makes every particle massless. A massive particle that has spinors, as those made from a momentum do, comes back as
another particle, even when the field does not change, and nothing is raised. -/
theorem C118_massive [NeZero (2 : K)] {cv : K → Except Err K} {c : Ctx K} {p q : Particle K} (h : toField cv c p = .ok q) :
    Massless q ∧ (¬ Massless p → ¬ pEq p q) := by
  obtain ⟨r, l, r', l', -, -, -, -, rfl⟩ := particleToField_ok.1 h
  have hm := (ofSpinors_isMassless c r' l').massless
  refine ⟨hm, fun hp he => hp ?_⟩
  unfold Massless at hm ⊢
  rw [show p.r2 = _ from he]
  exact hm

/-- A massive particle at rest and two massless ones, all made from their bispinors. -/
noncomputable def decayPoint : Point ℚ 3 :=
  ![(ofR2 (ratCtx .asymmetric) !![2, 0; 0, 2]).st, (ofR2 (ratCtx .asymmetric) !![-1, 1; 1, -1]).st, (ofR2 (ratCtx .asymmetric) !![-1, -1; -1, -1]).st]

theorem ofR2_asym (m : M2 ℚ) (h : m 1 1 ≠ 0) : (ofR2 (ratCtx .asymmetric) m).err = none ∧ (ofR2 (ratCtx .asymmetric) m).st.r2 = m ∧
    (ofR2 (ratCtx .asymmetric) m).st.r_d = some ![m 1 1, -m 1 0] ∧ (ofR2 (ratCtx .asymmetric) m).st.l_d = some ![1, -m 0 1 / m 1 1] := by
  simp [ofR2, setR2, deriveSpinors, deriveR, deriveL, ratCtx, h, momFromR2]

/-- C118 (finding): the constructor accepts the three particles, momentum is conserved; `to_field` to the same field returns, and momentum is
not conserved any more. -/
theorem C118_mass_lost : Conserves decayPoint ∧ (∃ qs, pointToField Except.ok (ratCtx .asymmetric) decayPoint = .ok qs) ∧
    ∀ qs, pointToField Except.ok (ratCtx .asymmetric) decayPoint = .ok qs → ¬ Conserves qs := by
  obtain ⟨-, a2, a3, a4⟩ := ofR2_asym !![2, 0; 0, 2] (by simp)
  obtain ⟨-, b2, b3, b4⟩ := ofR2_asym !![-1, 1; 1, -1] (by simp)
  obtain ⟨-, d2, d3, d4⟩ := ofR2_asym !![-1, -1; -1, -1] (by simp)
  have hr : ∀ k, (decayPoint k).r_d = some ((![![2, 0], ![-1, -1], ![-1, 1]] : Fin 3 → V2 ℚ) k) := by
    intro k
    fin_cases k
    · exact a3.trans (by simp)
    · exact b3.trans (by simp)
    · exact d3.trans (by simp)
  have hl : ∀ k, (decayPoint k).l_d = some ((![![1, 0], ![1, 1], ![1, -1]] : Fin 3 → V2 ℚ) k) := by
    intro k
    fin_cases k
    · exact a4.trans (by simp)
    · exact b4.trans (by simp)
    · exact d4.trans (by simp)
  refine ⟨?_, ?_, ?_⟩
  · intro i j
    rw [Fin.sum_univ_three]
    simp only [decayPoint, cons_val_zero, cons_val_one, cons_val_two, tail_cons, head_cons, a2, b2, d2]
    fin_cases i <;> fin_cases j <;> norm_num
  · exact C118_returns.2 fun k => ⟨_, _, hr k, hl k, fun i => ⟨⟨_, rfl⟩, _, rfl⟩⟩
  · intro qs h hc
    obtain ⟨r', l', h1, h2, hs⟩ := C118_spinors h hr hl
    have h0 := hc 0 0
    rw [Fin.sum_univ_three] at h0
    simp only [fun k => (hs k).r2, outer, vecMulVec_apply] at h0
    have e1 := fun k i => (Except.ok.inj (h1 k i))
    have e2 := fun k i => (Except.ok.inj (h2 k i))
    simp only [← e1, ← e2] at h0
    exact absurd h0 (by decide +kernel)

/-! ### p-adic numbers and their residues -/

variable {p : ℕ} [Fact p.Prime]

open Classical in
/-- The residue of a p-adic number; ValueError if it is not an integer. -/
noncomputable def residue (x : ℚ_[p]) : Except Err (ZMod p) := if h : ‖x‖ ≤ 1 then .ok (PadicInt.toZMod ⟨x, h⟩) else .error .valueError

theorem residue_lift {x : ℚ_[p]} {y : ZMod p} (h : residue x = .ok y) : Lift PadicInt.Coe.ringHom PadicInt.toZMod x y := by
  unfold residue at h
  split at h
  next hx => exact ⟨⟨x, hx⟩, rfl, Except.ok.inj h⟩
  next => cases h

theorem padic_half (hp : p ≠ 2) : ∃ h : ℤ_[p], 2 * h = 1 := by
  have h2 : IsUnit (2 : ℤ_[p]) := by
    rw [PadicInt.isUnit_iff]
    by_contra hc
    have h1 : ‖((2 : ℤ) : ℤ_[p])‖ < 1 := lt_of_le_of_ne (PadicInt.norm_le_one _) (by simpa using hc)
    rw [PadicInt.norm_int_lt_one_iff_dvd] at h1
    have h3 : p ∣ 2 := by exact_mod_cast h1
    exact hp ((Nat.prime_dvd_prime_iff_eq Fact.out Nat.prime_two).1 h3)
  obtain ⟨u, hu⟩ := h2
  exact ⟨(u⁻¹ : ℤ_[p]ˣ), by rw [← hu, Units.mul_inv]⟩

/-- C118: p odd. The reduction of a massless point with p-adic integer components returns; every number that `compute` gives on the point is
a p-adic integer, and on the reduced point `compute` gives its residue, which vanishes exactly if the number is divisible by p; conservation of momentum
survives. -/
theorem C118_padic (hp : p ≠ 2) {c : Ctx ℚ_[p]} (c' : Ctx (ZMod p)) {ps : Point ℚ_[p] n} {r l : Fin n → V2 ℚ_[p]} (hs : Spin c ps r l)
    (hr : ∀ k i, ‖r k i‖ ≤ 1) (hl : ∀ k i, ‖l k i‖ ≤ 1) : ∃ qs, reducePoint residue c' ps = .ok qs ∧ (Conserves ps → Conserves qs) ∧
    ∀ fuel t x, computeText ps fuel t = some (.ok (.num x)) → ∃ y, computeText qs fuel t = some (.ok (.num y)) ∧ residue x = .ok y ∧
      (y = 0 ↔ ‖x‖ < 1) := by
  obtain ⟨h2, hh⟩ := padic_half (p := p) hp
  have : NeZero (2 : ZMod p) := ⟨fun h0 => by
    have e : (2 : ZMod p) * PadicInt.toZMod h2 = 1 := by rw [← map_ofNat (PadicInt.toZMod (p := p)) 2, ← map_mul, hh, map_one]
    rw [h0, zero_mul] at e
    exact zero_ne_one e⟩
  have ok : ∀ {x : ℚ_[p]}, ‖x‖ ≤ 1 → ∃ y, residue x = .ok y := fun hx => ⟨_, by unfold residue; rw [dif_pos hx]⟩
  obtain ⟨qs, hq⟩ := (C118_returns (cv := residue) (c := c') (ps := ps)).2 fun k =>
    ⟨r k, l k, (hs k).r_d, (hs k).l_d, fun i => ⟨ok (hr k i), ok (hl k i)⟩⟩
  refine ⟨qs, C118_same.2 hq, C118_conserves (i := PadicInt.Coe.ringHom) (fun _ _ h => Subtype.ext h) hh (fun _ _ h => residue_lift h) hs hq, fun fuel t x hx => ?_⟩
  have hv := C118_values hh (fun _ _ h => residue_lift h) hs hq fuel t
  rw [hx] at hv
  rcases hy : computeText qs fuel t with _ | e | v
  · rw [hy] at hv; exact hv.elim
  · rw [hy] at hv; exact hv.elim
  rw [hy] at hv
  cases v with
  | num y =>
    obtain ⟨a, rfl, rfl⟩ := hv
    refine ⟨_, rfl, ?_, ?_⟩
    · unfold residue
      rw [dif_pos (show ‖PadicInt.Coe.ringHom a‖ ≤ 1 from a.2)]
      rfl
    · rw [← RingHom.mem_ker, PadicInt.ker_toZMod, IsLocalRing.mem_maximalIdeal, PadicInt.mem_nonunits]
      rfl
  | _ => exact hv.elim

end Lips

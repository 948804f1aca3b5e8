import Verif.Model.SpinorImage
import Verif.Props.SpinorIdeal
import Verif.Props.IdealImage
import Mathlib.RingTheory.MvPolynomial.Homogeneous

/-!
# C107: images of an ideal in the brackets

Covered code: `SpinorIdeal.__call__`, `image` (lips/algebraic_geometry/invariant_ideal.py:44-54), `LipsIdeal.invariant_slice`
(lips/algebraic_geometry/covariant_ideal.py:96-100).
-/

namespace Lips

open Matrix MvPolynomial

/-! ### Specification -/

section spec
variable {n : ℕ}

/-- The bracket variable written with a letter and a number. -/
def SpecBrkText (n : ℕ) (x : Char) (k : ℕ) : Option (BrkVar n) :=
  if h : 1 ≤ k ∧ k ≤ (pairsList n).length then
    if x = 'A' then some (true, ⟨k - 1, by omega⟩) else if x = 'B' then some (false, ⟨k - 1, by omega⟩) else none
  else none

/-- The polynomial in the brackets that a tree stands for. -/
noncomputable def SpecBrkPoly (n : ℕ) : Ast PAtom → Option (MvPolynomial (BrkVar n) ℤ)
  | .atom (.num k) => some k
  | .atom (.var x k) => (SpecBrkText n x k).map X
  | .pos a => SpecBrkPoly n a
  | .neg a => (SpecBrkPoly n a).map (- ·)
  | .add a b => (SpecBrkPoly n a).bind fun P => (SpecBrkPoly n b).map (P + ·)
  | .sub a b => (SpecBrkPoly n a).bind fun P => (SpecBrkPoly n b).map (P - ·)
  | .mul a b => (SpecBrkPoly n a).bind fun P => (SpecBrkPoly n b).map (P * ·)
  | .pow a (.atom (.num k)) => (SpecBrkPoly n a).map (· ^ k)
  | .pow _ _ | .div _ _ => none

/-- A text of arithmetic in the brackets that stands for a polynomial. -/
def BrkDenotes (s : List Char) (P : MvPolynomial (BrkVar n) ℤ) : Prop :=
  ∃ pw ts e, PowerSign pw ∧ s = renderText pw ts ∧ Reads .expr (ts.map Prod.fst) e ∧ SpecBrkPoly n e = some P

/-- The bracket of two labels as a polynomial in the bracket variables: one of them, the opposite of one, or zero. -/
def SpecBracket (R : Type*) [CommRing R] (ang : Bool) (i j : Fin n) (Q : MvPolynomial (BrkVar n) R) : Prop :=
  (∃ t, SpecPairAt t i j ∧ Q = X (ang, t)) ∨ (∃ t, SpecPairAt t j i ∧ Q = -X (ang, t)) ∨ (i = j ∧ Q = 0)

/-- What a rule does to polynomials in the brackets: the bracket of `i` and `j` becomes the bracket of `σ i` and `σ j`, of the other
kind for an exchange. -/
def Moves {R : Type*} [CommRing R] (σ : Equiv.Perm (Fin n)) (b : Bool)
    (φ : MvPolynomial (BrkVar n) R →ₐ[R] MvPolynomial (BrkVar n) R) : Prop :=
  ∀ ang t i j, SpecPairAt t i j → SpecBracket R (ang ^^ b) (σ i) (σ j) (φ (X (ang, t)))

end spec

/-! ### Helper lemmas: brackets -/

section brackets
variable {n : ℕ} {R : Type*} [CommRing R]

theorem pairAt_pos_unique {t t' : Fin (pairsList n).length} {i j : Fin n} (h : SpecPairAt t i j) (h' : SpecPairAt t' i j) : t = t' := by
  rw [SpecPairAt] at h h'
  exact Fin.ext ((pairsList_nodup n).getElem_inj_iff.mp (h.trans h'.symm))

theorem pairAt_lt {t : Fin (pairsList n).length} {i j : Fin n} (h : SpecPairAt t i j) : i < j := by
  obtain ⟨i', j', h', hlt⟩ := pairAt_exists t
  obtain ⟨rfl, rfl⟩ := pairAt_unique h h'
  exact hlt

theorem SpecBracket.unique {ang : Bool} {i j : Fin n} {Q Q' : MvPolynomial (BrkVar n) R} (h : SpecBracket R ang i j Q)
    (h' : SpecBracket R ang i j Q') : Q = Q' := by
  rcases h with ⟨t, ht, rfl⟩ | ⟨t, ht, rfl⟩ | ⟨rfl, rfl⟩ <;> rcases h' with ⟨t', ht', rfl⟩ | ⟨t', ht', rfl⟩ | ⟨e, rfl⟩
  · rw [pairAt_pos_unique ht ht']
  · exact absurd (pairAt_lt ht) (pairAt_lt ht').asymm
  · exact absurd e (pairAt_lt ht).ne
  · exact absurd (pairAt_lt ht) (pairAt_lt ht').asymm
  · rw [pairAt_pos_unique ht ht']
  · exact absurd e (pairAt_lt ht).ne'
  · exact absurd (pairAt_lt ht') (lt_irrefl _)
  · exact absurd (pairAt_lt ht') (lt_irrefl _)
  · rfl

theorem SpecBracket.neg {ang : Bool} {i j : Fin n} {Q : MvPolynomial (BrkVar n) R} (h : SpecBracket R ang i j Q) :
    SpecBracket R ang j i (-Q) := by
  rcases h with ⟨t, ht, rfl⟩ | ⟨t, ht, rfl⟩ | ⟨rfl, rfl⟩
  · exact .inr (.inl ⟨t, ht, rfl⟩)
  · exact .inl ⟨t, ht, neg_neg _⟩
  · exact .inr (.inr ⟨rfl, neg_zero⟩)

theorem specBracket_exists (ang : Bool) (i j : Fin n) : ∃ Q, SpecBracket R ang i j Q := by
  rcases lt_trichotomy i j with h | rfl | h
  · obtain ⟨t, ht⟩ := pairAt_of h; exact ⟨_, .inl ⟨t, ht, rfl⟩⟩
  · exact ⟨_, .inr (.inr ⟨rfl, rfl⟩)⟩
  · obtain ⟨t, ht⟩ := pairAt_of h; exact ⟨_, .inr (.inl ⟨t, ht, rfl⟩)⟩

theorem moves_exists (σ : Equiv.Perm (Fin n)) (b : Bool) : ∃ φ : MvPolynomial (BrkVar n) R →ₐ[R] MvPolynomial (BrkVar n) R, Moves σ b φ := by
  choose f hf using fun v : BrkVar n => specBracket_exists (R := R) (v.1 ^^ b) (σ (pairFst v.2)) (σ (pairSnd v.2))
  refine ⟨aeval f, fun ang t i j h => ?_⟩
  obtain ⟨rfl, rfl⟩ := pairAt_unique h (pair_spec t)
  rw [aeval_X]
  exact hf (ang, t)

variable {φ ψ : MvPolynomial (BrkVar n) R →ₐ[R] MvPolynomial (BrkVar n) R} {σ τ : Equiv.Perm (Fin n)} {b b' : Bool}

theorem Moves.bracket (h : Moves σ b φ) {ang : Bool} {i j : Fin n} {Q : MvPolynomial (BrkVar n) R} (hQ : SpecBracket R ang i j Q) :
    SpecBracket R (ang ^^ b) (σ i) (σ j) (φ Q) := by
  rcases hQ with ⟨t, ht, rfl⟩ | ⟨t, ht, rfl⟩ | ⟨rfl, rfl⟩
  · exact h _ _ _ _ ht
  · rw [map_neg]; exact (h _ _ _ _ ht).neg
  · exact .inr (.inr ⟨rfl, map_zero φ⟩)

theorem Moves.unique (h : Moves σ b φ) (h' : Moves σ b ψ) : φ = ψ :=
  MvPolynomial.algHom_ext fun ⟨ang, t⟩ => (h ang t _ _ (pair_spec t)).unique (h' ang t _ _ (pair_spec t))

theorem Moves.comp (h : Moves σ b φ) (h' : Moves τ b' ψ) : Moves (τ * σ) (b ^^ b') (ψ.comp φ) := by
  intro ang t i j ht
  have := h'.bracket (h ang t i j ht)
  rwa [Bool.xor_assoc] at this

theorem moves_one : Moves (1 : Equiv.Perm (Fin n)) false (AlgHom.id R (MvPolynomial (BrkVar n) R)) := by
  intro ang t i j ht
  rw [Bool.xor_false]
  exact .inl ⟨t, ht, rfl⟩

theorem Moves.inv (h : Moves σ b φ) (h' : Moves σ⁻¹ b ψ) : ψ.comp φ = AlgHom.id R _ := by
  have := h.comp h'
  rw [inv_mul_cancel, Bool.xor_self] at this
  exact this.unique moves_one

theorem Moves.bijective (h : Moves σ b φ) : Function.Bijective φ := by
  obtain ⟨ψ, h'⟩ := moves_exists (R := R) σ⁻¹ b
  have e1 := h.inv h'
  have e2 := h'.inv (by rwa [inv_inv] : Moves σ⁻¹⁻¹ b φ)
  exact Function.bijective_iff_has_inverse.mpr ⟨ψ, fun P => congrArg (fun f => f P) e1, fun P => congrArg (fun f => f P) e2⟩

/-- The move over the integers and over the rational numbers. -/
theorem Moves.map {φ : MvPolynomial (BrkVar n) ℤ →ₐ[ℤ] MvPolynomial (BrkVar n) ℤ} {ψ : MvPolynomial (BrkVar n) ℚ →ₐ[ℚ] MvPolynomial (BrkVar n) ℚ}
    (h : Moves σ b φ) (h' : Moves σ b ψ) (P : MvPolynomial (BrkVar n) ℤ) :
    (φ P).map (Int.castRingHom ℚ) = ψ (P.map (Int.castRingHom ℚ)) := by
  have : (MvPolynomial.map (Int.castRingHom ℚ)).comp φ.toRingHom = ψ.toRingHom.comp (MvPolynomial.map (Int.castRingHom ℚ)) := by
    refine MvPolynomial.ringHom_ext' (RingHom.ext_int _ _) fun ⟨ang, t⟩ => ?_
    have h1 := h ang t _ _ (pair_spec t)
    have h2 := h' ang t _ _ (pair_spec t)
    have h3 : SpecBracket ℚ (ang ^^ b) (σ (pairFst t)) (σ (pairSnd t)) ((φ (X (ang, t))).map (Int.castRingHom ℚ)) := by
      rcases h1 with ⟨t', ht, e⟩ | ⟨t', ht, e⟩ | ⟨he, e⟩
      · exact .inl ⟨t', ht, by rw [e, map_X]⟩
      · exact .inr (.inl ⟨t', ht, by rw [e, map_neg, map_X]⟩)
      · exact .inr (.inr ⟨he, by rw [e, map_zero]⟩)
    simp only [RingHom.comp_apply, map_X]
    exact h3.unique h2
  exact congrArg (fun f => f P) this

theorem specIdeal_hom {φ : MvPolynomial (BrkVar n) ℤ →ₐ[ℤ] MvPolynomial (BrkVar n) ℤ}
    {ψ : MvPolynomial (BrkVar n) ℚ →ₐ[ℚ] MvPolynomial (BrkVar n) ℚ}
    (h : ∀ P, (φ P).map (Int.castRingHom ℚ) = ψ (P.map (Int.castRingHom ℚ))) (G : List (MvPolynomial (BrkVar n) ℤ)) :
    SpecIdeal (G.map φ) = (SpecIdeal G).map ψ := by
  rw [SpecIdeal, SpecIdeal, Ideal.map_span]
  congr 1
  ext Q
  simp only [Set.mem_ofPred_eq, Set.mem_image, List.mem_map]
  constructor
  · rintro ⟨_, ⟨P, hP, rfl⟩, rfl⟩
    exact ⟨_, ⟨P, hP, rfl⟩, (h P).symm⟩
  · rintro ⟨_, ⟨P, hP, rfl⟩, rfl⟩
    exact ⟨_, ⟨P, hP, rfl⟩, (h P).symm⟩

theorem mem_map_bijective {A B : Type*} [CommRing A] [CommRing B] [Algebra ℚ A] [Algebra ℚ B] {ψ : A →ₐ[ℚ] B} (h : Function.Bijective ψ) (I : Ideal A) (Q : A) :
    ψ Q ∈ I.map ψ ↔ Q ∈ I := by
  constructor
  · intro hQ
    have := Ideal.comap_map_of_bijective ψ h (I := I)
    rw [← this]
    exact hQ
  · exact Ideal.mem_map_of_mem _

end brackets

/-! ### Helper lemmas: texts -/

section texts
variable {n : ℕ} {σ : Equiv.Perm (Fin n)} {b : Bool} {φ : MvPolynomial (BrkVar n) ℤ →ₐ[ℤ] MvPolynomial (BrkVar n) ℤ}

theorem specBrkText_some {x : Char} {k : ℕ} {v : BrkVar n} (h : SpecBrkText n x k = some v) :
    x ∈ invLetters ∧ 1 ≤ k ∧ k ≤ n * (n - 1) / 2 ∧ x = (if v.1 then 'A' else 'B') ∧ (v.2 : ℕ) = k - 1 := by
  rw [SpecBrkText] at h
  rw [← length_pairsList]
  split_ifs at h with h1 h2 h3
  · cases h; exact ⟨by simp [invLetters, h2], h1.1, h1.2, by simp [h2], rfl⟩
  · cases h; exact ⟨by simp [invLetters, h3], h1.1, h1.2, by simp [h3], rfl⟩

theorem specBrkPoly_has {e : Ast PAtom} {P : MvPolynomial (BrkVar n) ℤ} (h : SpecBrkPoly n e = some P) {x : Char} {k : ℕ}
    (hx : e.Has (.var x k)) : ∃ v, SpecBrkText n x k = some v := by
  induction e generalizing P with
  | atom y =>
    cases hx
    rw [SpecBrkPoly] at h
    obtain ⟨v, hv, -⟩ := Option.map_eq_some_iff.mp h
    exact ⟨v, hv⟩
  | pos a ih => cases hx with | pos hx => exact ih h hx
  | neg a ih =>
    cases hx with
    | neg hx =>
      obtain ⟨Q, hQ, -⟩ := Option.map_eq_some_iff.mp h
      exact ih hQ hx
  | add a c ih₁ ih₂ | sub a c ih₁ ih₂ | mul a c ih₁ ih₂ =>
    rw [SpecBrkPoly, Option.bind_eq_some_iff] at h
    obtain ⟨Q, hQ, h⟩ := h
    obtain ⟨Q', hQ', -⟩ := Option.map_eq_some_iff.mp h
    cases hx
    · rename_i hx; exact ih₁ hQ hx
    · rename_i hx; exact ih₂ hQ' hx
  | div a c ih₁ ih₂ => cases h
  | pow a c ih₁ ih₂ =>
    rcases c with (k' | ⟨x', i'⟩) | _ | _ | _ | _ | _ | _ | _
    · obtain ⟨Q, hQ, -⟩ := Option.map_eq_some_iff.mp h
      cases hx with
      | pow₁ hx => exact ih₁ hQ hx
      | pow₂ hx => cases hx
    all_goals cases h

theorem specBrkText_letter (v : BrkVar n) (k : ℕ) (hk : k = (v.2 : ℕ) + 1) : SpecBrkText n (if v.1 then 'A' else 'B') k = some v := by
  obtain ⟨ang, t⟩ := v
  have := t.isLt
  subst hk
  rw [SpecBrkText, dif_pos ⟨by omega, by simp only; omega⟩]
  cases ang <;> simp

theorem invAtom_moves (h : Moves σ b φ) {x : Char} {k : ℕ} {v : BrkVar n} (hv : SpecBrkText n x k = some v) :
    SpecBrkPoly n (invAtomTree σ (maybeSwap₂ b) (.var x k)) = some (φ (X v)) := by
  obtain ⟨-, h1, h2, hx, ht⟩ := specBrkText_some hv
  obtain ⟨ang, t⟩ := v
  simp only at hx ht
  have hp := pair_spec t
  have hlt := t.isLt
  have hk : (pairsList n)[k - 1]? = some ((pairFst t : ℕ) + 1, (pairSnd t : ℕ) + 1) := by
    rw [← ht, List.getElem?_eq_getElem hlt, ← (hp : (pairsList n)[t] = _)]; rfl
  have hm := h ang t _ _ hp
  have hl : maybeSwap₂ b x = if (ang ^^ b) then 'A' else 'B' := by
    rw [hx]; cases ang <;> cases b <;> rfl
  have pos : ∀ {i j : Fin n} {u : ℕ}, (pairsList n)[u - 1]? = some ((i : ℕ) + 1, (j : ℕ) + 1) → 1 ≤ u →
      ∃ t', SpecPairAt t' i j ∧ u = (t' : ℕ) + 1 := by
    intro i j u hu h1
    obtain ⟨hlt, e⟩ := List.getElem?_eq_some_iff.mp hu
    exact ⟨⟨u - 1, hlt⟩, e, by simp; omega⟩
  simp only [invAtomTree]
  rw [hl]
  have hσ : σ (pairFst t) ≠ σ (pairSnd t) := fun e => absurd (σ.injective e) (pairAt_lt hp).ne
  have nz : 1 ≤ (invNumber σ k).natAbs := by
    have e1 := permLabel_fin σ (pairFst t)
    have e2 := permLabel_fin σ (pairSnd t)
    rcases lt_or_gt_of_ne hσ with hlt' | hlt' <;> rw [Fin.lt_def] at hlt' <;> simp only [invNumber, hk, e1, e2, index2d]
    · rw [if_pos (mem_pairsList.mpr (by omega))]; omega
    · rw [if_neg (by rw [mem_pairsList]; omega), if_pos (mem_pairsList.mpr (by omega))]; omega
  rcases invNumber_spec σ k _ _ hk with ⟨hs, hpair⟩ | ⟨hs, hpair⟩
  · rw [if_pos hs]
    obtain ⟨t', ht', e⟩ := pos hpair nz
    rw [SpecBrkPoly, specBrkText_letter (ang ^^ b, t') _ e, Option.map_some]
    congr 1
    exact SpecBracket.unique (.inl ⟨t', ht', rfl⟩) hm
  · rw [if_neg hs]
    obtain ⟨t', ht', e⟩ := pos hpair nz
    rw [SpecBrkPoly, SpecBrkPoly, specBrkText_letter (ang ^^ b, t') _ e, Option.map_some, Option.map_some]
    congr 1
    exact SpecBracket.unique (.inr (.inl ⟨t', ht', rfl⟩)) hm

theorem specBrkPoly_bind (h : Moves σ b φ) {e : Ast PAtom} {P : MvPolynomial (BrkVar n) ℤ} (he : SpecBrkPoly n e = some P) :
    SpecBrkPoly n (e.bind (invAtomTree σ (maybeSwap₂ b))) = some (φ P) := by
  induction e generalizing P with
  | atom x => cases x with
    | num k => simp only [SpecBrkPoly, Option.some.injEq] at he; subst he; simp [Ast.bind, invAtomTree, SpecBrkPoly]
    | var x k =>
      rw [SpecBrkPoly] at he
      obtain ⟨v, hv, rfl⟩ := Option.map_eq_some_iff.mp he
      exact invAtom_moves h hv
  | pos a ih => exact ih he
  | neg a ih =>
    obtain ⟨Q, hQ, rfl⟩ := Option.map_eq_some_iff.mp he
    rw [Ast.bind, SpecBrkPoly, ih hQ, Option.map_some, map_neg]
  | add a c ih₁ ih₂ | sub a c ih₁ ih₂ | mul a c ih₁ ih₂ =>
    rw [SpecBrkPoly, Option.bind_eq_some_iff] at he
    obtain ⟨Q, hQ, he⟩ := he
    obtain ⟨Q', hQ', rfl⟩ := Option.map_eq_some_iff.mp he
    rw [Ast.bind, SpecBrkPoly, ih₁ hQ, ih₂ hQ']
    simp
  | div a c ih₁ ih₂ => cases he
  | pow a c ih₁ ih₂ =>
    rcases c with (k' | ⟨x', i'⟩) | _ | _ | _ | _ | _ | _ | _
    · obtain ⟨Q, hQ, rfl⟩ := Option.map_eq_some_iff.mp he
      have e0 : (Ast.atom (PAtom.num k')).bind (invAtomTree σ (maybeSwap₂ b)) = .atom (.num k') := rfl
      rw [Ast.bind, e0, SpecBrkPoly, ih₁ hQ, Option.map_some, map_pow]
    all_goals cases he

theorem Reads.hasAll {α : Type*} {L : Level} {ts : List (Tok α)} {e : Ast α} (h : Reads L ts e) {x : α} (hx : .atom x ∈ ts) : e.Has x := by
  induction h with
  | atom y => simp at hx; subst hx; exact .atom
  | paren _ ih => simp at hx; exact ih hx
  | ofAtom _ ih | ofPower _ ih | ofFactor _ ih | ofTerm _ ih => exact ih hx
  | pos _ ih => simp at hx; exact .pos (ih hx)
  | neg _ ih => simp at hx; exact .neg (ih hx)
  | pow _ _ ih₁ ih₂ => simp at hx; exact hx.elim (fun h => .pow₁ (ih₁ h)) fun h => .pow₂ (ih₂ h)
  | mul _ _ ih₁ ih₂ => simp at hx; exact hx.elim (fun h => .mul₁ (ih₁ h)) fun h => .mul₂ (ih₂ h)
  | div _ _ ih₁ ih₂ => simp at hx; exact hx.elim (fun h => .div₁ (ih₁ h)) fun h => .div₂ (ih₂ h)
  | add _ _ ih₁ ih₂ => simp at hx; exact hx.elim (fun h => .add₁ (ih₁ h)) fun h => .add₂ (ih₂ h)
  | sub _ _ ih₁ ih₂ => simp at hx; exact hx.elim (fun h => .sub₁ (ih₁ h)) fun h => .sub₂ (ih₂ h)

theorem brkDenotes_vars {ts : List (Tok PAtom × ℕ)} {e : Ast PAtom} {P : MvPolynomial (BrkVar n) ℤ}
    (he : Reads .expr (ts.map Prod.fst) e) (hP : SpecBrkPoly n e = some P) : InvVars n ts := by
  intro x k j hm
  obtain ⟨v, hv⟩ := specBrkPoly_has hP (he.hasAll (List.mem_map.mpr ⟨_, hm, rfl⟩))
  obtain ⟨h1, h2, h3, -⟩ := specBrkText_some hv
  exact ⟨h1, h2, h3⟩

theorem brkDenotes_image (hn : n ≤ 9) (h : Moves σ b φ) {s : List Char} {P : MvPolynomial (BrkVar n) ℤ} (hs : BrkDenotes s P) :
    ∃ s', invariantPolyImage s (permString σ, b) = .ok s' ∧ BrkDenotes s' (φ P) := by
  obtain ⟨pw, ts, e, hpw, rfl, he, hP⟩ := hs
  refine ⟨_, invariantPolyImage_text hn σ b hpw ts (brkDenotes_vars he hP) he.apart, pw, invToks σ (maybeSwap₂ b) ts,
    e.bind (invAtomTree σ (maybeSwap₂ b)), hpw, rfl, ?_, specBrkPoly_bind h hP⟩
  rw [invToks_fst]
  exact he.bind fun x _ => invAtom_reads σ _ x

theorem spinorImage_denotes (hn : n ≤ 9) (h : Moves σ b φ) {I : List (List Char)} {G : List (MvPolynomial (BrkVar n) ℤ)}
    (hI : List.Forall₂ BrkDenotes I G) :
    ∃ I', spinorImage I (permString σ, b) = .ok I' ∧ List.Forall₂ BrkDenotes I' (G.map φ) := by
  induction hI with
  | nil => exact ⟨[], rfl, .nil⟩
  | cons hs _ ih =>
    obtain ⟨s', e1, d1⟩ := brkDenotes_image hn h hs
    obtain ⟨I', e2, d2⟩ := ih
    refine ⟨s' :: I', ?_, .cons d1 d2⟩
    rw [spinorImage] at e2 ⊢
    rw [eachOf, e1, e2]; rfl

end texts

/-! ### Helper lemmas: signs -/

section signs
variable {n : ℕ}

theorem homogeneous_neg {σ R A : Type*} [CommRing R] [CommRing A] [Algebra R A] {P : MvPolynomial σ R} {d : ℕ} (h : P.IsHomogeneous d)
    (w : σ → A) : aeval (fun v => -w v) P = (-1) ^ d * aeval w P := by
  rw [P.as_sum, map_sum, map_sum, Finset.mul_sum]
  refine Finset.sum_congr rfl fun m hm => ?_
  have hd : m.degree = d := by
    by_contra hc
    exact (mem_support_iff.mp hm) (h.coeff_eq_zero hc)
  rw [aeval_monomial, aeval_monomial, Finsupp.prod, Finsupp.prod]
  have : ∀ i ∈ m.support, (-w i) ^ m i = (-1) ^ m i * w i ^ m i := fun i _ => neg_pow _ _
  rw [Finset.prod_congr rfl this, Finset.prod_mul_distrib, Finset.prod_pow_eq_pow_sum,
    show ∑ i ∈ m.support, m i = d from hd]
  ring

/-- The opposite of every bracket. -/
noncomputable def flipSigns (R : Type*) [CommRing R] : MvPolynomial (BrkVar n) R →ₐ[R] MvPolynomial (BrkVar n) R := aeval fun v => -X v

theorem flipSigns_homogeneous {R : Type*} [CommRing R] {P : MvPolynomial (BrkVar n) R} {d : ℕ} (h : P.IsHomogeneous d) :
    flipSigns R P = (-1) ^ d * P := by
  rw [flipSigns, homogeneous_neg h, aeval_X_left_apply]

theorem flipSigns_flipSigns {R : Type*} [CommRing R] (P : MvPolynomial (BrkVar n) R) : flipSigns R (flipSigns R P) = P := by
  have : (flipSigns (n := n) R).comp (flipSigns R) = AlgHom.id R _ := MvPolynomial.algHom_ext fun v => by simp [flipSigns]
  exact congrArg (fun f => f P) this

theorem flipSigns_map (P : MvPolynomial (BrkVar n) ℤ) :
    (flipSigns ℤ P).map (Int.castRingHom ℚ) = flipSigns ℚ (P.map (Int.castRingHom ℚ)) := by
  have : (MvPolynomial.map (Int.castRingHom ℚ)).comp (flipSigns (n := n) ℤ).toRingHom =
      (flipSigns ℚ).toRingHom.comp (MvPolynomial.map (Int.castRingHom ℚ)) := by
    refine MvPolynomial.ringHom_ext' (RingHom.ext_int _ _) fun v => ?_
    simp [flipSigns]
  exact congrArg (fun f => f P) this

/-- Opposite signs do not change an ideal with homogeneous generators. -/
theorem specIdeal_flip {G : List (MvPolynomial (BrkVar n) ℤ)} (h : ∀ P ∈ G, ∃ d, P.IsHomogeneous d) :
    (SpecIdeal G).map (flipSigns ℚ) = SpecIdeal G := by
  rw [← specIdeal_hom flipSigns_map G]
  have key : ∀ P ∈ G, ∀ H : List (MvPolynomial (BrkVar n) ℤ), (flipSigns ℤ P).map (Int.castRingHom ℚ) ∈ SpecIdeal H ↔
      P.map (Int.castRingHom ℚ) ∈ SpecIdeal H := by
    intro P hP H
    obtain ⟨d, hd⟩ := h P hP
    rw [flipSigns_homogeneous hd]
    rcases neg_one_pow_eq_or (MvPolynomial (BrkVar n) ℤ) d with e | e <;> rw [e]
    · rw [one_mul]
    · rw [neg_one_mul, map_neg]; exact Submodule.neg_mem_iff _
  refine le_antisymm (Ideal.span_le.mpr ?_) (Ideal.span_le.mpr ?_)
  · rintro Q ⟨P, hP, rfl⟩
    obtain ⟨P, hP', rfl⟩ := List.mem_map.mp hP
    exact (key P hP' G).mpr (Ideal.subset_span ⟨P, hP', rfl⟩)
  · rintro Q ⟨P, hP, rfl⟩
    exact (key P hP _).mp (Ideal.subset_span ⟨_, List.mem_map_of_mem hP, rfl⟩)

end signs

/-! ### Helper lemmas: slices -/

section slices
variable {n : ℕ} {σ : Equiv.Perm (Fin n)} {b : Bool}

/-- A polynomial in the brackets, with the brackets written in components. -/
noncomputable def inComps : MvPolynomial (BrkVar n) ℚ →ₐ[ℚ] MvPolynomial (Comp n) ℚ := substB.comp (rename Sum.inr)

theorem inComps_bracket {ang : Bool} {i j : Fin n} {Q : MvPolynomial (BrkVar n) ℚ} (h : SpecBracket ℚ ang i j Q) :
    inComps Q = (brkPoly ang i j).map (Int.castRingHom ℚ) := specVar_subst h

theorem brkPoly_move (σ : Equiv.Perm (Fin n)) (b ang : Bool) (i j : Fin n) :
    rename (SpecMove σ b) ((brkPoly ang i j).map (Int.castRingHom ℚ)) =
      if b then -(brkPoly (ang ^^ b) (σ i) (σ j)).map (Int.castRingHom ℚ) else (brkPoly (ang ^^ b) (σ i) (σ j)).map (Int.castRingHom ℚ) := by
  cases b <;> cases ang <;> simp [brkPoly, SpecMove]

/-- The brackets move with their components, up to signs. -/
noncomputable def moveSigned (b : Bool) (ψ : MvPolynomial (BrkVar n) ℚ →ₐ[ℚ] MvPolynomial (BrkVar n) ℚ) :
    MvPolynomial (BrkVar n) ℚ →ₐ[ℚ] MvPolynomial (BrkVar n) ℚ := if b then (flipSigns ℚ).comp ψ else ψ

theorem inComps_move {ψ : MvPolynomial (BrkVar n) ℚ →ₐ[ℚ] MvPolynomial (BrkVar n) ℚ} (h : Moves σ b ψ) (Q : MvPolynomial (BrkVar n) ℚ) :
    inComps (moveSigned b ψ Q) = rename (SpecMove σ b) (inComps Q) := by
  have : inComps.comp (moveSigned b ψ) = (rename (SpecMove σ b)).comp inComps := by
    refine MvPolynomial.algHom_ext fun ⟨ang, t⟩ => ?_
    have hm := h ang t _ _ (pair_spec t)
    have h1 : inComps (X (ang, t)) = (brkPoly ang (pairFst t) (pairSnd t)).map (Int.castRingHom ℚ) :=
      inComps_bracket (.inl ⟨t, pair_spec t, rfl⟩)
    simp only [AlgHom.comp_apply]
    rw [h1, brkPoly_move]
    cases b
    · simp only [moveSigned, Bool.false_eq_true, if_false]
      exact inComps_bracket hm
    · simp only [moveSigned, if_true, AlgHom.comp_apply]
      rw [← inComps_bracket hm, ← map_neg]
      congr 1
      rcases hm with ⟨t', -, e⟩ | ⟨t', -, e⟩ | ⟨-, e⟩ <;> rw [e] <;> simp [flipSigns]
  exact congrArg (fun f => f Q) this

theorem moveSigned_bijective {ψ : MvPolynomial (BrkVar n) ℚ →ₐ[ℚ] MvPolynomial (BrkVar n) ℚ} (h : Moves σ b ψ) :
    Function.Bijective (moveSigned b ψ) := by
  cases b
  · exact h.bijective
  · have : Function.Bijective (flipSigns (n := n) ℚ) :=
      Function.bijective_iff_has_inverse.mpr ⟨flipSigns ℚ, flipSigns_flipSigns, flipSigns_flipSigns⟩
    exact this.comp h.bijective

variable {F : Type*} [Field F] [NeZero (2 : F)]

theorem invariantSlice_mem {cF : Ctx F} {x : Comp n → F} (hx : AlgebraicIndependent ℤ x) {ps₀ : Point F n} (h0 : ∃ r l, Spin cF ps₀ r l)
    {elim : List (MvPolynomial (Mixed n) ℤ) → List (MvPolynomial (BrkVar n) ℤ)} (he : Eliminates elim) (L : List (MvPolynomial (Comp n) ℤ)) :
    ∃ J, invariantSlice cF x ps₀ elim L = .ok J ∧ ∀ Q, Q ∈ SpecIdeal J ↔ inComps Q ∈ SpecIdeal L := by
  rw [invariantSlice, conversionGens_eq hx h0]
  refine ⟨_, rfl, fun Q => (he _ Q).trans (mem_elim L _ ?_ _)⟩
  intro P
  rw [List.mem_map]
  constructor
  · rintro ⟨v, -, rfl⟩; exact ⟨v, rfl⟩
  · rintro ⟨⟨ang, t⟩, rfl⟩
    refine ⟨(ang, t), ?_, rfl⟩
    rw [List.mem_append]
    cases ang
    · exact .inr (List.mem_map_of_mem (List.mem_finRange t))
    · exact .inl (List.mem_map_of_mem (List.mem_finRange t))

theorem slice_move {L : List (MvPolynomial (Comp n) ℤ)} {J J' : List (MvPolynomial (BrkVar n) ℤ)}
    (hJ : ∀ Q, Q ∈ SpecIdeal J ↔ inComps Q ∈ SpecIdeal L) (hJ' : ∀ Q, Q ∈ SpecIdeal J' ↔ inComps Q ∈ SpecIdeal (L.map (rename (SpecMove σ b))))
    {ψ : MvPolynomial (BrkVar n) ℚ →ₐ[ℚ] MvPolynomial (BrkVar n) ℚ} (h : Moves σ b ψ) :
    SpecIdeal J' = (SpecIdeal J).map (moveSigned b ψ) := by
  have hb : Function.Bijective (rename (R := ℚ) (SpecMove σ b)) := by
    have hb' : Function.Bijective (SpecMove σ b) := (Finite.injective_iff_bijective).mp (specMove_injective σ b)
    exact (renameEquiv ℚ (Equiv.ofBijective _ hb')).bijective
  ext Q
  obtain ⟨Q, rfl⟩ := (moveSigned_bijective h).surjective Q
  rw [hJ', inComps_move h, specIdeal_rename, mem_map_bijective hb, mem_map_bijective (moveSigned_bijective h), hJ]

end slices

/-! ### C107 -/

section main
variable {n : ℕ}

/-- C107: a text stands for one polynomial at most. -/
theorem C107_one_polynomial (s : List Char) (P Q : MvPolynomial (BrkVar n) ℤ) (h : BrkDenotes s P) (h' : BrkDenotes s Q) : P = Q := by
  have plain : ∀ {ts : List (Tok PAtom × ℕ)}, InvVars n ts → PlainVars ts := fun hv l i k hm => by
    have hl := (hv l i k hm).1
    simp only [invLetters, List.mem_cons, List.not_mem_nil, or_false] at hl
    rcases hl with rfl | rfl <;> exact ⟨by decide, by decide, by decide⟩
  obtain ⟨pw, ts, e, hpw, rfl, he, hP⟩ := h
  obtain ⟨pw', ts', e', hpw', ht, he', hQ⟩ := h'
  have := renderText_unique hpw hpw' (plain (brkDenotes_vars he hP)) (plain (brkDenotes_vars he' hQ)) he he' ht
  rw [this, hQ] at hP
  exact (Option.some.inj hP).symm

/-- C107: calling an ideal in the brackets with a rule gives generators that are the polynomials with their brackets moved, signs
included; the ideal is moved as a whole. -/
theorem C107_image (hn : n ≤ 9) (σ : Equiv.Perm (Fin n)) (b : Bool) (I : List (List Char)) (G : List (MvPolynomial (BrkVar n) ℤ))
    (h : List.Forall₂ BrkDenotes I G) (φ : MvPolynomial (BrkVar n) ℤ →ₐ[ℤ] MvPolynomial (BrkVar n) ℤ) (hφ : Moves σ b φ)
    (ψ : MvPolynomial (BrkVar n) ℚ →ₐ[ℚ] MvPolynomial (BrkVar n) ℚ) (hψ : Moves σ b ψ) :
    ∃ I', spinorCall I [.str (permString σ), .bool b] = .ok I' ∧ List.Forall₂ BrkDenotes I' (G.map φ) ∧
      ∀ Q, ψ Q ∈ SpecIdeal (G.map φ) ↔ Q ∈ SpecIdeal G := by
  obtain ⟨I', e, d⟩ := spinorImage_denotes hn hφ h
  refine ⟨I', e, d, fun Q => ?_⟩
  rw [specIdeal_hom (hφ.map hψ), mem_map_bijective hψ.bijective]

/-- C107: there is exactly one way to move the brackets. -/
theorem C107_moves {R : Type*} [CommRing R] (σ : Equiv.Perm (Fin n)) (b : Bool) :
    ∃! φ : MvPolynomial (BrkVar n) R →ₐ[R] MvPolynomial (BrkVar n) R, Moves σ b φ := by
  obtain ⟨φ, h⟩ := moves_exists (R := R) σ b
  exact ⟨φ, h, fun ψ hψ => hψ.unique h⟩

/-- C107: images compose, and the inverse rule leads back, as polynomials; the texts may differ in signs that cancel. -/
theorem C107_group (hn : n ≤ 9) (σ τ : Equiv.Perm (Fin n)) (b b' : Bool) (I : List (List Char)) (G : List (MvPolynomial (BrkVar n) ℤ))
    (h : List.Forall₂ BrkDenotes I G) :
    ∃ (I₁ I₂ I₃ I₄ : List (List Char)) (G₂ : List (MvPolynomial (BrkVar n) ℤ)) (p : List Char), spinorCall I [.str (permString σ), .bool b] = .ok I₁ ∧ spinorCall I₁ [.str (permString τ), .bool b'] = .ok I₂ ∧
      spinorCall I [.str (permString (τ * σ)), .bool (b ^^ b')] = .ok I₃ ∧ List.Forall₂ BrkDenotes I₂ G₂ ∧ List.Forall₂ BrkDenotes I₃ G₂ ∧
      inverseRule (permString σ, b) = .ok (p, b) ∧ spinorCall I₁ [.str p, .bool b] = .ok I₄ ∧ List.Forall₂ BrkDenotes I₄ G := by
  obtain ⟨φ, hφ⟩ := moves_exists (R := ℤ) σ b
  obtain ⟨ψ, hψ⟩ := moves_exists (R := ℤ) τ b'
  obtain ⟨χ, hχ⟩ := moves_exists (R := ℤ) σ⁻¹ b
  obtain ⟨I₁, e₁, d₁⟩ := spinorImage_denotes hn hφ h
  obtain ⟨I₂, e₂, d₂⟩ := spinorImage_denotes hn hψ d₁
  obtain ⟨I₃, e₃, d₃⟩ := spinorImage_denotes hn (hφ.comp hψ) h
  obtain ⟨I₄, e₄, d₄⟩ := spinorImage_denotes hn hχ d₁
  refine ⟨I₁, I₂, I₃, I₄, _, permString σ.symm, e₁, e₂, e₃, d₂, ?_, by simp [inverseRule, C36_inverse hn], e₄, ?_⟩
  · rw [List.map_map]; exact d₃
  · rw [List.map_map] at d₄
    have : (χ ∘ φ : MvPolynomial (BrkVar n) ℤ → MvPolynomial (BrkVar n) ℤ) = id := by
      funext P; exact congrArg (fun f => f P) (hφ.inv hχ)
    rwa [this, List.map_id] at d₄

/-- C107, restricted: the image of a common zero, a point whose brackets are zeros, is a common zero of the image of the ideal, and the
other way round; for an exchange of angle and square brackets the generators have to be homogeneous (`C107_exchange_wrong`). -/
theorem C107_zeros_partial {K : Type*} [Field K] [NeZero (2 : K)] (hn : n ≤ 9) (h0 : 0 < n) (c : Ctx K) (ps : Fin n → Particle K)
    (r l : Fin n → V2 K) (hs : ∀ k, HasSpinors c (ps k) (r k) (l k)) (hd : ∀ i j, i ≠ j → (ps i).r2 ≠ (ps j).r2)
    (σ : Equiv.Perm (Fin n)) (b : Bool) (I : List (List Char)) (G : List (MvPolynomial (BrkVar n) ℤ)) (h : List.Forall₂ BrkDenotes I G)
    (hb : b = true → ∀ P ∈ G, ∃ d, P.IsHomogeneous d) :
    ∃ I' G' qs r' l', spinorCall I [.str (permString σ), .bool b] = .ok I' ∧ List.Forall₂ BrkDenotes I' G' ∧
      imageRule particleEq (anglesForSquares c) (List.ofFn ps) (permString σ, b) = .ok (List.ofFn qs) ∧
      (∀ k : Fin n, HasSpinors c (qs k) (r' k) (l' k)) ∧
      ∀ w w', BrkVals r l w → BrkVals r' l' w' → ((∀ P ∈ G', aeval w' P = 0) ↔ ∀ P ∈ G, aeval w P = 0) := by
  obtain ⟨φ, hφ⟩ := moves_exists (R := ℤ) σ b
  obtain ⟨I', e, d⟩ := spinorImage_denotes hn hφ h
  refine ⟨I', _, _, fun k => if b then l (σ.symm k) else r (σ.symm k), fun k => if b then r (σ.symm k) else l (σ.symm k), e, d,
    image_point hn h0 c ps hd σ b, ?_, ?_⟩
  · intro k
    cases b
    · exact hs _
    · exact (hs _).swap
  · intro w w' hw hw'
    have val : ∀ {ang : Bool} {i j : Fin n} {Q : MvPolynomial (BrkVar n) ℤ}, SpecBracket ℤ ang i j Q → aeval w' Q =
        SpecBrk (fun k => if b then l (σ.symm k) else r (σ.symm k)) (fun k => if b then r (σ.symm k) else l (σ.symm k)) ang i j := by
      intro ang i j Q hQ
      rcases hQ with ⟨t, ht, rfl⟩ | ⟨t, ht, rfl⟩ | ⟨rfl, rfl⟩
      · rw [aeval_X]; exact hw' _ _ _ _ ht
      · rw [map_neg, aeval_X, hw' _ _ _ _ ht]
        cases ang <;> simp only [SpecBrk, SpecAngle, SpecSquare] <;> simp <;> ring
      · rw [map_zero]
        cases ang <;> simp [SpecBrk, SpecAngle, SpecSquare] <;> ring
    have key : ∀ P, aeval w' (φ P) = aeval (fun v => if b then -w v else w v) P := by
      have : (aeval w').comp φ = aeval (R := ℤ) fun v => if b then -w v else w v := by
        refine MvPolynomial.algHom_ext fun ⟨ang, t⟩ => ?_
        rw [AlgHom.comp_apply, val (hφ ang t _ _ (pair_spec t)), aeval_X, hw _ _ _ _ (pair_spec t)]
        cases ang <;> cases b <;> simp [SpecBrk, SpecAngle_eq_neg (l _), SpecSquare_eq_neg (r _)]
      exact fun P => congrArg (fun f => f P) this
    rw [List.forall_mem_map]
    refine forall₂_congr fun P hP => ?_
    rw [key]
    cases b
    · rfl
    · obtain ⟨d, hd⟩ := hb rfl P hP
      simp only [if_true]
      rw [homogeneous_neg hd, mul_eq_zero, or_iff_right (pow_ne_zero _ (neg_ne_zero.mpr one_ne_zero))]

/-- C107: for a permutation no condition is needed. -/
theorem C107_zeros {K : Type*} [Field K] [NeZero (2 : K)] (hn : n ≤ 9) (h0 : 0 < n) (c : Ctx K) (ps : Fin n → Particle K)
    (r l : Fin n → V2 K) (hs : ∀ k, HasSpinors c (ps k) (r k) (l k)) (hd : ∀ i j, i ≠ j → (ps i).r2 ≠ (ps j).r2)
    (σ : Equiv.Perm (Fin n)) (I : List (List Char)) (G : List (MvPolynomial (BrkVar n) ℤ)) (h : List.Forall₂ BrkDenotes I G) :
    ∃ I' G' qs r' l', spinorCall I [.str (permString σ), .bool false] = .ok I' ∧ List.Forall₂ BrkDenotes I' G' ∧
      imageRule particleEq (anglesForSquares c) (List.ofFn ps) (permString σ, false) = .ok (List.ofFn qs) ∧
      (∀ k : Fin n, HasSpinors c (qs k) (r' k) (l' k)) ∧
      ∀ w w', BrkVals r l w → BrkVals r' l' w' → ((∀ P ∈ G', aeval w' P = 0) ↔ ∀ P ∈ G, aeval w P = 0) :=
  C107_zeros_partial hn h0 c ps r l hs hd σ false I G h fun h => by cases h

section slice
variable {F : Type*} [Field F] [NeZero (2 : F)]

/-- C107, restricted: the slice of the image of an ideal in the components is the image of its slice; for an exchange of angle and
square brackets the generators of the slice have to be homogeneous (`C107_exchange_wrong`). -/
theorem C107_slice_partial (hn : n ≤ 9) (cF : Ctx F) (x : Comp n → F) (hx : AlgebraicIndependent ℤ x) (ps₀ : Point F n)
    (h0 : ∃ r l, Spin cF ps₀ r l) (elim : List (MvPolynomial (Mixed n) ℤ) → List (MvPolynomial (BrkVar n) ℤ)) (he : Eliminates elim)
    (σ : Equiv.Perm (Fin n)) (b : Bool) (L : List (List Char)) (GL : List (MvPolynomial (Comp n) ℤ)) (hL : List.Forall₂ Denotes L GL)
    (J : List (MvPolynomial (BrkVar n) ℤ)) (hJ : invariantSlice cF x ps₀ elim GL = .ok J) (I : List (List Char))
    (hI : List.Forall₂ BrkDenotes I J) (hb : b = true → ∀ P ∈ J, ∃ d, P.IsHomogeneous d) :
    ∃ L' GL' J' I' GI', lipsCall L [.str (permString σ), .bool b] = .ok L' ∧ List.Forall₂ Denotes L' GL' ∧
      invariantSlice cF x ps₀ elim GL' = .ok J' ∧ spinorCall I [.str (permString σ), .bool b] = .ok I' ∧
      List.Forall₂ BrkDenotes I' GI' ∧ SpecIdeal GI' = SpecIdeal J' := by
  obtain ⟨φ, hφ⟩ := moves_exists (R := ℤ) σ b
  obtain ⟨ψ, hψ⟩ := moves_exists (R := ℚ) σ b
  obtain ⟨L', e1, d1⟩ := lipsImage_denotes hn σ b hL
  obtain ⟨J₀, e2, m⟩ := invariantSlice_mem hx h0 he GL
  obtain rfl : J = J₀ := Except.ok.inj (hJ.symm.trans e2)
  obtain ⟨J', e3, m'⟩ := invariantSlice_mem hx h0 he (GL.map (rename (SpecMove σ b)))
  obtain ⟨I', e4, d4⟩ := spinorImage_denotes hn hφ hI
  refine ⟨L', _, J', I', _, e1, d1, e3, e4, d4, ?_⟩
  rw [slice_move m m' hψ, specIdeal_hom (hφ.map hψ)]
  cases b
  · rfl
  · simp only [moveSigned, if_true]
    have hG : ∀ P ∈ J.map φ, ∃ d, P.IsHomogeneous d := by
      intro P hP
      obtain ⟨P, hP', rfl⟩ := List.mem_map.mp hP
      obtain ⟨d, hd⟩ := hb rfl P hP'
      refine ⟨d, ?_⟩
      have ha : φ = aeval fun v => φ (X v) := MvPolynomial.algHom_ext fun v => by rw [aeval_X]
      rw [ha]
      have := hd.aeval (fun v => φ (X v)) (n := 1) fun ⟨ang, t⟩ => by
        rcases hφ ang t _ _ (pair_spec t) with ⟨t', -, e⟩ | ⟨t', -, e⟩ | ⟨-, e⟩ <;> rw [e]
        · exact isHomogeneous_X _ _
        · exact (isHomogeneous_X _ _).neg
        · exact isHomogeneous_zero _ _ _
      rwa [one_mul] at this
    have h1 := specIdeal_flip hG
    rw [specIdeal_hom (hφ.map hψ)] at h1
    rw [← h1]
    exact Ideal.map_map ψ.toRingHom (flipSigns ℚ).toRingHom

/-- C107: for a permutation no condition is needed. -/
theorem C107_slice (hn : n ≤ 9) (cF : Ctx F) (x : Comp n → F) (hx : AlgebraicIndependent ℤ x) (ps₀ : Point F n)
    (h0 : ∃ r l, Spin cF ps₀ r l) (elim : List (MvPolynomial (Mixed n) ℤ) → List (MvPolynomial (BrkVar n) ℤ)) (he : Eliminates elim)
    (σ : Equiv.Perm (Fin n)) (L : List (List Char)) (GL : List (MvPolynomial (Comp n) ℤ)) (hL : List.Forall₂ Denotes L GL)
    (J : List (MvPolynomial (BrkVar n) ℤ)) (hJ : invariantSlice cF x ps₀ elim GL = .ok J) (I : List (List Char))
    (hI : List.Forall₂ BrkDenotes I J) :
    ∃ L' GL' J' I' GI', lipsCall L [.str (permString σ), .bool false] = .ok L' ∧ List.Forall₂ Denotes L' GL' ∧
      invariantSlice cF x ps₀ elim GL' = .ok J' ∧ spinorCall I [.str (permString σ), .bool false] = .ok I' ∧
      List.Forall₂ BrkDenotes I' GI' ∧ SpecIdeal GI' = SpecIdeal J' :=
  C107_slice_partial hn cF x hx ps₀ h0 elim he σ false L GL hL J hJ I hI fun h => by cases h

/-- C107: the image of `SpinorIdeal(n, invariants)` under a permutation is the `SpinorIdeal` of the invariants with their labels
permuted. -/
theorem C107_invariants (hn : n ≤ 9) (cF : Ctx F) (x : Comp n → F) (hx : AlgebraicIndependent ℤ x) (ps₀ : Point F n)
    (h0 : ∃ r l, Spin cF ps₀ r l) (elim : List (MvPolynomial (Mixed n) ℤ) → List (MvPolynomial (BrkVar n) ℤ)) (he : Eliminates elim)
    (covs : List (Cov n)) (mc : Bool) (J : List (MvPolynomial (BrkVar n) ℤ)) (hJ : spinorGens cF x ps₀ elim covs mc = .ok J)
    (I : List (List Char)) (hI : List.Forall₂ BrkDenotes I J) (σ : Equiv.Perm (Fin n)) :
    ∃ I' G' J', spinorCall I [.str (permString σ), .bool false] = .ok I' ∧ List.Forall₂ BrkDenotes I' G' ∧
      spinorGens cF x ps₀ elim (covs.map (Cov.relabel σ)) mc = .ok J' ∧ SpecIdeal G' = SpecIdeal J' := by
  obtain ⟨φ, hφ⟩ := moves_exists (R := ℤ) σ false
  obtain ⟨ψ, hψ⟩ := moves_exists (R := ℚ) σ false
  obtain ⟨I', e, d⟩ := spinorImage_denotes hn hφ hI
  obtain ⟨L, hL, m⟩ := spinorGens_inv hx h0 he hJ
  have hL' := lipsGens_relabel hn hx h0 hL σ
  have hJ' : spinorGens cF x ps₀ elim (covs.map (Cov.relabel σ)) mc = .ok (elim (((((List.finRange _).map fun t => (true, t)) ++
      (List.finRange _).map fun t => (false, t)).map convPoly) ++ (L.map (rename (SpecMove σ false))).map (rename Sum.inl))) := by
    rw [spinorGens, conversionGens_eq hx h0, hL']; rfl
  obtain ⟨L'', hL'', m'⟩ := spinorGens_inv hx h0 he hJ'
  obtain rfl : _ = L'' := Except.ok.inj (hL'.symm.trans hL'')
  refine ⟨I', _, _, e, d, hJ', ?_⟩
  rw [slice_move (b := false) m m' hψ, specIdeal_hom (hφ.map hψ)]
  rfl

/-- C107 fails for an exchange of angle and square brackets in an ideal whose generators are not homogeneous: the image of `⟨1|2⟩ = 1`
is `[1|2] = 1` in the brackets, but `[1|2] = -1` in the components. -/
theorem C107_exchange_wrong (cF : Ctx F) (x : Comp 2 → F) (hx : AlgebraicIndependent ℤ x) (ps₀ : Point F 2)
    (h0 : ∃ r l, Spin cF ps₀ r l) (elim : List (MvPolynomial (Mixed 2) ℤ) → List (MvPolynomial (BrkVar 2) ℤ)) (he : Eliminates elim)
    (L : List (List Char)) (hL : List.Forall₂ Denotes L [X ((0 : Fin 2), 1) * X (1, 0) - X (0, 0) * X (1, 1) - 1])
    (J : List (MvPolynomial (BrkVar 2) ℤ)) (hJ : invariantSlice cF x ps₀ elim [X ((0 : Fin 2), 1) * X (1, 0) - X (0, 0) * X (1, 1) - 1] = .ok J)
    (I : List (List Char)) (hI : List.Forall₂ BrkDenotes I J) :
    ∃ L' GL' J' I' GI', lipsCall L [.str ['1', '2'], .bool true] = .ok L' ∧ List.Forall₂ Denotes L' GL' ∧
      invariantSlice cF x ps₀ elim GL' = .ok J' ∧ spinorCall I [.str ['1', '2'], .bool true] = .ok I' ∧
      List.Forall₂ BrkDenotes I' GI' ∧ SpecIdeal GI' ≠ SpecIdeal J' := by
  have ep : permString (1 : Equiv.Perm (Fin 2)) = ['1', '2'] := by decide
  obtain ⟨φ, hφ⟩ := moves_exists (R := ℤ) (1 : Equiv.Perm (Fin 2)) true
  obtain ⟨ψ, hψ⟩ := moves_exists (R := ℚ) (1 : Equiv.Perm (Fin 2)) true
  obtain ⟨L', e1, d1⟩ := lipsImage_denotes (by omega) 1 true hL
  obtain ⟨J₀, e2, m⟩ := invariantSlice_mem hx h0 he [X ((0 : Fin 2), 1) * X (1, 0) - X (0, 0) * X (1, 1) - 1]
  obtain rfl : J = J₀ := Except.ok.inj (hJ.symm.trans e2)
  obtain ⟨J', e3, m'⟩ := invariantSlice_mem hx h0 he ([X ((0 : Fin 2), 1) * X (1, 0) - X (0, 0) * X (1, 1) - 1].map (rename (SpecMove 1 true)))
  obtain ⟨I', e4, d4⟩ := spinorImage_denotes (by omega) hφ hI
  rw [ep] at e1 e4
  refine ⟨L', _, J', I', _, e1, d1, e3, e4, d4, fun hc => ?_⟩
  obtain ⟨t, ht⟩ := pairAt_of (n := 2) (i := 0) (j := 1) (by decide)
  have h1 : (X (true, t) - 1 : MvPolynomial (BrkVar 2) ℚ) ∈ SpecIdeal J := by
    rw [m, map_sub, map_one, inComps_bracket (.inl ⟨t, ht, rfl⟩)]
    exact Ideal.subset_span ⟨_, List.mem_singleton_self _, by simp [brkPoly]⟩
  have h2 : ψ (X (true, t)) = X (false, t) := (hψ true t 0 1 ht).unique (.inl ⟨t, ht, rfl⟩)
  have h3 : (X (false, t) - 1 : MvPolynomial (BrkVar 2) ℚ) ∈ SpecIdeal J' := by
    rw [← hc, specIdeal_hom (hφ.map hψ), ← h2, ← map_one ψ, ← map_sub]
    exact Ideal.mem_map_of_mem _ h1
  rw [m', map_sub, map_one, inComps_bracket (.inl ⟨t, ht, rfl⟩)] at h3
  have hker : (brkPoly false (0 : Fin 2) 1).map (Int.castRingHom ℚ) - 1 ∈
      RingHom.ker (eval (fun v : Comp 2 => if v = (0, 2) then (1 : ℚ) else if v = (1, 3) then -1 else 0)) := by
    refine Ideal.span_le.mpr ?_ h3
    rintro R ⟨P, hP, rfl⟩
    rw [List.map_cons, List.map_nil, List.mem_singleton] at hP
    subst hP
    rw [SetLike.mem_coe, RingHom.mem_ker]
    simp [SpecMove]
  rw [RingHom.mem_ker] at hker
  simp [brkPoly] at hker
  norm_num at hker

end slice

/-- C107: a call that is not a text and a truth value raises. -/
theorem C107_call (I : List (List Char)) (args : List PyArg) (I' : List (List Char)) (h : spinorCall I args = .ok I') :
    ∃ p b more, args = .str p :: .bool b :: more ∧ List.Forall₂ (fun s s' => invariantPolyImage s (p, b) = .ok s') I I' := by
  rcases args with _ | ⟨_ | _ | _, _ | ⟨_ | _ | _, more⟩⟩
  case cons.str.cons.bool p b => exact ⟨p, b, more, rfl, eachOf_ok.mp h⟩
  all_goals cases h

/-- C107: a call lacking an argument raises IndexError, if what is there is a text; a call with wrong arguments raises NotImplementedError. -/
theorem C107_call_raises (I : List (List Char)) : spinorCall I [] = .error .indexError ∧ (∀ p, spinorCall I [.str p] = .error .indexError) ∧
    (∀ a more, (∀ p, a ≠ .str p) → spinorCall I (a :: more) = .error .notImplemented) ∧
    ∀ p a more, (∀ b, a ≠ .bool b) → spinorCall I (.str p :: a :: more) = .error .notImplemented := by
  refine ⟨rfl, fun _ => rfl, fun a more h => ?_, fun p a more h => ?_⟩
  · rcases a with p | b | _
    · exact absurd rfl (h p)
    · rfl
    · rfl
  · rcases a with q | b | _
    · rfl
    · exact absurd rfl (h b)
    · rfl

end main

end Lips

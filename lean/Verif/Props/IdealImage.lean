import Verif.Model.IdealImage
import Verif.Props.SpinorIdeal
import Verif.Props.PolyText
import Verif.Props.PolyImage
import Verif.Props.Relabel
import Verif.Props.Symmetry
import Mathlib.Algebra.MvPolynomial.Rename

/-!
# C104: images of an ideal

Covered code: `LipsIdeal.__call__`, `image`, `equivalenceClass` (lips/algebraic_geometry/covariant_ideal.py:71-90).
-/

namespace Lips

open Matrix MvPolynomial

/-! ### Specification -/

section spec
variable {n : ℕ}

/-- The variable written with a letter and a label. -/
def SpecVarText (n : ℕ) (x : Char) (i : ℕ) : Option (Comp n) :=
  if h : 1 ≤ i ∧ i ≤ n then
    if x = 'a' then some (⟨i - 1, by omega⟩, 0) else if x = 'b' then some (⟨i - 1, by omega⟩, 1)
    else if x = 'c' then some (⟨i - 1, by omega⟩, 2) else if x = 'd' then some (⟨i - 1, by omega⟩, 3) else none
  else none

/-- The polynomial with integer coefficients that a tree stands for. -/
noncomputable def SpecPoly (n : ℕ) : Ast PAtom → Option (MvPolynomial (Comp n) ℤ)
  | .atom (.num k) => some k
  | .atom (.var x i) => (SpecVarText n x i).map X
  | .pos a => SpecPoly n a
  | .neg a => (SpecPoly n a).map (- ·)
  | .add a b => (SpecPoly n a).bind fun P => (SpecPoly n b).map (P + ·)
  | .sub a b => (SpecPoly n a).bind fun P => (SpecPoly n b).map (P - ·)
  | .mul a b => (SpecPoly n a).bind fun P => (SpecPoly n b).map (P * ·)
  | .pow a (.atom (.num k)) => (SpecPoly n a).map (· ^ k)
  | .pow _ _ | .div _ _ => none

/-- A text of arithmetic in the components that stands for a polynomial. -/
def Denotes (s : List Char) (P : MvPolynomial (Comp n) ℤ) : Prop :=
  ∃ pw ts e, PowerSign pw ∧ s = renderText pw ts ∧ CovVars n ts ∧ Reads .expr (ts.map Prod.fst) e ∧ SpecPoly n e = some P

/-- Where a rule takes a variable: particle `k` to particle `σ k`, and `a`, `b` to `c`, `d` and back for an exchange. -/
def SpecMove (σ : Equiv.Perm (Fin n)) (b : Bool) (t : Comp n) : Comp n := (σ t.1, if b then t.2 + 2 else t.2)

/-- A spinor string, a trace, ... with its labels mapped. -/
def Scal.relabel (σ : Equiv.Perm (Fin n)) : Scal n → Scal n
  | .int z => .int z
  | .two ang a b => .two ang (σ a) (σ b)
  | .string first a mid d last => .string first (σ a) (mid.map (mapSlot σ)) (σ d) last
  | .tr mid => .tr (mid.map (mapSlot σ))
  | .tr5 a b c d => .tr5 (mapSlot σ a) (mapSlot σ b) (mapSlot σ c) (mapSlot σ d)
  | .mandel ls => .mandel (ls.map σ)
  | .omega A B C => .omega (A.map σ) (B.map σ) (C.map σ)
  | .pi A C => .pi (A.map σ) (C.map σ)
  | .d5 l1 l2 l3 l4 l5 => .d5 (σ l1) (σ l2) (σ l3) (σ l4) (σ l5)
  | .add s t => .add (s.relabel σ) (t.relabel σ)
  | .mul s t => .mul (s.relabel σ) (t.relabel σ)
  | .neg s => .neg (s.relabel σ)

/-- A covariant with its labels mapped. -/
def Cov.relabel (σ : Equiv.Perm (Fin n)) : Cov n → Cov n
  | .scal s => .scal (s.relabel σ)
  | .openBegin mid d last => .openBegin (mid.map (mapSlot σ)) (σ d) last
  | .openEnd first a mid => .openEnd first (σ a) (mid.map (mapSlot σ))
  | .doubleOpen mid => .doubleOpen (mid.map (mapSlot σ))
  | .delta A B C => .delta (A.map σ) (B.map σ) (C.map σ)

end spec

/-! ### Helper lemmas: texts -/

section texts
variable {n : ℕ}

theorem specMove_var (σ : Equiv.Perm (Fin n)) (b : Bool) {x : Char} (hx : x ∈ covLetters) {i : ℕ} (h1 : 1 ≤ i) (h2 : i ≤ n) :
    SpecVarText n (maybeSwap b x) (permLabel σ i) = (SpecVarText n x i).map (SpecMove σ b) := by
  obtain ⟨j, rfl⟩ : ∃ j : Fin n, (j : ℕ) + 1 = i := ⟨⟨i - 1, by omega⟩, by simp; omega⟩
  have hj := (σ j).isLt
  rw [permLabel_fin, SpecVarText, SpecVarText, dif_pos (by omega), dif_pos ⟨h1, h2⟩]
  simp only [covLetters, List.mem_cons, List.not_mem_nil, or_false] at hx
  rcases hx with rfl | rfl | rfl | rfl <;> cases b <;> simp [maybeSwap, swapLetter, SpecMove]

theorem specPoly_map (σ : Equiv.Perm (Fin n)) (b : Bool) (e : Ast PAtom)
    (h : ∀ x i, e.Has (.var x i) → x ∈ covLetters ∧ 1 ≤ i ∧ i ≤ n) :
    SpecPoly n (e.map (covAtom σ (maybeSwap b))) = (SpecPoly n e).map (rename (SpecMove σ b)) := by
  unfold Ast.map
  induction e with
  | atom x => cases x with
    | num k => simp [Ast.bind, covAtom, SpecPoly]
    | var x i =>
      obtain ⟨hx, h1, h2⟩ := h x i .atom
      simp only [Ast.bind, covAtom, SpecPoly, specMove_var σ b hx h1 h2]
      cases SpecVarText n x i <;> simp
  | pos a ih => simp only [Ast.bind, SpecPoly]; exact ih fun x i h' => h x i (.pos h')
  | neg a ih =>
    simp only [Ast.bind, SpecPoly]; rw [ih fun x i h' => h x i (.neg h')]
    cases SpecPoly n a <;> simp
  | add a c ih₁ ih₂ =>
    simp only [Ast.bind, SpecPoly]
    rw [ih₁ fun x i h' => h x i (.add₁ h'), ih₂ fun x i h' => h x i (.add₂ h')]
    cases SpecPoly n a <;> cases SpecPoly n c <;> simp
  | sub a c ih₁ ih₂ =>
    simp only [Ast.bind, SpecPoly]
    rw [ih₁ fun x i h' => h x i (.sub₁ h'), ih₂ fun x i h' => h x i (.sub₂ h')]
    cases SpecPoly n a <;> cases SpecPoly n c <;> simp
  | mul a c ih₁ ih₂ =>
    simp only [Ast.bind, SpecPoly]
    rw [ih₁ fun x i h' => h x i (.mul₁ h'), ih₂ fun x i h' => h x i (.mul₂ h')]
    cases SpecPoly n a <;> cases SpecPoly n c <;> simp
  | div a c ih₁ ih₂ => rfl
  | pow a c ih₁ ih₂ =>
    have ih := ih₁ fun x i h' => h x i (.pow₁ h')
    rcases c with (k | ⟨x, i⟩) | _ | _ | _ | _ | _ | _ | _
    · have e0 : covAtom σ (maybeSwap b) (.num k) = .num k := rfl
      simp only [Ast.bind, e0, SpecPoly]; rw [ih]
      cases SpecPoly n a <;> simp
    all_goals rfl

theorem denotes_image (hn : n ≤ 9) (σ : Equiv.Perm (Fin n)) (b : Bool) {s : List Char} {P : MvPolynomial (Comp n) ℤ} (h : Denotes s P) :
    ∃ s', covariantPolyImage s (permString σ, b) = .ok s' ∧ Denotes s' (rename (SpecMove σ b) P) := by
  obtain ⟨pw, ts, e, hpw, rfl, hv, he, hP⟩ := h
  refine ⟨_, covariantPolyImage_text hn σ b hpw ts hv, pw, imageToks σ b ts, e.map (covAtom σ (maybeSwap b)), hpw, rfl, ?_, ?_, ?_⟩
  · intro x i k hm
    obtain ⟨⟨t, k'⟩, ht, hk⟩ := List.mem_map.mp hm
    rcases t with (j | ⟨x', i'⟩) | _ | _ | _ | _ | _ | _ | _ <;> simp [Tok.map, covAtom] at hk
    obtain ⟨⟨rfl, rfl⟩, rfl⟩ := hk
    obtain ⟨hl, h1, h2⟩ := hv _ _ _ ht
    obtain ⟨j, rfl⟩ : ∃ j : Fin n, (j : ℕ) + 1 = i' := ⟨⟨i' - 1, by omega⟩, by simp; omega⟩
    rw [permLabel_fin]
    refine ⟨?_, by omega, by have := (σ j).isLt; omega⟩
    simp only [covLetters, List.mem_cons, List.not_mem_nil, or_false] at hl
    rcases hl with rfl | rfl | rfl | rfl <;> cases b <;> decide
  · have := reads_map (covAtom σ (maybeSwap b)) he
    rw [imageToks]
    rw [List.map_map] at this ⊢
    exact this
  · rw [specPoly_map, hP]
    · rfl
    · intro x i hx
      obtain ⟨⟨t, k⟩, ht, hk⟩ := List.mem_map.mp (he.has hx)
      simp only at hk
      subst hk
      exact hv _ _ _ ht

theorem lipsImage_denotes (hn : n ≤ 9) (σ : Equiv.Perm (Fin n)) (b : Bool) {I : List (List Char)} {G : List (MvPolynomial (Comp n) ℤ)}
    (h : List.Forall₂ Denotes I G) :
    ∃ I', lipsImage I (permString σ, b) = .ok I' ∧ List.Forall₂ Denotes I' (G.map (rename (SpecMove σ b))) := by
  induction h with
  | nil => exact ⟨[], rfl, .nil⟩
  | cons h _ ih =>
    obtain ⟨s', e1, d1⟩ := denotes_image hn σ b h
    obtain ⟨I', e2, d2⟩ := ih
    refine ⟨s' :: I', ?_, .cons d1 d2⟩
    rw [lipsImage] at e2 ⊢
    rw [eachOf, e1, e2]; rfl

end texts

/-! ### Helper lemmas: polynomials -/

section polys
variable {n : ℕ}

theorem specMove_injective (σ : Equiv.Perm (Fin n)) (b : Bool) : Function.Injective (SpecMove σ b) := by
  rintro ⟨k, j⟩ ⟨k', j'⟩ h
  simp only [SpecMove, Prod.mk.injEq, EmbeddingLike.apply_eq_iff_eq] at h
  obtain ⟨rfl, h⟩ := h
  cases b
  · simpa using h
  · simpa using h

theorem specIdeal_rename {σ τ : Type*} (f : σ → τ) (G : List (MvPolynomial σ ℤ)) :
    SpecIdeal (G.map (rename f)) = (SpecIdeal G).map (rename f : MvPolynomial σ ℚ →ₐ[ℚ] MvPolynomial τ ℚ) := by
  rw [SpecIdeal, SpecIdeal, Ideal.map_span]
  congr 1
  ext Q
  simp only [Set.mem_ofPred_eq, Set.mem_image, List.mem_map]
  constructor
  · rintro ⟨_, ⟨P, hP, rfl⟩, rfl⟩
    exact ⟨_, ⟨P, hP, rfl⟩, (map_rename _ _ _).symm⟩
  · rintro ⟨_, ⟨P, hP, rfl⟩, rfl⟩
    exact ⟨_, ⟨P, hP, rfl⟩, (map_rename _ _ _).symm⟩

section ring
variable {R : Type*} [CommRing R] (r l : Fin n → V2 R) (σ : Equiv.Perm (Fin n))

theorem rSlot_relabel (b : Bool) (s : Slot n) : rSlot r l b (mapSlot σ s) = rSlot (r ∘ σ) (l ∘ σ) b s := by
  simp only [rSlot, mapSlot, List.map_map]
  rfl

theorem rChain_relabel (b : Bool) (ss : List (Slot n)) : rChain r l b (ss.map (mapSlot σ)) = rChain (r ∘ σ) (l ∘ σ) b ss := by
  induction ss generalizing b with
  | nil => rfl
  | cons s ss ih => rw [List.map_cons, rChain, rChain, ih, rSlot_relabel]

theorem rSum_relabel (b : Bool) (ls : List (Fin n)) : rSum r l b (ls.map σ) = rSum (r ∘ σ) (l ∘ σ) b ls := by
  simp only [rSum, List.map_map]
  rfl

theorem rS_relabel (ls : List (Fin n)) : rS r l (ls.map σ) = rS (r ∘ σ) (l ∘ σ) ls := by
  rw [rS, rS, rSum_relabel]

theorem rNB_relabel (first : Char) (a : Fin n) (mid : List (Slot n)) (d : Fin n) (last : Char) :
    rNB r l first (σ a) (mid.map (mapSlot σ)) (σ d) last = rNB (r ∘ σ) (l ∘ σ) first a mid d last := by
  simp only [rNB, rChain_relabel, List.length_map]
  rfl

theorem rTr5_relabel (hn : n ≤ 9) (a b c d : Slot n) :
    rTr5 r l (mapSlot σ a) (mapSlot σ b) (mapSlot σ c) (mapSlot σ d) = rTr5 (r ∘ σ) (l ∘ σ) a b c d := by
  unfold rTr5
  rw [tr5Rotate_mapSlot hn]
  rcases tr5Rotate 4 (a, b, c, d) with _ | ⟨_ | ⟨⟨_ | _, k⟩, s⟩, b', c', d'⟩
  · rfl
  · rfl
  · rfl
  · have e1 := rNB_relabel r l σ '[' k [b', c', d'] k '⟩'
    have e2 := rNB_relabel r l σ '⟨' k [b', c', d'] k ']'
    simp only [List.map_cons, List.map_nil] at e1 e2
    simp only [Option.map_some, mapSlot, List.map_cons] at e1 e2 ⊢
    rw [e1, e2]

theorem Scal.over_relabel (hn : n ≤ 9) (s : Scal n) : (s.relabel σ).over r l = s.over (r ∘ σ) (l ∘ σ) := by
  induction s with
  | int z => rfl
  | two ang a b => rfl
  | string first a mid d last => exact rNB_relabel r l σ ..
  | tr mid => simp only [Scal.relabel, Scal.over, rChain_relabel]
  | tr5 a b c d => exact rTr5_relabel r l σ hn ..
  | mandel ls => simp only [Scal.relabel, Scal.over, rS_relabel]
  | omega A B C =>
    rcases A with _ | ⟨a, A⟩
    · rfl
    · have e := rS_relabel r l σ (C ++ [a])
      have e' := rS_relabel r l σ (a :: A)
      simp only [List.map_append, List.map_cons, List.map_nil] at e e'
      simp only [Scal.relabel, Scal.over, List.map_cons, rOmega, e, e', rS_relabel]
  | pi A C =>
    rcases A with _ | ⟨a, _ | ⟨a', A⟩⟩
    · rfl
    · rfl
    · have e := rS_relabel r l σ (C ++ [a])
      have e' := rS_relabel r l σ (C ++ [a'])
      simp only [List.map_append, List.map_cons, List.map_nil] at e e'
      simp only [Scal.relabel, Scal.over, List.map_cons, rPi, e, e']
  | d5 l1 l2 l3 l4 l5 =>
    have e : ∀ i j, rS r l [σ i, σ j] = rS (r ∘ σ) (l ∘ σ) [i, j] := fun i j => rS_relabel r l σ [i, j]
    simp only [Scal.relabel, Scal.over, e]
  | add s t hs ht => simp only [Scal.relabel, Scal.over, hs, ht]
  | mul s t hs ht => simp only [Scal.relabel, Scal.over, hs, ht]
  | neg s hs => simp only [Scal.relabel, Scal.over, hs]

theorem Cov.over4_relabel (hn : n ≤ 9) (s : Cov n) : (s.relabel σ).over4 r l = s.over4 (r ∘ σ) (l ∘ σ) := by
  cases s with
  | scal s => simp only [Cov.relabel, Cov.over4, Scal.over_relabel r l σ hn]
  | openBegin mid d last => simp only [Cov.relabel, Cov.over4, rChain_relabel, List.length_map]; rfl
  | openEnd first a mid => simp only [Cov.relabel, Cov.over4, rChain_relabel]; rfl
  | doubleOpen mid => simp only [Cov.relabel, Cov.over4, rChain_relabel]
  | delta A B C => simp only [Cov.relabel, Cov.over4, rSum_relabel]

theorem rMom_relabel : rMom (r ∘ σ) (l ∘ σ) = rMom r l := by
  have e : ∑ k, rMat (r ∘ σ) (l ∘ σ) false k = ∑ k, rMat r l false k := Equiv.sum_comp σ (rMat r l false)
  simp only [rMom, e]

end ring

theorem gen_rename (σ : Equiv.Perm (Fin n)) :
    mapV (rename (R := ℤ) (SpecMove σ false)).toRingHom genR = genR ∘ σ ∧ mapV (rename (R := ℤ) (SpecMove σ false)).toRingHom genL = genL ∘ σ := by
  constructor <;> (funext k j; fin_cases j <;> simp [mapV, genR, genL, SpecMove])

/-- The polynomials of a relabelled covariant. -/
theorem over4_rename (hn : n ≤ 9) (σ : Equiv.Perm (Fin n)) (s : Cov n) :
    (s.relabel σ).over4 genR genL = (s.over4 genR genL).map (List.map (rename (SpecMove σ false))) := by
  have e := Cov.over4_map (rename (R := ℤ) (SpecMove σ false)).toRingHom genR genL s
  rw [(gen_rename σ).1, (gen_rename σ).2] at e
  rw [Cov.over4_relabel genR genL σ hn, e]
  rfl

theorem rMom_rename (σ : Equiv.Perm (Fin n)) :
    (rMom genR genL).map (rename (SpecMove σ false)) = (rMom genR genL : List (MvPolynomial (Comp n) ℤ)) := by
  have e := rMom_map (rename (R := ℤ) (SpecMove σ false)).toRingHom genR genL
  rw [(gen_rename σ).1, (gen_rename σ).2, rMom_relabel] at e
  exact e.symm

end polys

section gens
variable {F : Type*} [Field F] [NeZero (2 : F)] {n : ℕ}

theorem covGens_iff {cF : Ctx F} {x : Comp n → F} (hx : AlgebraicIndependent ℤ x) {qs : Point F n}
    (hq : Spin cF qs (fun k => ![x (k, 0), x (k, 1)]) (fun k => ![x (k, 2), x (k, 3)])) (s : Cov n) (Ps : List (MvPolynomial (Comp n) ℤ)) :
    covGens x qs s = .ok Ps ↔ s.over4 genR genL = .ok Ps ∧ ∀ P ∈ Ps, ∀ z : ℤ, P ≠ C z := by
  rw [covGens_ok hx hq]
  refine and_congr_right fun ho => ?_
  have e := over4_sym hq s
  rw [ho] at e
  obtain ⟨vs, hv, e2⟩ := map_ok.mp e
  have key : ∀ (P : MvPolynomial (Comp n) ℤ) (z : ℤ), aeval x P = z ↔ P = C z := fun P z => by
    constructor
    · intro h; exact hx (h.trans (by simp))
    · rintro rfl; simp
  constructor
  · rintro ⟨vs', hv', h⟩ P hP z hz
    obtain rfl : vs = vs' := Except.ok.inj (hv.symm.trans hv')
    have : aeval x P ∈ List.map (4 * ·) vs := by rw [← e2]; exact List.mem_map_of_mem hP
    obtain ⟨v, hv1, hv2⟩ := List.mem_map.mp this
    exact h v hv1 z (hv2.trans ((key P z).mpr hz))
  · intro h
    refine ⟨vs, hv, fun v hv1 z hz => ?_⟩
    have : 4 * v ∈ List.map (aeval x) Ps := by rw [e2]; exact List.mem_map_of_mem hv1
    obtain ⟨P, hP, hv2⟩ := List.mem_map.mp this
    exact h P hP z ((key P z).mp (hv2.trans hz))

theorem lipsGens_relabel (hn : n ≤ 9) {cF : Ctx F} {x : Comp n → F} (hx : AlgebraicIndependent ℤ x) {ps₀ : Point F n}
    (h0 : ∃ r l, Spin cF ps₀ r l) {covs : List (Cov n)} {mc : Bool} {G : List (MvPolynomial (Comp n) ℤ)}
    (h : lipsGens cF x ps₀ covs mc = .ok G) (σ : Equiv.Perm (Fin n)) :
    lipsGens cF x ps₀ (covs.map (Cov.relabel σ)) mc = .ok (G.map (rename (SpecMove σ false))) := by
  obtain ⟨r₀, l₀, hs⟩ := h0
  obtain ⟨qs, e, hq⟩ := C84_default cF ps₀ r₀ l₀ hs fun k j => x (k, j)
  rw [lipsGens, e] at h ⊢
  obtain ⟨Gs, M, h1, h2, rfl⟩ := both_ok.mp h
  refine both_ok.mpr ⟨Gs.map (List.map (rename (SpecMove σ false))), M, ?_, h2, ?_⟩
  · rw [eachOf_ok] at h1 ⊢
    rw [List.forall₂_map_left_iff, List.forall₂_map_right_iff]
    refine h1.imp fun s Ps hp => ?_
    rw [covGens_iff hx hq] at hp ⊢
    refine ⟨by rw [over4_rename hn, hp.1]; rfl, fun P' hP' z hz => ?_⟩
    obtain ⟨P, hP, rfl⟩ := List.mem_map.mp hP'
    refine hp.2 P hP z (rename_injective _ (specMove_injective σ false) (hz.trans ?_))
    rw [rename_C]
  · rw [List.map_append, List.map_flatten]
    congr 1
    cases mc
    · simp only [Bool.false_eq_true, if_false, Except.ok.injEq] at h2
      rw [← h2]; rfl
    · simp only [if_true] at h2
      rw [((momGens_ok hx hq M).mp h2).1, rMom_rename]

end gens

/-! ### Helper lemmas: dictionaries -/

section dict
variable {κ γ : Type*} [DecidableEq κ]

theorem orderedSet_new (k : κ) (v : γ) (d : List (κ × γ)) (h : k ∉ d.map Prod.fst) : orderedSet k v d = d ++ [(k, v)] := by
  induction d with
  | nil => rfl
  | cons p d ih =>
    rw [List.map_cons, List.mem_cons, not_or] at h
    rw [orderedSet, if_neg h.1, ih h.2]; rfl

theorem orderedDict_nodup (l : List (κ × γ)) (h : (l.map Prod.fst).Nodup) : orderedDict l = l := by
  induction l using List.reverseRecOn with
  | nil => rfl
  | append_singleton l p ih =>
    rw [List.map_append, List.nodup_append] at h
    have h2 := ih h.1
    rw [orderedDict] at h2 ⊢
    rw [List.foldl_append, h2]
    exact orderedSet_new _ _ _ fun hp => h.2.2 _ hp _ (by simp) rfl

/-- The pairs whose values have not been met before. -/
def firsts (same : γ → γ → Bool) (l : List (κ × γ)) : List (κ × γ) :=
  l.foldl (fun d p => if d.any fun q => same q.2 p.2 then d else d ++ [p]) []

omit [DecidableEq κ] in
theorem addKey_map (same : γ → γ → Bool) (k : κ) (v : γ) (d : List (γ × κ × List κ)) :
    (addKey same k v d).map (fun g => (g.2.1, g.1)) =
      if (d.map fun g => (g.2.1, g.1)).any fun q => same q.2 v then d.map fun g => (g.2.1, g.1) else (d.map fun g => (g.2.1, g.1)) ++ [(k, v)] := by
  induction d with
  | nil => rfl
  | cons g d ih =>
    obtain ⟨v', k', ks⟩ := g
    rw [addKey]
    by_cases h : same v' v = true
    · simp [h]
    · rw [if_neg h, List.map_cons, ih]
      simp only [List.map_cons, List.any_cons, h, Bool.false_or]
      split <;> rfl

omit [DecidableEq κ] in
theorem addKeys_map (same : γ → γ → Bool) (l : List (κ × γ)) :
    (l.foldl (fun d p => addKey same p.1 p.2 d) []).map (fun g => (g.2.1, g.1)) = firsts same l := by
  induction l using List.reverseRecOn with
  | nil => rfl
  | append_singleton l p ih =>
    rw [firsts] at ih ⊢
    rw [List.foldl_append, List.foldl_append]
    simp only [List.foldl_cons, List.foldl_nil]
    rw [addKey_map, ih]

omit [DecidableEq κ] in
theorem firsts_append (same : γ → γ → Bool) (l : List (κ × γ)) (p : κ × γ) :
    firsts same (l ++ [p]) = if (firsts same l).any fun q => same q.2 p.2 then firsts same l else firsts same l ++ [p] := by
  rw [firsts, List.foldl_append]; rfl

omit [DecidableEq κ] in
theorem firsts_sublist (same : γ → γ → Bool) (l : List (κ × γ)) : (firsts same l).Sublist l := by
  induction l using List.reverseRecOn with
  | nil => exact List.Sublist.slnil
  | append_singleton l p ih =>
    rw [firsts_append]
    split
    · exact ih.trans (List.sublist_append_left _ _)
    · exact List.Sublist.append ih (List.Sublist.refl _)

omit [DecidableEq κ] in
theorem firsts_head (same : γ → γ → Bool) (p : κ × γ) (l : List (κ × γ)) : (firsts same (p :: l)).head? = some p := by
  induction l using List.reverseRecOn with
  | nil => rfl
  | append_singleton l q ih =>
    rw [← List.cons_append, firsts_append]
    split
    · exact ih
    · rw [List.head?_append, ih]; rfl

theorem distinctValues_eq (same : γ → γ → Bool) (l : List (κ × γ)) (h : (l.map Prod.fst).Nodup) :
    distinctValues same (orderedDict l) = firsts same l := by
  rw [orderedDict_nodup l h, distinctValues, addKeys_map, orderedDict_nodup]
  exact h.sublist ((firsts_sublist same l).map _)

omit [DecidableEq κ] in
theorem firsts_covers (same : γ → γ → Bool) (hs : Equivalence fun u v => same u v = true) (l : List (κ × γ)) :
    ∀ p ∈ l, ∃ q ∈ firsts same l, same q.2 p.2 = true := by
  induction l using List.reverseRecOn with
  | nil => intro p hp; cases hp
  | append_singleton l p ih =>
    intro p' hp'
    rw [firsts_append]
    by_cases h : ((firsts same l).any fun q => same q.2 p.2) = true
    · rw [if_pos h]
      rcases List.mem_append.mp hp' with h1 | h1
      · exact ih p' h1
      · rw [List.mem_singleton] at h1
        subst h1
        rw [List.any_eq_true] at h
        exact h
    · rw [if_neg h]
      rcases List.mem_append.mp hp' with h1 | h1
      · obtain ⟨q, hq, e⟩ := ih p' h1
        exact ⟨q, List.mem_append_left _ hq, e⟩
      · rw [List.mem_singleton] at h1
        subst h1
        exact ⟨p', by simp, hs.refl _⟩

omit [DecidableEq κ] in
/-- Every pair that is kept is the first one of `l` with its value. -/
theorem firsts_first (same : γ → γ → Bool) (hs : Equivalence fun u v => same u v = true) (l : List (κ × γ)) :
    (firsts same l).Pairwise (fun p q => same p.2 q.2 = false) ∧
      ∀ q ∈ firsts same l, ∃ L R, l = L ++ q :: R ∧ ∀ p ∈ L, same p.2 q.2 = false := by
  induction l using List.reverseRecOn with
  | nil => exact ⟨.nil, fun q hq => by cases hq⟩
  | append_singleton l p ih =>
    obtain ⟨i1, i2⟩ := ih
    have old : ∀ q ∈ firsts same l, ∃ L R, l ++ [p] = L ++ q :: R ∧ ∀ p ∈ L, same p.2 q.2 = false := fun q hq => by
      obtain ⟨L, R, e, h⟩ := i2 q hq
      exact ⟨L, R ++ [p], by rw [e]; simp, h⟩
    rw [firsts_append]
    by_cases h : ((firsts same l).any fun q => same q.2 p.2) = true
    · rw [if_pos h]; exact ⟨i1, old⟩
    · rw [if_neg h]
      have h' : ∀ q ∈ firsts same l, same q.2 p.2 = false := by simpa using h
      refine ⟨List.pairwise_append.mpr ⟨i1, List.pairwise_singleton _ _, fun q hq q' hq' => ?_⟩, fun q hq => ?_⟩
      · rw [List.mem_singleton] at hq'; subst hq'; exact h' q hq
      · rcases List.mem_append.mp hq with h1 | h1
        · exact old q h1
        · rw [List.mem_singleton] at h1
          subst h1
          refine ⟨l, [], rfl, fun p hp => ?_⟩
          obtain ⟨q', hq', e⟩ := firsts_covers same hs l p hp
          by_contra hc
          have := hs.trans e (by simpa using hc : same p.2 q.2 = true)
          rw [h' q' hq'] at this
          cases this

end dict

/-! ### Helper lemmas: images compose -/

section compose
variable {n : ℕ}

theorem imageToks_one {ts : List (Tok PAtom × ℕ)} (hv : CovVars n ts) : imageToks (1 : Equiv.Perm (Fin n)) false ts = ts := by
  rw [imageToks]
  conv_rhs => rw [← List.map_id ts]
  refine List.map_congr_left fun t ht => ?_
  obtain ⟨t, k⟩ := t
  rcases t with (j | ⟨x, i⟩) | _ | _ | _ | _ | _ | _ | _
  on_goal 2 =>
    obtain ⟨-, h1, h2⟩ := hv _ _ _ ht
    obtain ⟨j, rfl⟩ : ∃ j : Fin n, (j : ℕ) + 1 = i := ⟨⟨i - 1, by omega⟩, by simp; omega⟩
    simp [Tok.map, covAtom, permLabel_fin, maybeSwap]
  all_goals rfl

theorem lipsImage_one (hn : n ≤ 9) {I : List (List Char)} {G : List (MvPolynomial (Comp n) ℤ)} (h : List.Forall₂ Denotes I G) :
    lipsImage I (permString (1 : Equiv.Perm (Fin n)), false) = .ok I := by
  induction h with
  | nil => rfl
  | cons h _ ih =>
    obtain ⟨pw, ts, e, hpw, rfl, hv, -⟩ := h
    rw [lipsImage] at ih ⊢
    rw [eachOf, ih, covariantPolyImage_text hn 1 false hpw ts hv, imageToks_one hv]
    rfl

theorem lipsImage_mul (hn : n ≤ 9) (σ τ : Equiv.Perm (Fin n)) (b b' : Bool) {I : List (List Char)}
    {G : List (MvPolynomial (Comp n) ℤ)} (h : List.Forall₂ Denotes I G) {I' : List (List Char)} (h' : lipsImage I (permString σ, b) = .ok I') :
    lipsImage I' (permString τ, b') = lipsImage I (permString (τ * σ), b ^^ b') := by
  induction h generalizing I' with
  | nil => rw [lipsImage, eachOf] at h'; cases h'; rfl
  | cons h _ ih =>
    obtain ⟨pw, ts, e, hpw, rfl, hv, -⟩ := h
    rw [lipsImage, eachOf, both_ok] at h'
    obtain ⟨s', J, h1, h2, rfl⟩ := h'
    obtain ⟨s'', e1, e2⟩ := C73_covariant_compose hn σ τ b b' hpw ts hv
    rw [e1] at h1
    cases h1
    have := ih h2
    rw [lipsImage, lipsImage] at this ⊢
    rw [eachOf, eachOf, this, e2]

end compose

/-! ### C104 -/

section main
variable {n : ℕ}

/-- C104: a text stands for one polynomial at most. -/
theorem C104_one_polynomial (s : List Char) (P Q : MvPolynomial (Comp n) ℤ) (h : Denotes s P) (h' : Denotes s Q) : P = Q := by
  have plain : ∀ {ts : List (Tok PAtom × ℕ)}, CovVars n ts → PlainVars ts := fun hv l i k hm => by
    have hl := (hv l i k hm).1
    simp only [covLetters, List.mem_cons, List.not_mem_nil, or_false] at hl
    rcases hl with rfl | rfl | rfl | rfl <;> exact ⟨by decide, by decide, by decide⟩
  obtain ⟨pw, ts, e, hpw, rfl, hv, he, hP⟩ := h
  obtain ⟨pw', ts', e', hpw', ht, hv', he', hQ⟩ := h'
  have := renderText_unique hpw hpw' (plain hv) (plain hv') he he' ht
  rw [this, hQ] at hP
  exact (Option.some.inj hP).symm

/-- C104: calling an ideal with a rule gives generators that are the polynomials with their variables moved; the ideal is moved as
a whole. -/
theorem C104_image (hn : n ≤ 9) (σ : Equiv.Perm (Fin n)) (b : Bool) (I : List (List Char)) (G : List (MvPolynomial (Comp n) ℤ))
    (h : List.Forall₂ Denotes I G) :
    ∃ I' G', lipsCall I [.str (permString σ), .bool b] = .ok I' ∧ List.Forall₂ Denotes I' G' ∧ G' = G.map (rename (SpecMove σ b)) ∧
      ∀ Q, rename (SpecMove σ b) Q ∈ SpecIdeal G' ↔ Q ∈ SpecIdeal G := by
  obtain ⟨I', e, d⟩ := lipsImage_denotes hn σ b h
  refine ⟨I', _, e, d, rfl, fun Q => ?_⟩
  rw [specIdeal_rename]
  constructor
  · intro hQ
    have key : ((SpecIdeal G).map (rename (SpecMove σ b) : MvPolynomial (Comp n) ℚ →ₐ[ℚ] _)).comap
        (rename (SpecMove σ b) : MvPolynomial (Comp n) ℚ →ₐ[ℚ] _) = SpecIdeal G := by
      have hb : Function.Bijective (SpecMove σ b) := (Finite.injective_iff_bijective).mp (specMove_injective σ b)
      have e : ∀ P, rename (SpecMove σ b) P = renameEquiv ℚ (Equiv.ofBijective _ hb) P := fun P => rfl
      exact Ideal.comap_map_of_bijective _ (renameEquiv ℚ (Equiv.ofBijective _ hb)).bijective
    rw [← key]
    exact hQ
  · intro hQ
    exact Ideal.mem_map_of_mem _ hQ

/-- C104: the image of a common zero of the ideal is a common zero of the image of the ideal, and the other way round. -/
theorem C104_zeros {K : Type*} [Field K] [NeZero (2 : K)] (hn : n ≤ 9) (h0 : 0 < n) (c : Ctx K) (ps : Fin n → Particle K)
    (r l : Fin n → V2 K) (hs : ∀ k, HasSpinors c (ps k) (r k) (l k)) (hd : ∀ i j, i ≠ j → (ps i).r2 ≠ (ps j).r2)
    (σ : Equiv.Perm (Fin n)) (b : Bool) (I : List (List Char)) (G : List (MvPolynomial (Comp n) ℤ)) (h : List.Forall₂ Denotes I G) :
    ∃ I' G' qs r' l', lipsCall I [.str (permString σ), .bool b] = .ok I' ∧ List.Forall₂ Denotes I' G' ∧
      imageRule particleEq (anglesForSquares c) (List.ofFn ps) (permString σ, b) = .ok (List.ofFn qs) ∧
      (∀ k : Fin n, HasSpinors c (qs k) (r' k) (l' k)) ∧ (ZeroOf G' (SpecComps r' l') ↔ ZeroOf G (SpecComps r l)) := by
  obtain ⟨I', e, d⟩ := lipsImage_denotes hn σ b h
  refine ⟨I', _, _, fun k => if b then l (σ.symm k) else r (σ.symm k), fun k => if b then r (σ.symm k) else l (σ.symm k), e, d,
    image_point hn h0 c ps hd σ b, ?_, ?_⟩
  · intro k
    cases b
    · exact hs _
    · exact (hs _).swap
  · have key : SpecComps (fun k => if b then l (σ.symm k) else r (σ.symm k)) (fun k => if b then r (σ.symm k) else l (σ.symm k)) ∘
        SpecMove σ b = SpecComps r l := by
      funext ⟨k, j⟩
      fin_cases j <;> cases b <;> simp [SpecComps, SpecMove, Function.comp]
    simp only [ZeroOf, List.forall_mem_map, aeval_rename, key]

/-- C104: images compose, and the inverse rule leads back, to the very texts. -/
theorem C104_group (hn : n ≤ 9) (σ τ : Equiv.Perm (Fin n)) (b b' : Bool) (I : List (List Char)) (G : List (MvPolynomial (Comp n) ℤ))
    (h : List.Forall₂ Denotes I G) :
    ∃ I' p, lipsCall I [.str (permString σ), .bool b] = .ok I' ∧
      lipsCall I' [.str (permString τ), .bool b'] = lipsCall I [.str (permString (τ * σ)), .bool (b ^^ b')] ∧
      inverseRule (permString σ, b) = .ok (p, b) ∧ lipsCall I' [.str p, .bool b] = .ok I := by
  obtain ⟨I', e, -⟩ := lipsImage_denotes hn σ b h
  refine ⟨I', permString σ.symm, e, lipsImage_mul hn σ τ b b' h e, by simp [inverseRule, C36_inverse hn], ?_⟩
  show lipsImage I' _ = _
  rw [lipsImage_mul hn σ σ.symm b b h e, Bool.xor_self, ← lipsImage_one hn h]
  congr 3
  exact Equiv.self_trans_symm σ

/-- C104: the image of the ideal of some covariants under a permutation is the ideal of the covariants with their labels permuted. -/
theorem C104_covariants {F : Type*} [Field F] [NeZero (2 : F)] (hn : n ≤ 9) (cF : Ctx F) (x : Comp n → F)
    (hx : AlgebraicIndependent ℤ x) (ps₀ : Point F n) (h0 : ∃ r l, Spin cF ps₀ r l) (covs : List (Cov n)) (mc : Bool)
    (G : List (MvPolynomial (Comp n) ℤ)) (h : lipsGens cF x ps₀ covs mc = .ok G) (I : List (List Char)) (hI : List.Forall₂ Denotes I G)
    (σ : Equiv.Perm (Fin n)) :
    ∃ I' G', lipsCall I [.str (permString σ), .bool false] = .ok I' ∧
      lipsGens cF x ps₀ (covs.map (Cov.relabel σ)) mc = .ok G' ∧ List.Forall₂ Denotes I' G' := by
  obtain ⟨I', e, d⟩ := lipsImage_denotes hn σ false hI
  exact ⟨I', _, e, lipsGens_relabel hn hx h0 h σ, d⟩

/-- C104: a call that is not a text and a truth value raises. -/
theorem C104_call (I : List (List Char)) (args : List PyArg) (I' : List (List Char)) (h : lipsCall I args = .ok I') :
    ∃ p b more, args = .str p :: .bool b :: more ∧ List.Forall₂ (fun s s' => covariantPolyImage s (p, b) = .ok s') I I' := by
  rcases args with _ | ⟨_ | _ | _, _ | ⟨_ | _ | _, more⟩⟩
  case cons.str.cons.bool p b => exact ⟨p, b, more, rfl, eachOf_ok.mp h⟩
  all_goals cases h

section cls
variable {same : List (List Char) → List (List Char) → Bool} {I : List (List Char)} {G : List (MvPolynomial (Comp n) ℤ)}

theorem pyPerms_head {β : Type*} (l : List β) : ∃ R, pyPerms l.length l = l :: R := by
  induction l with
  | nil => exact ⟨[], rfl⟩
  | cons y l ih =>
    obtain ⟨R, e⟩ := ih
    rw [List.length_cons, pyPerms, List.length_cons, List.range_succ_eq_map, List.flatMap_cons]
    simp [e]

theorem allSymmetries_head (hn : n ≤ 9) : ∃ R, allSymmetries n = (permString (1 : Equiv.Perm (Fin n)), false) :: R := by
  obtain ⟨R, e⟩ := pyPerms_head (List.range' 1 n)
  rw [List.length_range'] at e
  have hw : permWeights (List.replicate n 0) (List.range' 1 n) = List.replicate n 0 := by
    rw [permWeights, List.eq_replicate_iff]
    refine ⟨by simp, fun b hb => ?_⟩
    obtain ⟨i, -, rfl⟩ := List.mem_map.mp hb
    simp only [List.getD, List.getElem?_replicate]
    split <;> rfl
  have hi := congrArg Prod.fst (identity_string (n := n) hn)
  simp only [identityRule] at hi
  rw [allSymmetries, phaseSymmetries, symPairs, List.length_replicate, e, List.filterMap_cons, if_pos hw]
  simp only [List.map_cons, hi]
  exact ⟨_, rfl⟩

/-- The list of line 85. -/
theorem images_list (hn : n ≤ 9) (h : List.Forall₂ Denotes I G) :
    ∃ l : List ((List Char × Bool) × List (List Char)),
      eachOf (fun s => (lipsCall I [.str s.1, .bool s.2]).map fun J => (s, J)) (allSymmetries n) = .ok l ∧
      l.map Prod.fst = allSymmetries n ∧ (l.map Prod.fst).Nodup ∧ ∀ p ∈ l, lipsCall I [.str p.1.1, .bool p.1.2] = .ok p.2 := by
  have hr : List.replicate n (0 : ℤ) = List.ofFn (fun _ : Fin n => (0 : ℤ)) := by simp
  obtain ⟨hd, -, hs⟩ := C37_no_repetition hn (fun _ : Fin n => (0 : ℤ))
  rw [← hr] at hd hs
  obtain ⟨l, hl⟩ := eachOf_exists (f := fun s : List Char × Bool => (lipsCall I [.str s.1, .bool s.2]).map fun J => (s, J)) (xs := allSymmetries n)
    (fun s hs' => by
      obtain ⟨σ, hσ⟩ := hs s hs'
      obtain ⟨J, e, -⟩ := lipsImage_denotes hn σ s.2 h
      exact ⟨(s, J), by rw [hσ]; show Except.map _ (lipsImage I _) = _; rw [e]; rfl⟩)
  have hf := eachOf_ok.mp hl
  have key : l.map Prod.fst = allSymmetries n ∧ ∀ p ∈ l, lipsCall I [.str p.1.1, .bool p.1.2] = .ok p.2 := by
    clear hl hd hs hr
    generalize allSymmetries n = S at hf
    induction hf with
    | nil => exact ⟨rfl, fun p hp => by cases hp⟩
    | cons hp _ ih =>
      obtain ⟨J, e, rfl⟩ := map_ok.mp hp
      refine ⟨by rw [List.map_cons, ih.1], fun p hp => ?_⟩
      rcases List.mem_cons.mp hp with rfl | hp
      · exact e
      · exact ih.2 p hp
  exact ⟨l, hl, key.1, by rw [key.1]; exact hd, key.2⟩

/-- C104: the equivalence class has one entry for every ideal that is an image under a permutation, under the first permutation that
gives it. The ideal itself comes first. -/
theorem C104_class (hn : n ≤ 9) (hs : Equivalence fun u v => same u v = true) (h : List.Forall₂ Denotes I G) :
    ∃ cls, equivalenceClass same n I = .ok cls ∧ cls.head? = some (identityRule n, I) ∧
      cls.Pairwise (fun p q => same p.2 q.2 = false) ∧
      (∀ q ∈ cls, lipsCall I [.str q.1.1, .bool q.1.2] = .ok q.2 ∧ ∃ L R, allSymmetries n = L ++ q.1 :: R ∧
        ∀ s ∈ L, ∀ J, lipsCall I [.str s.1, .bool s.2] = .ok J → same J q.2 = false) ∧
      ∀ (σ : Equiv.Perm (Fin n)) J, lipsCall I [.str (permString σ), .bool false] = .ok J → ∃ q ∈ cls, same q.2 J = true := by
  obtain ⟨l, hl, hk, hd, hv⟩ := images_list (I := I) hn h
  obtain ⟨f1, f2⟩ := firsts_first same hs l
  have hsub := firsts_sublist same l
  refine ⟨firsts same l, ?_, ?_, f1, fun q hq => ⟨hv q (hsub.subset hq), ?_⟩, fun σ J hJ => ?_⟩
  · rw [equivalenceClass, hl]
    exact congrArg Except.ok (distinctValues_eq same l hd)
  · obtain ⟨R, e⟩ := allSymmetries_head hn
    rw [e] at hk
    rcases l with _ | ⟨⟨s, J⟩, l⟩
    · cases hk
    · simp only [List.map_cons, List.cons.injEq] at hk
      obtain ⟨rfl, -⟩ := hk
      have hJ := hv _ List.mem_cons_self
      obtain rfl : I = J := Except.ok.inj ((lipsImage_one hn h).symm.trans hJ)
      rw [firsts_head, identity_string hn]
      rfl
  · obtain ⟨L, R, e, hL⟩ := f2 q hq
    refine ⟨L.map Prod.fst, R.map Prod.fst, by rw [← hk, e]; simp, fun s hs' J hJ => ?_⟩
    obtain ⟨p, hp, rfl⟩ := List.mem_map.mp hs'
    have hm := hv p (by rw [e]; exact List.mem_append_left _ hp)
    rw [hm] at hJ
    cases hJ
    exact hL p hp
  · have hm : (permString σ, false) ∈ l.map Prod.fst := by rw [hk]; exact ((C37_all_symmetries hn).1 σ false).mpr rfl
    obtain ⟨p, hp, e⟩ := List.mem_map.mp hm
    have := hv p hp
    rw [e, hJ] at this
    cases this
    exact firsts_covers same hs l p hp

/-- C104: the number of entries of the class times the number of permutations that leave the ideal as it is, is `n!`. Equality of
ideals has to be respected by images. -/
theorem C104_class_size (hn : n ≤ 9) (hs : Equivalence fun u v => same u v = true)
    (hinv : ∀ (A B : List (List Char)) (GA GB : List (MvPolynomial (Comp n) ℤ)) (σ : Equiv.Perm (Fin n)) (A' B' : List (List Char)),
      List.Forall₂ Denotes A GA → List.Forall₂ Denotes B GB → same A B = true →
      lipsCall A [.str (permString σ), .bool false] = .ok A' → lipsCall B [.str (permString σ), .bool false] = .ok B' → same A' B' = true)
    (h : List.Forall₂ Denotes I G) :
    ∃ cls, equivalenceClass same n I = .ok cls ∧
      cls.length * Nat.card {σ : Equiv.Perm (Fin n) // ∃ J, lipsCall I [.str (permString σ), .bool false] = .ok J ∧ same I J = true} =
        n.factorial := by
  classical
  obtain ⟨cls, hc, -, hp, hk, hcov⟩ := C104_class (same := same) hn hs h
  refine ⟨cls, hc, ?_⟩
  choose J hJ hD using fun σ : Equiv.Perm (Fin n) => lipsImage_denotes hn σ false h
  have hcall : ∀ σ, lipsCall I [.str (permString σ), .bool false] = .ok (J σ) := hJ
  have hmul : ∀ σ τ : Equiv.Perm (Fin n), lipsCall (J σ) [.str (permString τ), .bool false] = .ok (J (τ * σ)) := fun σ τ => by
    show lipsImage (J σ) (permString τ, false) = _
    rw [lipsImage_mul hn σ τ false false h (hJ σ)]
    exact hJ (τ * σ)
  have hone : J 1 = I := Except.ok.inj ((hJ 1).symm.trans (lipsImage_one hn h))
  -- keys of entries are permutations
  have hkey : ∀ i : Fin cls.length, ∃ τ : Equiv.Perm (Fin n), same (cls[i]).2 (J τ) = true ∧ (cls[i]).2 = J τ := by
    intro i
    obtain ⟨e, L, R, hLR, -⟩ := hk cls[i] (List.getElem_mem i.isLt)
    have hmem : (cls[i]).1 ∈ allSymmetries n := by rw [hLR]; simp
    have hr : List.replicate n (0 : ℤ) = List.ofFn (fun _ : Fin n => (0 : ℤ)) := by simp
    have hperm := (C37_no_repetition hn (fun _ : Fin n => (0 : ℤ))).2.2
    rw [← hr] at hperm
    obtain ⟨τ, hτ⟩ := hperm _ hmem
    have hb : (cls[i]).1.2 = false := by
      refine ((C37_all_symmetries hn).1 τ _).mp ?_
      rw [← hτ]; exact hmem
    rw [hτ, hb, hcall] at e
    exact ⟨τ, by rw [← Except.ok.inj e]; exact hs.refl _, (Except.ok.inj e).symm⟩
  have hidx : ∀ σ, ∃ i : Fin cls.length, same (cls[i]).2 (J σ) = true := fun σ => by
    obtain ⟨q, hq, e⟩ := hcov σ _ (hcall σ)
    obtain ⟨i, hi, rfl⟩ := List.mem_iff_getElem.mp hq
    exact ⟨⟨i, hi⟩, e⟩
  choose φ hφ using hidx
  have huniq : ∀ i j : Fin cls.length, same (cls[i]).2 (cls[j]).2 = true → i = j := by
    intro i j hij
    rw [List.pairwise_iff_getElem] at hp
    rcases lt_trichotomy (i : ℕ) j with hlt | heq | hgt
    · have h1 := hp i j i.isLt j.isLt hlt
      have h2 : same (cls[(i : ℕ)]).2 (cls[(j : ℕ)]).2 = true := hij
      rw [h1] at h2; cases h2
    · exact Fin.ext heq
    · have h1 := hp j i j.isLt i.isLt hgt
      have h2 : same (cls[(j : ℕ)]).2 (cls[(i : ℕ)]).2 = true := hs.symm hij
      rw [h1] at h2; cases h2
  set S : Finset (Equiv.Perm (Fin n)) := Finset.univ.filter fun σ => same I (J σ) = true with hS
  have hfib : ∀ i : Fin cls.length, (Finset.univ.filter fun σ => φ σ = i).card = S.card := by
    intro i
    obtain ⟨τ, -, hτ⟩ := hkey i
    refine Finset.card_bij' (fun σ _ => τ⁻¹ * σ) (fun σ _ => τ * σ) ?_ ?_ (fun σ _ => by simp) (fun σ _ => by simp)
    · intro σ hσ
      rw [Finset.mem_filter] at hσ
      rw [hS, Finset.mem_filter]
      refine ⟨Finset.mem_univ _, ?_⟩
      have h1 := hφ σ
      rw [hσ.2, hτ] at h1
      have := hinv _ _ _ _ τ⁻¹ _ _ (hD τ) (hD σ) h1 (hmul τ τ⁻¹) (hmul σ τ⁻¹)
      rw [inv_mul_cancel, hone] at this
      exact this
    · intro σ hσ
      rw [hS, Finset.mem_filter] at hσ
      rw [Finset.mem_filter]
      refine ⟨Finset.mem_univ _, ?_⟩
      have h1 := hσ.2
      rw [← hone] at h1
      have h2 := hinv _ _ _ _ τ _ _ (hD 1) (hD σ) h1 (hmul 1 τ) (hmul σ τ)
      rw [mul_one, ← hτ] at h2
      exact huniq _ _ (hs.trans (hφ (τ * σ)) (hs.symm h2))
  have hcount := Finset.card_eq_sum_card_fiberwise (f := φ) (s := Finset.univ) (t := Finset.univ) (fun _ _ => Finset.mem_univ _)
  rw [Finset.sum_congr rfl fun i _ => hfib i, Finset.sum_const, Finset.card_univ, Finset.card_univ, Fintype.card_perm, Fintype.card_fin,
    Fintype.card_fin, smul_eq_mul] at hcount
  rw [hcount]
  congr 1
  rw [Nat.card_eq_fintype_card, Fintype.card_subtype, hS]
  congr 1
  ext σ
  simp only [Finset.mem_filter, Finset.mem_univ, true_and]
  constructor
  · rintro ⟨J', e, hsame⟩
    rw [hcall] at e
    cases e
    exact hsame
  · intro e
    exact ⟨_, hcall σ, e⟩

/-- Ideals that are equal have images that are equal: equality of ideals is respected as `C104_class_size` asks for. -/
theorem specIdeal_image_congr (σ : Equiv.Perm (Fin n)) (b : Bool) (GA GB : List (MvPolynomial (Comp n) ℤ)) (h : SpecIdeal GA = SpecIdeal GB) :
    SpecIdeal (GA.map (rename (SpecMove σ b))) = SpecIdeal (GB.map (rename (SpecMove σ b))) := by
  rw [specIdeal_rename, specIdeal_rename, h]

end cls

end main

end Lips

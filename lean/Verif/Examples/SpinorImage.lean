import Verif.Props.SpinorImage
import Verif.Examples.SpinorIdeal
import Verif.Examples.IdealImage

/-! Concrete cases for C107. -/

namespace Lips

open Matrix MvPolynomial

/-- Every polynomial in the brackets can be written down. -/
theorem exists_brkDenotes {n : ℕ} (P : MvPolynomial (BrkVar n) ℤ) : ∃ s, BrkDenotes s P := by
  suffices h : ∃ (ts : List (Tok PAtom × ℕ)) (e : Ast PAtom), Reads .atom (ts.map Prod.fst) e ∧ SpecBrkPoly n e = some P by
    obtain ⟨ts, e, h2, h3⟩ := h
    exact ⟨_, ['^'], ts, e, .inl rfl, rfl, .ofTerm (.ofFactor (.ofPower (.ofAtom h2))), h3⟩
  induction P using MvPolynomial.induction_on with
  | C z =>
    obtain ⟨k, rfl | rfl⟩ := Int.eq_nat_or_neg z
    · exact ⟨[(.atom (.num k), 0)], .atom (.num k), .atom _, by simp [SpecBrkPoly]⟩
    · exact ⟨[(.lpar, 0), (.minus, 0), (.atom (.num k), 0), (.rpar, 0)], .neg (.atom (.num k)),
        .paren (ts := [.minus, .atom (PAtom.num k)]) (.ofTerm (.ofFactor (.neg (.ofPower (.ofAtom (.atom (PAtom.num k))))))), by simp [SpecBrkPoly]⟩
  | add P Q hP hQ =>
    obtain ⟨ts, e, h2, h3⟩ := hP
    obtain ⟨us, f, k2, k3⟩ := hQ
    refine ⟨[(.lpar, 0)] ++ (ts ++ ([(.plus, 0)] ++ us)) ++ [(.rpar, 0)], .add e f, ?_, by simp [SpecBrkPoly, h3, k3]⟩
    have := Reads.paren (.add (.ofTerm (.ofFactor (.ofPower (.ofAtom h2)))) (.ofFactor (.ofPower (.ofAtom k2))))
    simpa using this
  | mul_X P v hP =>
    obtain ⟨ts, e, h2, h3⟩ := hP
    have hv := specBrkText_letter v _ rfl
    refine ⟨[(.lpar, 0)] ++ (ts ++ ([(.star, 0)] ++ [(.atom (.var (if v.1 then 'A' else 'B') ((v.2 : ℕ) + 1)), 0)])) ++ [(.rpar, 0)],
      .mul e (.atom (.var (if v.1 then 'A' else 'B') ((v.2 : ℕ) + 1))), ?_, by simp only [SpecBrkPoly, h3, hv]; rfl⟩
    have := Reads.paren (.ofTerm (.mul (.ofFactor (.ofPower (.ofAtom h2))) (.ofPower (.ofAtom (.atom (PAtom.var (if v.1 then 'A' else 'B') ((v.2 : ℕ) + 1)))))))
    simpa using this

theorem exists_brkDenotes_list {n : ℕ} (G : List (MvPolynomial (BrkVar n) ℤ)) : ∃ I, List.Forall₂ BrkDenotes I G := by
  induction G with
  | nil => exact ⟨[], .nil⟩
  | cons P G ih =>
    obtain ⟨s, hs⟩ := exists_brkDenotes P
    obtain ⟨I, hI⟩ := ih
    exact ⟨s :: I, .cons hs hI⟩

/-- `A1*B6 - A2^2` at four points: exchanging the first two particles turns a sign. -/
example : spinorCall ["A1*B6 - A2^2".toList] [.str "2134".toList, .bool false] = .ok ["(-A1)*B6 - A4^2".toList] := by decide +kernel

example : spinorCall ["A1*B6 - A2^2".toList] [.str "2134".toList, .bool true] = .ok ["(-B1)*A6 - B4^2".toList] := by decide +kernel

/-- Going back leaves a trace in the text. -/
example : spinorCall ["(-A1)*B6 - A4^2".toList] [.str "2134".toList, .bool false] = .ok ["(-(-A1))*B6 - A2^2".toList] := by decide +kernel

example : spinorCall ["A1".toList] [.str "21".toList, .other] = .error .notImplemented := rfl

/-- The text `A1*B6`. -/
theorem brkText_denotes : BrkDenotes "A1*B6".toList
    (X (true, (⟨0, by decide⟩ : Fin (pairsList 4).length)) * X (false, ⟨5, by decide⟩) : MvPolynomial (BrkVar 4) ℤ) :=
  ⟨['^'], [(.atom (.var 'A' 1), 0), (.star, 0), (.atom (.var 'B' 6), 0)], .mul (.atom (.var 'A' 1)) (.atom (.var 'B' 6)), .inl rfl, by decide,
    .ofTerm (.mul (ts := [.atom (PAtom.var 'A' 1)]) (.ofFactor (.ofPower (.ofAtom (.atom (PAtom.var 'A' 1))))) (.ofPower (.ofAtom (.atom (PAtom.var 'B' 6))))), by
      simp [SpecBrkPoly, SpecBrkText, length_pairsList]⟩

/-- C107_image, C107_group: the four-point example. -/
example : ∃ I', spinorCall ["A1*B6".toList] [.str (permString (finRotate 4)), .bool true] = .ok I' := by
  obtain ⟨φ, hφ, -⟩ := C107_moves (R := ℤ) (finRotate 4) true
  obtain ⟨ψ, hψ, -⟩ := C107_moves (R := ℚ) (finRotate 4) true
  obtain ⟨I', h, -⟩ := C107_image (by omega) (finRotate 4) true _ _ (.cons brkText_denotes .nil) φ hφ ψ hψ
  exact ⟨I', h⟩

example := C107_group (by omega) (finRotate 4) (Equiv.swap 0 3) true false _ _ (.cons brkText_denotes .nil)

/-- C107_zeros, C107_zeros_partial: at a six-point configuration, for a homogeneous generator. -/
example : ∃ I, ∀ b : Bool, ∃ I' G' qs r' l', spinorCall I [.str (permString (finRotate 6)), .bool b] = .ok I' ∧ List.Forall₂ BrkDenotes I' G' ∧
    imageRule particleEq (anglesForSquares (f13 .symmetric)) (List.ofFn pt6) (permString (finRotate 6), b) = .ok (List.ofFn qs) ∧
    (∀ k : Fin 6, HasSpinors (f13 .symmetric) (qs k) (r' k) (l' k)) ∧
    ∀ w w', BrkVals (fun k => (spin6 k).1) (fun k => (spin6 k).2) w → BrkVals r' l' w' →
      ((∀ P ∈ G', aeval w' P = 0) ↔ ∀ P ∈ [(X (true, ⟨0, by decide⟩) : MvPolynomial (BrkVar 6) ℤ)], aeval w P = 0) := by
  obtain ⟨I, hI⟩ := exists_brkDenotes_list [(X (true, ⟨0, by decide⟩) : MvPolynomial (BrkVar 6) ℤ)]
  refine ⟨I, fun b => C107_zeros_partial (by omega) (by omega) (f13 .symmetric) pt6 (fun k => (spin6 k).1) (fun k => (spin6 k).2)
    (fun _ => (ofSpinors_isMassless _ _ _).toHasSpinors) pt6_distinct (finRotate 6) b I _ hI fun _ P hP => ⟨1, ?_⟩⟩
  rw [List.mem_singleton] at hP
  subst hP
  exact isHomogeneous_X _ _

/-- C107_slice, C107_slice_partial: the slice of the ideal of `⟨1|2⟩`, and that of the zero ideal with an exchange. -/
example : ∃ elim L J I L' GL' J' I' GI', Eliminates elim ∧ invariantSlice symCtx sym2 symPoint elim [X ((0 : Fin 2), 1) * X (1, 0) - X (0, 0) * X (1, 1)] = .ok J ∧
    lipsCall L [.str (permString (Equiv.swap (0 : Fin 2) 1)), .bool false] = .ok L' ∧ List.Forall₂ Denotes L' GL' ∧
    invariantSlice symCtx sym2 symPoint elim GL' = .ok J' ∧ spinorCall I [.str (permString (Equiv.swap (0 : Fin 2) 1)), .bool false] = .ok I' ∧
    List.Forall₂ BrkDenotes I' GI' ∧ SpecIdeal GI' = SpecIdeal J' := by
  obtain ⟨elim, he⟩ := exists_eliminates 2
  obtain ⟨J, hJ, -⟩ := invariantSlice_mem sym2_indep symPoint_spin he [X ((0 : Fin 2), 1) * X (1, 0) - X (0, 0) * X (1, 1)]
  obtain ⟨L, hL⟩ := exists_denotes_list [(X ((0 : Fin 2), 1) * X (1, 0) - X (0, 0) * X (1, 1) : MvPolynomial (Comp 2) ℤ)]
  obtain ⟨I, hI⟩ := exists_brkDenotes_list J
  obtain ⟨L', GL', J', I', GI', h⟩ := C107_slice (by omega) symCtx sym2 sym2_indep symPoint symPoint_spin elim he (Equiv.swap 0 1) L _ hL J hJ I hI
  exact ⟨elim, L, J, I, L', GL', J', I', GI', he, hJ, h⟩

example : ∃ elim J, Eliminates elim ∧ invariantSlice symCtx sym2 symPoint elim [] = .ok J ∧ ∀ P ∈ J, ∃ d, P.IsHomogeneous d := by
  obtain ⟨elim, he⟩ := exists_eliminates 2
  obtain ⟨J, hJ, m⟩ := invariantSlice_mem sym2_indep symPoint_spin he []
  refine ⟨elim, J, he, hJ, fun P hP => ⟨0, ?_⟩⟩
  have h0 : inComps (P.map (Int.castRingHom ℚ)) = 0 := by
    have := (m (P.map (Int.castRingHom ℚ))).mp (Ideal.subset_span ⟨P, hP, rfl⟩)
    have e : SpecIdeal ([] : List (MvPolynomial (Comp 2) ℤ)) = ⊥ := by
      rw [SpecIdeal, Ideal.span_eq_bot]; rintro x ⟨P, hP, -⟩; cases hP
    rw [e] at this
    exact this
  suffices P = 0 by rw [this]; exact isHomogeneous_zero _ _ _
  have hij : ∀ t : Fin (pairsList 2).length, SpecPairAt t 0 1 := by unfold SpecPairAt; decide
  refine MvPolynomial.funext fun u => ?_
  have hc := congrArg (eval fun v : Comp 2 => if v = (0, 1) ∨ v = (0, 2) then (1 : ℚ) else
    if v = (1, 0) then (u (true, ⟨0, by decide⟩) : ℚ) else if v = (1, 3) then (u (false, ⟨0, by decide⟩) : ℚ) else 0) h0
  have key : ((eval fun v : Comp 2 => if v = (0, 1) ∨ v = (0, 2) then (1 : ℚ) else
      if v = (1, 0) then (u (true, ⟨0, by decide⟩) : ℚ) else if v = (1, 3) then (u (false, ⟨0, by decide⟩) : ℚ) else 0).comp
      (inComps.toRingHom.comp (MvPolynomial.map (Int.castRingHom ℚ)))) = (Int.castRingHom ℚ).comp (eval u) := by
    refine MvPolynomial.ringHom_ext' (RingHom.ext_int _ _) fun ⟨ang, t⟩ => ?_
    have ht : t = ⟨0, by decide⟩ := by revert t; decide
    subst ht
    have := inComps_bracket (ang := ang) (.inl ⟨_, hij ⟨0, by decide⟩, rfl⟩)
    simp only [RingHom.comp_apply, map_X, AlgHom.toRingHom_eq_coe, RingHom.coe_coe, this]
    cases ang <;> simp [brkPoly]
  have := congrArg (fun f => f P) key
  simp only [RingHom.comp_apply, AlgHom.toRingHom_eq_coe, RingHom.coe_coe] at this
  rw [hc] at this
  simpa using this.symm

/-- C107_invariants: the ideal of `⟨1|2⟩`. -/
example : ∃ elim I I' G' J', Eliminates elim ∧ spinorCall I [.str (permString (Equiv.swap (0 : Fin 2) 1)), .bool false] = .ok I' ∧
    List.Forall₂ BrkDenotes I' G' ∧ spinorGens symCtx sym2 symPoint elim [.scal (.two true 1 0)] true = .ok J' ∧ SpecIdeal G' = SpecIdeal J' := by
  obtain ⟨elim, he⟩ := exists_eliminates 2
  obtain ⟨G, hG⟩ := gens2
  obtain ⟨J, hJ⟩ : ∃ J, spinorGens symCtx sym2 symPoint elim [.scal (.two true 0 1)] true = .ok J := by
    rw [spinorGens, conversionGens_eq sym2_indep symPoint_spin, hG]; exact ⟨_, rfl⟩
  obtain ⟨I, hI⟩ := exists_brkDenotes_list J
  obtain ⟨I', G', J', h⟩ := C107_invariants (by omega) symCtx sym2 sym2_indep symPoint symPoint_spin elim he _ true J hJ I hI (Equiv.swap 0 1)
  exact ⟨elim, I, I', G', J', he, h⟩

/-- C107_exchange_wrong: there is such a case. -/
example : ∃ elim L J I, Eliminates elim ∧ List.Forall₂ Denotes L [(X ((0 : Fin 2), 1) * X (1, 0) - X (0, 0) * X (1, 1) - 1 : MvPolynomial (Comp 2) ℤ)] ∧
    invariantSlice symCtx sym2 symPoint elim [X ((0 : Fin 2), 1) * X (1, 0) - X (0, 0) * X (1, 1) - 1] = .ok J ∧ List.Forall₂ BrkDenotes I J := by
  obtain ⟨elim, he⟩ := exists_eliminates 2
  obtain ⟨J, hJ, -⟩ := invariantSlice_mem sym2_indep symPoint_spin he [X ((0 : Fin 2), 1) * X (1, 0) - X (0, 0) * X (1, 1) - 1]
  obtain ⟨L, hL⟩ := exists_denotes_list [(X ((0 : Fin 2), 1) * X (1, 0) - X (0, 0) * X (1, 1) - 1 : MvPolynomial (Comp 2) ℤ)]
  obtain ⟨I, hI⟩ := exists_brkDenotes_list J
  exact ⟨elim, L, J, I, he, hL, hJ, hI⟩

end Lips

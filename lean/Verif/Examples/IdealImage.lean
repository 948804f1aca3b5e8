import Verif.Props.IdealImage
import Verif.Examples.Ideal
import Verif.Examples.PolyImage

/-! Concrete cases for C104. -/

namespace Lips

open Matrix MvPolynomial

theorem covVars_append {n : ℕ} {us ts : List (Tok PAtom × ℕ)} (h : CovVars n us) (h' : CovVars n ts) : CovVars n (us ++ ts) :=
  fun x i k hm => (List.mem_append.mp hm).elim (h x i k) (h' x i k)

theorem covVars_sign {n : ℕ} (t : Tok PAtom) (ht : ∀ y, t ≠ .atom y) : CovVars n [(t, 0)] := by
  intro x i k hm
  simp at hm
  exact absurd hm.1.symm (ht _)

/-- Every polynomial can be written down. -/
theorem exists_denotes {n : ℕ} (P : MvPolynomial (Comp n) ℤ) : ∃ s, Denotes s P := by
  suffices h : ∃ ts e, CovVars n ts ∧ Reads .atom (ts.map Prod.fst) e ∧ SpecPoly n e = some P by
    obtain ⟨ts, e, h1, h2, h3⟩ := h
    exact ⟨_, ['^'], ts, e, .inl rfl, rfl, h1, .ofTerm (.ofFactor (.ofPower (.ofAtom h2))), h3⟩
  have sg : ∀ t : Tok PAtom, (∀ y, t ≠ .atom y) → CovVars n [(t, 0)] := covVars_sign
  induction P using MvPolynomial.induction_on with
  | C z =>
    have pos : ∀ k : ℕ, CovVars n [(.atom (.num k), 0)] := fun k x i j hm => by simp at hm
    obtain ⟨k, rfl | rfl⟩ := Int.eq_nat_or_neg z
    · exact ⟨[(.atom (.num k), 0)], .atom (.num k), pos k, .atom _, by simp [SpecPoly]⟩
    · refine ⟨[(.lpar, 0)] ++ ([(.minus, 0)] ++ [(.atom (.num k), 0)]) ++ [(.rpar, 0)], .neg (.atom (.num k)), ?_, ?_, by simp [SpecPoly]⟩
      · exact covVars_append (covVars_append (sg _ (by simp)) (covVars_append (sg _ (by simp)) (pos k))) (sg _ (by simp))
      · exact .paren (.ofTerm (.ofFactor (.neg (.ofPower (.ofAtom (.atom _))))))
  | add P Q hP hQ =>
    obtain ⟨ts, e, h1, h2, h3⟩ := hP
    obtain ⟨us, f, k1, k2, k3⟩ := hQ
    refine ⟨[(.lpar, 0)] ++ (ts ++ ([(.plus, 0)] ++ us)) ++ [(.rpar, 0)], .add e f, ?_, ?_, by simp [SpecPoly, h3, k3]⟩
    · exact covVars_append (covVars_append (sg _ (by simp)) (covVars_append h1 (covVars_append (sg _ (by simp)) k1))) (sg _ (by simp))
    · have := Reads.paren (.add (.ofTerm (.ofFactor (.ofPower (.ofAtom h2)))) (.ofFactor (.ofPower (.ofAtom k2))))
      simpa using this
  | mul_X P t hP =>
    obtain ⟨ts, e, h1, h2, h3⟩ := hP
    obtain ⟨x, hx, hv⟩ : ∃ x ∈ covLetters, SpecVarText n x ((t.1 : ℕ) + 1) = some t := by
      obtain ⟨k, j⟩ := t
      have hk : 1 ≤ (k : ℕ) + 1 ∧ (k : ℕ) + 1 ≤ n := ⟨by omega, by have := k.isLt; omega⟩
      fin_cases j
      · exact ⟨'a', by decide, by rw [SpecVarText, dif_pos hk]; rfl⟩
      · exact ⟨'b', by decide, by rw [SpecVarText, dif_pos hk]; rfl⟩
      · exact ⟨'c', by decide, by rw [SpecVarText, dif_pos hk]; rfl⟩
      · exact ⟨'d', by decide, by rw [SpecVarText, dif_pos hk]; rfl⟩
    have hvar : CovVars n [(.atom (.var x ((t.1 : ℕ) + 1)), 0)] := by
      intro y i k hm
      simp at hm
      obtain ⟨⟨rfl, rfl⟩, -⟩ := hm
      exact ⟨hx, by omega, by have := t.1.isLt; omega⟩
    refine ⟨[(.lpar, 0)] ++ (ts ++ ([(.star, 0)] ++ [(.atom (.var x ((t.1 : ℕ) + 1)), 0)])) ++ [(.rpar, 0)], .mul e (.atom (.var x ((t.1 : ℕ) + 1))), ?_, ?_,
      by simp [SpecPoly, h3, hv]⟩
    · exact covVars_append (covVars_append (sg _ (by simp)) (covVars_append h1 (covVars_append (sg _ (by simp)) hvar))) (sg _ (by simp))
    · have := Reads.paren (.ofTerm (.mul (.ofFactor (.ofPower (.ofAtom h2))) (.ofPower (.ofAtom (.atom (.var x ((t.1 : ℕ) + 1)))))))
      simpa using this

theorem exists_denotes_list {n : ℕ} (G : List (MvPolynomial (Comp n) ℤ)) : ∃ I, List.Forall₂ Denotes I G := by
  induction G with
  | nil => exact ⟨[], .nil⟩
  | cons P G ih =>
    obtain ⟨s, hs⟩ := exists_denotes P
    obtain ⟨I, hI⟩ := ih
    exact ⟨s :: I, .cons hs hI⟩

/-- `a1*b2 - 3*c1^2` stands for the polynomial. -/
theorem polyToks_denotes : Denotes "a1*b2 - 3*c1^2".toList (X (0, 0) * X (1, 1) - 3 * X (0, 2) ^ 2 : MvPolynomial (Comp 6) ℤ) :=
  ⟨['^'], polyToks, polyTree, .inl rfl, by decide, polyToks_vars, polyToks_reads, by
    simp [polyTree, SpecPoly, SpecVarText]⟩

example : lipsCall ["a1*b2 - 3*c1^2".toList] [.str "234561".toList, .bool true] = .ok ["c2*d3 - 3*a2^2".toList] := by decide +kernel

example : lipsCall ["a1".toList] [.str "1".toList, .other] = .error .notImplemented := rfl

/-- C104_image, C104_group: the six-point example. -/
example := C104_image (by omega) (finRotate 6) true _ _ (.cons polyToks_denotes .nil)

example := C104_group (by omega) (finRotate 6) (Equiv.swap 0 3) true false _ _ (.cons polyToks_denotes .nil)

/-- C104_zeros: at a six-point configuration. -/
example := C104_zeros (by omega) (by omega) (f13 .symmetric) pt6 (fun k => (spin6 k).1) (fun k => (spin6 k).2)
  (fun _ => (ofSpinors_isMassless _ _ _).toHasSpinors) pt6_distinct (finRotate 6) true _ _ (.cons polyToks_denotes .nil)

/-- C104_covariants: the ideal of `⟨1|2⟩` and its image. -/
example : ∃ I I' G', lipsCall I [.str (permString (Equiv.swap (0 : Fin 2) 1)), .bool false] = .ok I' ∧
    lipsGens symCtx sym2 symPoint [.scal (.two true 1 0)] true = .ok G' ∧ List.Forall₂ Denotes I' G' := by
  obtain ⟨G, hG⟩ := gens2
  obtain ⟨I, hI⟩ := exists_denotes_list G
  exact ⟨I, C104_covariants (by omega) symCtx sym2 sym2_indep symPoint symPoint_spin _ true G hG I hI (Equiv.swap 0 1)⟩

/-- The class of the ideal of `b3` at three points: three ideals, and two permutations leave `b3` as it is. -/
example : equivalenceClass (· == ·) 3 ["b3".toList] = .ok
    [(("123".toList, false), ["b3".toList]), (("132".toList, false), ["b2".toList]), (("231".toList, false), ["b1".toList])] := by
  decide +kernel

theorem sameText : Equivalence fun u v : List (List Char) => (u == v) = true :=
  ⟨fun _ => beq_iff_eq.mpr rfl, fun h => beq_iff_eq.mpr (beq_iff_eq.mp h).symm, fun h h' => beq_iff_eq.mpr ((beq_iff_eq.mp h).trans (beq_iff_eq.mp h'))⟩

/-- C104_class, C104_class_size: the six-point example, with ideals compared by their texts. -/
example := C104_class (by omega) sameText (.cons polyToks_denotes .nil)

example := C104_class_size (by omega) sameText (fun A B _ _ σ A' B' _ _ h h1 h2 => by
  have h' := beq_iff_eq.mp h
  subst h'
  exact beq_iff_eq.mpr (Except.ok.inj (h1.symm.trans h2))) (.cons polyToks_denotes .nil)

end Lips

import Verif.Props.PolyImageInv
import Verif.Examples.Points

/-! Concrete cases meeting the hypotheses of the theorems on images of polynomials. -/

namespace Lips

/-- `a1*b2 - 3*c1^2` as tokens. -/
def polyToks : List (Tok PAtom × ℕ) :=
  [(.atom (.var 'a' 1), 0), (.star, 0), (.atom (.var 'b' 2), 1), (.minus, 1), (.atom (.num 3), 0), (.star, 0),
    (.atom (.var 'c' 1), 0), (.dstar, 0), (.atom (.num 2), 0)]

/-- `a1*b2 - 3*c1^2` as a tree. -/
def polyTree : Ast PAtom :=
  .sub (.mul (.atom (.var 'a' 1)) (.atom (.var 'b' 2))) (.mul (.atom (.num 3)) (.pow (.atom (.var 'c' 1)) (.atom (.num 2))))

example : renderText ['^'] polyToks = "a1*b2 - 3*c1^2".toList := by decide

theorem polyToks_reads : Reads .expr (polyToks.map Prod.fst) polyTree := by
  have f : ∀ x : PAtom, Reads .factor [.atom x] (.atom x) := fun x => .ofPower (.ofAtom (.atom x))
  exact .sub (.ofTerm (.mul (.ofFactor (f _)) (f _)))
    (.mul (.ofFactor (f _)) (.ofPower (.pow (.atom _) (f _))))

theorem polyToks_vars : CovVars 6 polyToks := by
  intro l i k h
  simp [polyToks] at h
  rcases h with ⟨⟨rfl, rfl⟩, -⟩ | ⟨⟨rfl, rfl⟩, -⟩ | ⟨⟨rfl, rfl⟩, -⟩ <;> decide

example : covariantPolyImage "a1*b2 - 3*c1^2".toList ("234561".toList, true) = .ok "c2*d3 - 3*a2^2".toList := by decide +kernel

/-- C73: the six-point example, moved by a cycle and conjugated. -/
example : ∃ ts' e' qs,
    covariantPolyImage (renderText ['^'] polyToks) (permString (finRotate 6), true) = .ok (renderText ['^'] ts') ∧
      Reads .expr (ts'.map Prod.fst) e' ∧
      imageRule particleEq (anglesForSquares (f13 .symmetric)) (List.ofFn pt6) (permString (finRotate 6), true) = .ok qs ∧
      evalPoly (compValue qs) e' = evalPoly (compValue (List.ofFn pt6)) polyTree :=
  C73_covariant (by omega) (by omega) (f13 .symmetric) pt6 (fun k => (spin6 k).1) (fun k => (spin6 k).2)
    (fun _ => (ofSpinors_isMassless _ _ _).toHasSpinors) pt6_distinct (finRotate 6) true (.inl rfl) polyToks polyToks_vars polyTree
    polyToks_reads

/-- C73: brackets. The first bracket changes sign under the exchange of 1 and 2. -/
example : invariantPolyImage "A1*B2 - 2*A6**2".toList ("213456".toList, false) = .ok "(-A1)*B6 - 2*A2**2".toList := by
  decide +kernel

/-- C74: a rule on twelve particles that moves one-digit labels only. -/
example : covariantPolyImage "a1*d9".toList ("312456789101112".toList, false) = .ok "a3*d9".toList := by decide +kernel

example : (C75_covariant 3).choose.length = 12 := (C75_covariant 3).choose_spec.2.2.1
example : covariantSymbols 2 = .ok ["a1".toList, "b1".toList, "c1".toList, "d1".toList, "a2".toList, "b2".toList, "c2".toList,
    "d2".toList] := by decide +kernel

end Lips

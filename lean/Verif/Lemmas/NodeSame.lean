import Verif.Model.NodeText

/-! Comparing trees, so that what a text is read as can be checked by evaluation. -/

namespace Lips

mutual
/-- Are the two trees the same. -/
def Node.same : Node → Node → Bool
  | .num k, .num k' => k == k'
  | .bin o a b, .bin o' a' b' => o == o' && a.same a' && b.same b'
  | .neg a, .neg a' => a.same a'
  | .pos a, .pos a' => a.same a'
  | .list es, .list es' => Node.sameAll es es'
  | .oPs t, .oPs t' => t == t'
  | .fraction a b, .fraction a' b' => a == a' && b == b'
  | .block a, .block a' => a.same a'
  | .transpose a, .transpose a' => a.same a'
  | .call f es, .call f' es' => f == f' && Node.sameAll es es'
  | .name t, .name t' => t == t'
  | .subscript a ix, .subscript a' ix' => a.same a' && ix == ix'
  | _, _ => false
/-- See `Node.same`. -/
def Node.sameAll : List Node → List Node → Bool
  | [], [] => true
  | a :: as, b :: bs => a.same b && Node.sameAll as bs
  | _, _ => false
end

mutual
theorem Node.same_eq : ∀ a b : Node, a.same b = true → a = b
  | .num k, b, h => by cases b <;> simp_all [Node.same]
  | .bin o a a', b, h => by
      cases b <;> simp_all [Node.same]
      exact ⟨Node.same_eq _ _ h.1.2, Node.same_eq _ _ h.2⟩
  | .neg a, b, h => by
      cases b <;> simp_all [Node.same]
      exact Node.same_eq _ _ h
  | .pos a, b, h => by
      cases b <;> simp_all [Node.same]
      exact Node.same_eq _ _ h
  | .list es, b, h => by
      cases b <;> simp_all [Node.same]
      exact Node.sameAll_eq _ _ h
  | .oPs t, b, h => by cases b <;> simp_all [Node.same]
  | .fraction _ _, b, h => by cases b <;> simp_all [Node.same]
  | .block a, b, h => by
      cases b <;> simp_all [Node.same]
      exact Node.same_eq _ _ h
  | .transpose a, b, h => by
      cases b <;> simp_all [Node.same]
      exact Node.same_eq _ _ h
  | .call f es, b, h => by
      cases b <;> simp_all [Node.same]
      exact Node.sameAll_eq _ _ h.2
  | .name t, b, h => by cases b <;> simp_all [Node.same]
  | .subscript a ix, b, h => by
      cases b <;> simp_all [Node.same]
      exact Node.same_eq _ _ h.1
theorem Node.sameAll_eq : ∀ as bs : List Node, Node.sameAll as bs = true → as = bs
  | [], bs, h => by cases bs <;> simp_all [Node.sameAll]
  | a :: as, bs, h => by
      cases bs with
      | nil => simp [Node.sameAll] at h
      | cons b bs =>
        simp only [Node.sameAll, Bool.and_eq_true] at h
        rw [Node.same_eq _ _ h.1, Node.sameAll_eq _ _ h.2]
end

/-- Is this the tree. -/
def isNode (a : Option Node) (b : Node) : Bool := match a with
  | some a => a.same b
  | none => false

theorem isNode_eq {a : Option Node} {b : Node} (h : isNode a b = true) : a = some b := by
  cases a with
  | none => simp [isNode] at h
  | some a => rw [Node.same_eq a b h]

end Lips

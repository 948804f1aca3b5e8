import Mathlib.Data.List.Basic

/-! Specification of simultaneous textual replacement. -/

namespace Lips

/-- `out` arises from `text` by reading it once from left to right: at each position the first key
of `d` (in the order of `d`) that occurs there is replaced and skipped; where no key occurs the
character is kept. Replacement texts are not looked at again. -/
inductive Rewrites (d : List (List Char × List Char)) : List Char → List Char → Prop
  | nil : Rewrites d [] []
  | keep (c : Char) (t o : List Char) (no : ∀ kv ∈ d, ¬ kv.1 <+: c :: t) (h : Rewrites d t o) :
      Rewrites d (c :: t) (c :: o)
  | replace (pre post : List (List Char × List Char)) (k v t o : List Char)
      (split : d = pre ++ (k, v) :: post) (first : ∀ kv ∈ pre, ¬ kv.1 <+: k ++ t)
      (h : Rewrites d t o) : Rewrites d (k ++ t) (v ++ o)

end Lips

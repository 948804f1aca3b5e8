import Verif.Model.Ideal
import Verif.Model.Image
import Verif.Model.PolyImage

/-!
Model of the images of a `LipsIdeal`, lips/algebraic_geometry/covariant_ideal.py:71-90.

An ideal is the list of the texts of its generators. The ring and the attribute `rule` of an image (line 79) are left out.
Whether two ideals are equal is decided in the package syngular (`Ideal.__eq__`, and `Ideal.__hash__` for the dictionary of line 86):
an argument `same`.
-/

namespace Lips

/-- An argument of a call. -/
inductive PyArg where
  | str (s : List Char) | bool (b : Bool) | other

/-- `LipsIdeal.image`, lines 77-80. -/
def lipsImage (I : List (List Char)) (rule : List Char × Bool) : Except Err (List (List Char)) :=
  eachOf (covariantPolyImage · rule) I

/-- `LipsIdeal.__call__`, lines 71-75. -/
def lipsCall (I : List (List Char)) : List PyArg → Except Err (List (List Char))
  | .str p :: .bool b :: _ => lipsImage I (p, b)
  | [] | [.str _] => .error .indexError
  | _ => .error .notImplemented

/-- One assignment to a dictionary, which keeps the position of a key that is there. -/
def orderedSet {κ γ : Type*} [DecidableEq κ] (k : κ) (v : γ) : List (κ × γ) → List (κ × γ)
  | [] => [(k, v)]
  | (k', v') :: d => if k = k' then (k', v) :: d else (k', v') :: orderedSet k v d

/-- A dictionary made of pairs of a key and a value. -/
def orderedDict {κ γ : Type*} [DecidableEq κ] (l : List (κ × γ)) : List (κ × γ) := l.foldl (fun d p => orderedSet p.1 p.2 d) []

/-- `value_to_keys[v].append(k)`, line 88: values in order of appearance, each with its keys. -/
def addKey {κ γ : Type*} (same : γ → γ → Bool) (k : κ) (v : γ) : List (γ × κ × List κ) → List (γ × κ × List κ)
  | [] => [(v, k, [])]
  | (v', k', ks) :: d => if same v' v then (v', k', ks ++ [k]) :: d else (v', k', ks) :: addKey same k v d

/-- Lines 86-89: the values of a dictionary that are different, under the first of their keys. -/
def distinctValues {κ γ : Type*} [DecidableEq κ] (same : γ → γ → Bool) (l : List (κ × γ)) : List (κ × γ) :=
  orderedDict ((l.foldl (fun d p => addKey same p.1 p.2 d) []).map fun g => (g.2.1, g.1))

/-- `LipsIdeal.equivalenceClass`, lines 82-90. -/
def equivalenceClass (same : List (List Char) → List (List Char) → Bool) (n : ℕ) (I : List (List Char)) :
    Except Err (List ((List Char × Bool) × List (List Char))) :=
  (eachOf (fun s => (lipsCall I [.str s.1, .bool s.2]).map fun J => (s, J)) (allSymmetries n)).map fun l => distinctValues same (orderedDict l)

end Lips

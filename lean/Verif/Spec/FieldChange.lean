import Verif.Model.Front

/-!
What it means that results over two fields correspond.
-/

namespace Lips

variable {K L : Type*} {n : ℕ}

/-- The numbers `x` and `y` come from the same element of the ring `R`. With `R` the integers of a p-adic field, `i` the inclusion and `φ` the
reduction: `y` is the residue of `x`. -/
def Lift {R K L : Type*} [CommRing R] [Field K] [Field L] (i : R →+* K) (φ : R →+* L) (x : K) (y : L) : Prop := ∃ a, i a = x ∧ φ a = y

/-- Related spinor slots. -/
def SRel (T : K → L → Prop) : Option (V2 K) → Option (V2 L) → Prop
  | none, none => True
  | some v, some w => ∀ i, T (v i) (w i)
  | _, _ => False

/-- Related results: the same exception, or related values. -/
def ERel {α β : Type*} (T : α → β → Prop) : Except Err α → Except Err β → Prop
  | .ok x, .ok y => T x y
  | .error e, .error e' => e = e'
  | _, _ => False

/-- Related optional results. -/
def ORel {α β : Type*} (T : α → β → Prop) : Option α → Option β → Prop
  | some x, some y => T x y
  | none, none => True
  | _, _ => False

/-- Related values of `compute`. -/
def VRel (T : K → L → Prop) : Val K → Val L → Prop
  | .num x, .num y => T x y
  | .spinor s, .spinor t => SRel T s t
  | .vec v, .vec w => ∀ i, T (v i) (w i)
  | .mat m, .mat m' => ∀ i j, T (m i j) (m' i j)
  | .attribute a, .attribute b => a = b
  | _, _ => False

end Lips

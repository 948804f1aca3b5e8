import Verif.Model.SetText

/-!
Model of the pairs of invariants that are written out, lips/hardcoded_limits/particles_set_pair.py:907-938
(`_set_pair_NB_and_Dijk`) and 94-101 (two spinor strings): the texts are compared as texts.
-/

namespace Lips

/-- One call of `_set` with `fix_mom=False`: the text, whether it gets the second value, the mode. -/
structure HardStep where
  text : String
  second : Bool
  mode : ℕ

/-- One pair of texts: what is set instead, and the two particles given to `fix_mom_cons`. -/
structure HardPair where
  first : String
  second : String
  one : HardStep
  two : HardStep
  p : ℕ
  q : ℕ

/-- Lines 909-936. -/
def hardDelta : List HardPair :=
  [⟨"⟨1|3+4|5+6|1⟩", "Δ_735", ⟨"Δ_357", true, 1⟩, ⟨"⟨1|3+4|5+6|1⟩", false, 1⟩, 7, 2⟩,
   ⟨"⟨2|1+7|3+4|2⟩", "Δ_735", ⟨"⟨2|1+7|3+4|2⟩", false, 1⟩, ⟨"Δ_735", true, 6⟩, 5, 6⟩,
   ⟨"⟨7|3+4|5+6|7⟩", "Δ_735", ⟨"Δ_357", true, 1⟩, ⟨"⟨7|3+4|5+6|7⟩", false, 1⟩, 1, 2⟩,
   ⟨"⟨7|1+2|5+6|7⟩", "Δ_12|347|56", ⟨"Δ_56|12|347", true, 1⟩, ⟨"⟨7|1+2|5+6|7⟩", false, 1⟩, 3, 4⟩,
   ⟨"[7|1+2|5+6|7]", "Δ_12|347|56", ⟨"Δ_56|12|347", true, 1⟩, ⟨"[7|1+2|5+6|7]", false, 1⟩, 3, 4⟩,
   ⟨"⟨3|5+6|1+2|3⟩", "Δ_12|347|56", ⟨"Δ_56|12|347", true, 1⟩, ⟨"⟨3|5+6|1+2|3⟩", false, 1⟩, 7, 4⟩,
   ⟨"⟨7|3+4|5+6|7⟩", "Δ_135", ⟨"Δ_12|34|567", true, 1⟩, ⟨"⟨7|3+4|1+2|7⟩", false, 1⟩, 5, 6⟩]

/-- Lines 96-99. -/
def hardStrings : List HardPair :=
  [⟨"⟨7|3+4|5+6|7⟩", "[7|3+4|5+6|7]", ⟨"[7|3+4|5+6|7]", true, 1⟩, ⟨"⟨7|3+4|5+6|7⟩", false, 1⟩, 1, 2⟩]

section
variable {K Γ : Type*} [Field K] [LinearOrder Γ] {n : ℕ}

/-- `_set(text, value, mode=mode, fix_mom=False)`. -/
noncomputable def HardStep.run (abs : K → Γ) (tol : Γ) (c : Ctx K) (fuel : ℕ) (h : HardStep) (v w : K) (ps : Point K n) :
    Option (Except Err (Point K n)) :=
  setText abs tol c ps fuel h.text.toList (if h.second then w else v) false h.mode

/-- `fix_mom_cons(p, q)`. -/
noncomputable def fixLabels (c : Ctx K) (ps : Point K n) (p q : ℕ) : Except Err (Point K n) :=
  match label n p, label n q with
  | .ok p, .ok q => fixAxis1 c ps p q
  | .error e, _ => .error e
  | _, .error e => .error e

/-- One pair. -/
noncomputable def HardPair.run (abs : K → Γ) (tol : Γ) (c : Ctx K) (fuel : ℕ) (h : HardPair) (v w : K) (ps : Point K n) :
    Option (Except Err (Point K n)) :=
  match h.one.run abs tol c fuel v w ps with
  | some (.ok ps1) =>
    match h.two.run abs tol c fuel v w ps1 with
    | some (.ok ps2) => some (fixLabels c ps2 h.p h.q)
    | r => r
  | r => r

/-- `_set_pair_NB_and_Dijk`, lines 907-938, and lines 94-101 with the other table: `.ok none` for the text
`Not implemented.` -/
noncomputable def pairHard (table : List HardPair) (abs : K → Γ) (tol : Γ) (c : Ctx K) (fuel : ℕ) (ps : Point K n)
    (t₁ : String) (v : K) (t₂ : String) (w : K) : Option (Except Err (Option (Point K n))) :=
  match table.find? fun h => decide (h.first = t₁ ∧ h.second = t₂) with
  | none => some (.ok none)
  | some h => (h.run abs tol c fuel v w ps).map fun r => r.map some

end

end Lips

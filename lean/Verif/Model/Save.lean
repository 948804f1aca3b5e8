import Mathlib.Data.List.Basic

/-!
Model of `save_phase_space_point`, lips/particles.py:584-600.
-/

namespace Lips

/-- The files of the directory `phase_space_cache`: a content for every name that exists. Simplification: the
content is a parameter (the text made by `_r_sp_d_for_mathematica` and `_l_sp_d_for_mathematica`), the directory is
always there, and no character that a file name cannot have occurs. -/
abbrev Files (C : Type*) := List Char → Option C

/-- The replacements of line 586. -/
def fileChar (x : Char) : Char :=
  if x = '⟨' then 'A' else if x = '⟩' then 'A' else if x = '[' then 'S' else if x = ']' then 'S' else if x = '|' then 'V' else x

/-- Lines 585-589. -/
def fileName (invariant : List Char) : List Char :=
  if invariant ≠ [] then invariant.map fileChar ++ ['1', '.', 'm'] else ['N', 'o', 'L', 'i', 'm', 'i', 't', '1', '.', 'm']

/-- Lines 594-597: the name that is written to. -/
def savedName {C : Type*} (fs : Files C) (invariant : List Char) : List Char :=
  if (fs (fileName invariant)).isSome then (fileName invariant).take ((fileName invariant).length - 2) ++ ['2', '.', 'm']
  else fileName invariant

/-- `save_phase_space_point(invariant)`; opening with "w" replaces the content. -/
def savePoint {C : Type*} (fs : Files C) (invariant : List Char) (content : C) : Files C :=
  fun name => if name = savedName fs invariant then some content else fs name

/-- A history of saves. -/
def saveAll {C : Type*} : Files C → List (List Char × C) → Files C
  | fs, [] => fs
  | fs, (i, x) :: h => saveAll (savePoint fs i x) h

end Lips

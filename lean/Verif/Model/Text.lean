import Verif.Model.Image

/-!
Model of the string substitutions of `lips/tools.py`. Strings are lists of characters; a
dictionary is the list of its items in insertion order, with distinct keys.
-/

namespace Lips

/-- `dict(zip(keys, values))`: a repeated key keeps its first position and takes the last value. -/
def dictInsert {α β : Type*} [DecidableEq α] (d : List (α × β)) (k : α) (v : β) : List (α × β) :=
  if d.any (fun kv => kv.1 = k) then d.map fun kv => if kv.1 = k then (k, v) else kv
  else d ++ [(k, v)]

/-- A dictionary display, `dict(zip(..))`, or the merge `d1 | d2` (items of `d2` inserted in
`d1`). -/
def dictOf {α β : Type*} [DecidableEq α] (d : List (α × β)) (items : List (α × β)) : List (α × β) :=
  items.foldl (fun acc kv => dictInsert acc kv.1 kv.2) d

/-- The first alternative of `"|".join(re.escape(k) for k in substitutions)` that matches at the
beginning of the text, tools.py:70. -/
def firstMatch (d : List (List Char × List Char)) (t : List Char) :
    Option (List Char × List Char) := d.find? fun kv => kv.1.isPrefixOf t

/-- `pattern.sub(lambda m: substitutions[m.group(0)], text)`, tools.py:71: scan from the left;
`skip` is the number of characters of the last match still to be consumed. -/
def subsScan (d : List (List Char × List Char)) : ℕ → List Char → List Char
  | _, [] => []
  | skip + 1, _ :: cs => subsScan d skip cs
  | 0, c :: cs =>
    match firstMatch d (c :: cs) with
    | some kv => kv.2 ++ subsScan d (kv.1.length - 1) cs
    | none => c :: subsScan d 0 cs

/-- `subs_dict(text, substitutions)` with `escape=True`, tools.py:68-71. With no keys the pattern
is empty, matches everywhere and the lookup raises KeyError. Simplification: no key is the empty
string (none of the callers has one). -/
def subsDict (t : List Char) (d : List (List Char × List Char)) : Except Err (List Char) :=
  if d = [] then .error .keyError else .ok (subsScan d 0 t)

/-- `rsubs_dict(text, substitutions)` with `escape=True`, tools.py:80-84. -/
def rsubsDict (t : List Char) (d : List (List Char × List Char)) : Except Err (List Char) :=
  subsDict t (dictOf [] (d.map fun kv => (kv.2, kv.1)))

/-- `bold_digits`, tools.py:56. -/
def boldDigits : List (List Char × List Char) :=
  [(['0'], ['𝟎']), (['1'], ['𝟏']), (['2'], ['𝟐']), (['3'], ['𝟑']), (['4'], ['𝟒']), (['5'], ['𝟓']),
   (['6'], ['𝟔']), (['7'], ['𝟕']), (['8'], ['𝟖']), (['9'], ['𝟗'])]

end Lips

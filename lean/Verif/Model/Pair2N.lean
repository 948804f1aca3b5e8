import Verif.Model.Pair33

/-!
Model of `_set_pair_A2_or_S2_and_NB`, lips/hardcoded_limits/particles_set_pair.py:210-275: setting a two-bracket
and a spinor string (three-brackets among them).

Strings are read already; labels have one digit. The string has no minus sign (with one the method raises on
line 219). A slot without label has no text that is read again: the code raises a TypeError on line 235.
-/

namespace Lips

variable {K Γ : Type*} [Field K] [LinearOrder Γ] {n : ℕ}

/-- The string with slot `i` replaced through momentum conservation, lines 223-233; unlike `Str.flip` the only slot
of a three-bracket loses both ends. -/
def Str.swapSlot (t : Str n) (i : ℕ) : Str n :=
  let m := t.ms.getD i []
  let alt := if i = 0 ∧ i = t.ms.length - 1 then freeLabels (m ++ [t.s] ++ [t.e])
    else if i = 0 then freeLabels (m ++ [t.s])
    else if i = t.ms.length - 1 then freeLabels (m ++ [t.e]) else freeLabels m
  { t with ms := t.ms.set i alt }

/-- The loop of lines 223-236 over the slots `is`; `cur` is the string found so far. The last slot that helps
decides, and each replacement starts from the string given. -/
def findSwap (ang : Bool) (a b : Fin n) (t : Str n) : List ℕ → Str n → Except Err (Str n)
  | [], cur => .ok cur
  | i :: is, cur =>
    let new := t.swapSlot i
    if [] ∈ new.ms then .error .typeError
    else findSwap ang a b t is (if (canFix ang a b new).isSome then new else cur)

/-- Lines 222-236. -/
def fixable (ang : Bool) (a b : Fin n) (t : Str n) : Except Err (Str n) :=
  if (canFix ang a b t).isSome then .ok t else findSwap ang a b t (List.range t.ms.length) t

/-- Lines 240-245: whether the string is turned round. `a` is the first label of the two-bracket. -/
def turns (ang : Bool) (a : Fin n) (t : Str n) : Bool :=
  decide (t.first = openOf ang ∧ (t.last ≠ closeOf ang ∨ (a = t.s ∧ a ≠ t.e)))

/-- The position in the first slot of the first label that is in no other slot and not in the two-bracket,
lines 251-252. -/
def placeFree (a b : Fin n) (t : Str n) : Option ℕ :=
  (t.ms.getD 0 []).findIdx? fun x => decide (x ∉ t.ms.tail.flatten ++ [a, b])

/-- That label put in first place, lines 253-256. -/
def frontFree (a b : Fin n) (t : Str n) : Option (Str n) :=
  (placeFree a b t).map fun i => { t with ms := t.ms.set 0 (toFront (t.ms.getD 0 []) i) }

/-- Lines 247-267: the string to be set, and in which mode. -/
def chooseMode (a b : Fin n) (t : Str n) : Str n × ℕ :=
  if freeLabels ([a, b] ++ t.labels) = [] ∨ (t.s ∈ [a, b] ∧ 1 < t.ms.length) then
    ((frontFree a b t).getD ((frontFree a b t.reverse).getD t.reverse), 2)
  else (t, 1)

/-- Lines 222-267. -/
def plan2N (ang : Bool) (a b : Fin n) (t : Str n) : Except Err (Str n × ℕ) :=
  match fixable ang a b t with
  | .error e => .error e
  | .ok u => .ok (chooseMode a b (if turns ang a u then u.reverse else u))

/-- `_set(string, X, fix_mom=False, mode=mode)`. -/
noncomputable def setStr (c : Ctx K) (T : Tol K Γ) (t : Str n) (mode : ℕ) (X : K) (ps : Point K n) :
    Except Err (Point K n) :=
  setThen T (setNB c 3 ps t X false mode) (fun qs => t.value qs) X

/-- The last two lines: momentum conservation is restored if there is a way. -/
noncomputable def fixStr (c : Ctx K) (ang : Bool) (a b : Fin n) (t : Str n) (ps : Point K n) : Except Err (Point K n) :=
  match canFix ang a b t with
  | none => .ok ps
  | some (p, q, ax) => if ax then fixAxis2 c ps p q else fixAxis1 c ps p q

/-- `_set_pair_A2_or_S2_and_NB`, lines 210-275. -/
noncomputable def pair2N (c : Ctx K) (T : Tol K Γ) (ps : Point K n) (ang : Bool) (a b : Fin n) (v : K) (t : Str n) (w : K) :
    Except Err (Point K n) :=
  match plan2N ang a b t with
  | .error e => .error e
  | .ok (u, mode) => andThen (andThen (setTwo c T ang a b v ps) (setStr c T u mode w)) (fixStr c ang a b u)

end Lips

import Verif.Model.Image

/-!
Model of `Particles.phasespace_consistency_check` (lips/particles.py:322-384). `I` is the type of
invariant strings, `V` the type of their absolute values, compared by `le` (`<=`) and `gt` (`>`),
which need not be opposite to each other (not-a-number).
-/

namespace Lips

variable {V I : Type*}

/-- The `for` loop, particles.py:354-362, on the list of pairs (value, invariant): the two lists of
the code have equal length and are always exchanged at the same places. Also returns whether
something was exchanged (`Break = False`). -/
def bubblePass (gt : V → V → Bool) : List (V × I) → List (V × I) × Bool
  | [] => ([], false)
  | [x] => ([x], false)
  | x :: y :: l =>
    if gt x.1 y.1 then (y :: (bubblePass gt (x :: l)).1, true)
    else (x :: (bubblePass gt (y :: l)).1, (bubblePass gt (y :: l)).2)
termination_by l => l.length

/-- The `while True` loop, particles.py:352-364, with a bound on the number of passes; `none` means
that the bound was exhausted. -/
def bubbleSort (gt : V → V → Bool) : ℕ → List (V × I) → Option (List (V × I))
  | 0, _ => none
  | k + 1, l => if (bubblePass gt l).2 then bubbleSort gt k (bubblePass gt l).1
      else some (bubblePass gt l).1

/-- particles.py:367-374: collect while `<= threshold`, stop at the first `> threshold`. -/
def smallLoop (le gt : V → V → Bool) (thr : V) : List (V × I) → List I
  | [] => []
  | x :: l => (if le x.1 thr then [x.2] else []) ++ (if gt x.1 thr then [] else smallLoop le gt thr l)

/-- particles.py:377-383: collect all `>= 1 / threshold`. -/
def bigLoop (le : V → V → Bool) (invThr : V) : List (V × I) → List I
  | [] => []
  | x :: l => (if le invThr x.1 then [x.2] else []) ++ bigLoop le invThr l

/-- particles.py:344-351: the values, in the order of the invariants; `stop` when a value that
prints with an `n` (nan, inf) is met and the check is not silent; `compute` may raise. -/
inductive Values (V I : Type*) where
  | ok (l : List (V × I))
  | stop
  | err (e : Err)

/-- See `Values`. -/
def valuesOf (val : I → Except Err V) (bad : V → Bool) (silent : Bool) : List I → Values V I
  | [] => .ok []
  | i :: is =>
    match val i with
    | .error e => .err e
    | .ok v =>
      if bad v && !silent then .stop
      else match valuesOf val bad silent is with
        | .ok l => .ok ((v, i) :: l)
        | .stop => .stop
        | .err e => .err e

/-- The result of the check: momentum conservation, on-shell relation, big and small outliers. -/
structure CheckResult (I : Type*) where
  mom_cons : Bool
  on_shell : Bool
  big : List I
  small : List I

/-- `phasespace_consistency_check`, particles.py:322-384, for a non-empty list of invariants or the
default ones (`dflt`, particles.py:325-327). `mc`, `os` are the results of the two checks of lines
334-335. Returns the caller's list as well: `_invars` is a new list (line 329). `none` when the
bound on the number of passes is exhausted. -/
def consistencyCheck (le gt : V → V → Bool) (thr invThr : V) (val : I → Except Err V)
    (bad : V → Bool) (silent : Bool) (mc os : Bool) (dflt : List I) (fuel : ℕ) (caller : List I) :
    Option (List I × Except Err (CheckResult I)) :=
  let invars := if caller.isEmpty then dflt else caller
  match valuesOf val bad silent invars with
  | .err e => some (caller, .error e)
  | .stop => some (caller, .ok ⟨false, false, [], []⟩)
  | .ok vs =>
    match bubbleSort gt fuel vs with
    | none => none
    | some ws => some (caller, .ok ⟨mc, os, bigLoop le invThr ws, smallLoop le gt thr ws⟩)

/-- `itertools.combinations(range(1, n + 1), 2)`. -/
def pairsUpTo (n : ℕ) : List (ℕ × ℕ) :=
  (List.range' 1 n).flatMap fun i => (List.range' (i + 1) (n - i)).map fun j => (i, j)

/-- The default invariants, particles.py:326-327. -/
def defaultInvars (n : ℕ) : List (List Char) :=
  ((pairsUpTo n).map fun p => '⟨' :: (pyStr p.1 ++ '|' :: (pyStr p.2 ++ ['⟩']))) ++
  ((pairsUpTo n).map fun p => '[' :: (pyStr p.1 ++ '|' :: (pyStr p.2 ++ [']'])))

end Lips

import Verif.Model.Image

/-!
Model of the texts written for Mathematica: `_r_sp_d_for_mathematica`, `_l_sp_d_for_mathematica` and `four_momenta_for_mathematica`,
lips/particles.py:527-582.

Simplification: the components are given by the texts that mpmath and Python write for them: `to_str` of the real and imaginary parts,
which `repr` puts into `mpf('..')`, and `str(complex(..))`. The field is that of complex numbers.
-/

namespace Lips

/-- `s.replace(old, new)` for a text that is not empty: from the left, without overlaps; `skip` characters have been replaced already. -/
def replaceFrom (old new : List Char) : ℕ → List Char → List Char
  | _, [] => []
  | k + 1, _ :: s => replaceFrom old new k s
  | 0, x :: s => if old.isPrefixOf (x :: s) then new ++ replaceFrom old new (old.length - 1) s else x :: replaceFrom old new 0 s

def pyReplace (old new s : List Char) : List Char := replaceFrom old new 0 s

/-- `repr` of a real number of mpmath. -/
def mpfRepr (t : List Char) : List Char := ['m', 'p', 'f', '(', '\''] ++ t ++ ['\'', ')']

/-- The real and the imaginary part of a component, as texts. -/
abbrev CText := List Char × List Char

/-- `(repr(a.real)[5:-1] + "+" + repr(a.imag)[5:-1] + "I").replace("e", "*^")`, lines 531-534. -/
def fileNumber (z : CText) : List Char :=
  pyReplace ['e'] ['*', '^'] (((mpfRepr z.1).drop 5).dropLast ++ ['+'] ++ ((mpfRepr z.2).drop 5).dropLast ++ ['I'])

/-- The two lines of a particle, lines 539-540 and 556-557. -/
def fileLines (name : List Char) (i : ℕ) (a b : CText) : List Char :=
  name ++ pyStr i ++ [',', '1', ']', ' ', '=', ' '] ++ fileNumber a ++ [';', '\n'] ++
    (name ++ pyStr i ++ [',', '2', ']', ' ', '=', ' '] ++ fileNumber b ++ [';', '\n'])

/-- The loop over the particles; `i` counts from one. -/
def fileLoop (name : List Char) : ℕ → List (CText × CText) → List Char
  | _, [] => []
  | i, (a, b) :: ps => fileLines name i a b ++ fileLoop name (i + 1) ps

/-- The names of the spinors. -/
def lambdaName : List Char := "Subscript[\\[Lambda], ".toList
def lambdaBarName : List Char := "Subscript[\\!\\(\\*OverscriptBox[\\(\\[Lambda]\\), \\(_\\)]\\), ".toList

/-- `_r_sp_d_for_mathematica` and `_l_sp_d_for_mathematica`. -/
def rFileText (ps : List (CText × CText)) : List Char := fileLoop lambdaName 1 ps
def lFileText (ps : List (CText × CText)) : List Char := fileLoop lambdaBarName 1 ps

/-- A component of a momentum, lines 565-568. -/
def momNumber (z : CText) : List Char :=
  pyReplace [')'] [] (pyReplace ['m', 'p', 'f', '('] [] (pyReplace ['e'] ['*', '^'] (mpfRepr z.1 ++ ['+'] ++ mpfRepr z.2 ++ ['I'])))

/-- `replace("[[", "{").replace("]]", "}").replace("+-", "-")`, lines 570 and 580. -/
def braces (s : List Char) : List Char :=
  pyReplace ['+', '-'] ['-'] (pyReplace [']', ']'] ['}'] (pyReplace ['[', '['] ['{'] s))

/-- The line of a particle, lines 569-570. -/
def momLine (dps i : ℕ) (p : CText × CText × CText × CText) : List Char :=
  pyReplace ['\''] [] (braces ("DeclareSpinorMomentum[".toList ++ pyStr i ++ ", [[SetPrecision[".toList ++ momNumber p.1 ++ ", ".toList ++ pyStr dps ++
    "], SetPrecision[".toList ++ momNumber p.2.1 ++ ", ".toList ++ pyStr dps ++ "], SetPrecision[".toList ++ momNumber p.2.2.1 ++ ", ".toList ++
    pyStr dps ++ "], SetPrecision[".toList ++ momNumber p.2.2.2 ++ ", ".toList ++ pyStr dps ++ "] ]]]".toList)) ++ ['\n']

/-- Lines 564-572. -/
def momLoop (dps : ℕ) : ℕ → List (CText × CText × CText × CText) → List Char
  | _, [] => []
  | i, p :: ps => momLine dps i p ++ momLoop dps (i + 1) ps

/-- `four_momenta_for_mathematica()`; `dps` is `mpmath.mp.dps`. -/
def momText (dps : ℕ) (ps : List (CText × CText × CText × CText)) : List Char := (momLoop dps 1 ps).dropLast

/-- `str(complex(..)).replace("j", "I").replace("e", "*^")`, lines 575-578. -/
def spinorNumber (t : List Char) : List Char := pyReplace ['e'] ['*', '^'] (pyReplace ['j'] ['I'] t)

/-- The line of a particle, lines 579-580; the components are given as Python writes them. -/
def spinorLine (i : ℕ) (p : List Char × List Char × List Char × List Char) : List Char :=
  braces ("DeclareSpinorMomentum[Sp[".toList ++ pyStr i ++ "], [[[[".toList ++ spinorNumber p.1 ++ "]], [[".toList ++ spinorNumber p.2.1 ++
    "]]]], [[[[".toList ++ spinorNumber p.2.2.1 ++ ", ".toList ++ spinorNumber p.2.2.2 ++ "]]]]]".toList) ++ ['\n']

def spinorLoop : ℕ → List (List Char × List Char × List Char × List Char) → List Char
  | _, [] => []
  | i, p :: ps => spinorLine i p ++ spinorLoop (i + 1) ps

/-- `four_momenta_for_mathematica(as_spinors=True)`. -/
def spinorText (ps : List (List Char × List Char × List Char × List Char)) : List Char := (spinorLoop 1 ps).dropLast

end Lips

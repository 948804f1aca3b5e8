# Formal model of lips in Lean 4

`properties.jsonl` lists what a user of the library relies on; `lean/Verif/`
contains a model of the Python code and the proofs; `MANIFEST.json` maps each
property to theorem names; `seeded/LOG.jsonl` records mutation testing of the
model.

## Layout

* `lean/Verif/Model/*.lean` -- the model, definition by definition; every
  definition cites the lines of `/repo` it follows and states its
  simplifications.
* `lean/Verif/Spec/*.lean` -- small specifications that do not mention the model:
  spinor products, Minkowski products, the textbook grammar of arithmetic, label
  relabellings. Properties are stated with these.
* `lean/Verif/Lemmas/*.lean` -- helper lemmas.
* `lean/Verif/Props/*.lean` -- property theorems. A theorem named `Cnn_...` belongs
  to property `Cnn`. The suffix `_partial` marks a theorem that proves less than
  the property says; its comment says what is missing. Theorems that show where the
  code does not do what the property says have a descriptive name
  (`C34_copy_wrong_from_ten`) and a concrete witness.
* `lean/Verif/Examples/*.lean` -- concrete, non-trivial cases that meet the
  hypotheses of the theorems (some are at the end of the file of the theorem).
* `scripts/manifest.py`, `scripts/notes.json` -- generate `MANIFEST.json` from the
  theorem names and one note for every property.
* `seeded/LOG.jsonl` -- mutation testing: one line per wrong version of the model.

## Trusted base

* The Lean 4.33.0 kernel and the Mathlib definitions used in statements
  (matrices, determinants, traces, lists, permutations, fields).
* Axioms: only `propext`, `Classical.choice`, `Quot.sound`. No axioms are added,
  there is no `sorry`, no `native_decide`, no `bv_decide`.
* The reading of the Python source into Lean definitions (no extraction). In
  particular the meaning of numpy's `dot`, `@`, `trace`, `.T`, Python's list,
  dict, `sorted`, `%`, `re` on the patterns involved.

## General modelling decisions

* **Numbers.** The library is generic over `field` (mpc, finite field, p-adic,
  rational). The model is generic over a Lean `Field K`; arithmetic is exact.
  Rounding of `mpmath` at 300 digits and p-adic precision loss are not modelled.
  The tolerance test `abs(x) <= field.tollerance` is an arbitrary predicate
  `small` true at 0 (which is all that is used), so every proof covers exact
  fields (tolerance 0) and any tolerance. `1j` is an optional element `i` with
  `i*i = -1`; a field without it reproduces the `four_mom = None` branches.
  `field.sqrt` is an arbitrary partial function with `sqrt x = some y -> y*y = x`.
* **Arrays.** 2x2 arrays are `Matrix (Fin 2) (Fin 2) K`; one-index spinors are
  `Fin 2 -> K` (row or column is fixed by the accessor, as in the code).
* **Exceptions** are values; where the code can leave an object half updated, the
  model returns the state at the time of the exception too.
* **Random draws** are universally quantified arguments.
* **Strings.** Where the string handling itself is what the property is about
  (label parsing, permutation strings, Mandelstam generation, substitution) the
  model works on `List Char` or label lists with explicit rendering. Elsewhere
  the parsed form (labels, slots, signs) is the model's input, and the parsing
  step is stated as not modelled.
* **Third-party code** (numpy, sympy, mpmath, syngular, pyadic, antares, Singular)
  is not modelled beyond the operations above; solvers are arbitrary functions.

## What is modelled and what is not

| source | model | not modelled |
|--------|-------|--------------|
| `particle.py` | `Model/Particle`, `NewParticle` (the choice by shape in `__init__`, `__getitem__`), `FieldChange` (`to_field`), `Components` (`randomise_mpc`, twistors), `Cluster` (spin index) | `randomise` (the choice of the method), `m`, `spinors_are_in_field_extension` |
| `particles.py` | `Model/FixMom`, `Indexing`, `PointSlice` (slices as indices), `ThreeCorners` (`ijk_to_3Ks`), `PointHash` (`__hash__`), `Image`, `Cluster`, `Masses`, `Check`, `Components`, `Front` (`_get_lNB`, `_lNB_to_string`), `Save`, `Mathematica`, `Construct`, `Heap` (which objects and arrays are shared), `BuildFrom` (`Particles` of particles of another point), `MassOps` (masses of several points), `FieldChange` (`to_field` for massless points; its state after an exception, `oRefVec` and internal masses are not modelled) | the choice of constructor arguments (lines 44-60), `ms`, what `subs` does to the value of one internal mass (272-280, a parameter of `Model/MassOps`) |
| `particles_compute.py` | `Model/Compute` (values on parsed data), `Front` (text), `EvalArr` (rows and columns, one-entry arrays) | -- |
| `particles_eval.py` | `Model/Parse`: `_parse` on characters, its regular expressions with backtracking; `Model/Eval`: its end on symbols (lines 115, 118, 136 and 156-162), constants, operators, `oPs` and `Fraction` of `_eval_node`; `Model/Call`: the fall-through of `compute`; `Model/NodeText`: Python's tokens and precedence for expressions with `@`, lists, `numpy.block`, `numpy.transpose` and subscripts; `Model/EvalArr`: `_eval_node` on arrays with two indices, and `as_scalar_if_scalar` | unicode powers (117); `sqrt`, `mpf` and `PAdic` calls; other functions of numpy; decimal points; slices with a step; arrays with other than two indices; a call of anything but a name (`x(y)` where the text lacks a `*`) |
| `particles_slices.py` | `Model/Components`: the shifts of the covariant algorithm; `Model/SliceRun`: the methods as a whole around `point_on_variety` and `univariate_slice` of syngular | that the seed determines the random spinors |
| `particles_variety.py` | `Model/Solve`, around arbitrary solvers | how the target values are drawn |
| `invariants.py` | `Model/Invariants`, `InvariantsBrackets`, `InvariantsLists`, `HardBlock` (the strings at six points, around any solver and any draws), `InvariantsCache` | the path `pw_cache`; the file format of the cache |
| `symmetries.py` | `Model/Image` | -- |
| `tools.py` | `Model/Basic`, `Text`, `Front`, `Compute` | `rand_frac`, `escape=False` in the substitutions |
| `hardcoded_limits/particles_set.py` | `Model/Set`, `SetPoly`, `SetTr5`, `Solve` (`_set` around any solver), `SetText` (`_set_inner` and `_set` on texts) | texts outside `setText` (listed in its header): labels of strings with more than one digit, strings written with `<` |
| `hardcoded_limits/particles_set_pair.py` | `Model/SetPair`: which method is called with which arguments, recursive calls, choice of compensating particles; `PairSet` (two two-brackets, two-bracket and Mandelstam, two Mandelstams); `Pair33` (two three-brackets); `PairDelta` (two-bracket and Δ, three-bracket and Δ); `Pair3S` (three-bracket and Mandelstam); `Pair2N` (two-bracket and string); `PairSD` (Mandelstam and Δ); `PairND` (the pairs of a string and Δ, 907-938, and of two strings, 96-99, that are compared as texts); `PairAll` (`_set_pair_inner` and `_set_pair` with all methods put together; Δ with three corners); `Solve` (`_set_pair` around any inner method) | |
| `hardcoded_limits/DoubleCollinearLimit_*.py` | `Model/PairSDA`, `PairSDB`, `PairSDC`: the coefficients of the quadratic equation as they stand in the text; `PairSD`: the solution | -- |
| `algebraic_geometry/*` | `Model/PolyImage`, `Components` (`update_particles`), `Ideal` (`LipsIdeal.__init__`, `__contains__`, `_singular_variety`), `SpinorIdeal` (`conversionIdeal`, `SpinorIdeal.__init__`), `IdealImage` (`image`, `equivalenceClass` of `LipsIdeal`), `FieldChange` (points over p-adic numbers and finite fields) | rings, Groebner bases, finding points, elimination (which variables the two ranges passed to it mean) |
| `fields/*` | an arbitrary field with a context, `Model/Basic` | the numerical fields themselves |

Not modelled anywhere: rounding, p-adic precision, `sympy` simplification, Singular, printing,
file locking. Concurrency appears only in `Model/InvariantsCache` (interleavings of
constructions of `Invariants` and crashes).

## Findings

Where the code does not do what one expects; the theorem is named in brackets.

* Particle
  * In the asymmetric convention a momentum with `P0 + P3 = 0` raises and leaves the old
    spinors beside the new momentum (`C05_asymmetric_corrupts`).
  * On a particle without spinors, assigning one spinor raises and leaves it stored
    (`C01_missing_spinor_half_assigned`).
  * Equal particles can have different hashes (`C07_hash_contract_violated`): massless ones do exactly if the little-group factor between
    their spinors is not one (`C07_hash_iff`, `C07_points_iff` for points).
* `fix_mom_cons` with exactly one zero label returns and changes nothing
  (`C12_one_zero_label_is_noop`).
* `_set` is not atomic: ⟨A|B⟩ with momentum fixing raises after the value was set when there are
  fewer than two other particles or the bracket of the first two is zero; the point no longer
  conserves momentum (`C124_angle_raises`). `_set_pair` is not atomic either: the first invariant stays set when the
  second cannot be (`C124_pair_raises`).
* `compute`
  * With ASCII brackets an angle bracket is read as a square one and nothing is rejected
    (`C28_ascii_brackets_misread`).
  * A trace with an odd number of slots is accepted (`C22_odd_trace_accepted`). It and strings opened
    by the character `<` are not Lorentz invariant (`C121_not_invariant`).
  * Indices that do not fit are contracted without complaint: `[1|@|2⟩` and `[1|@|2|@|3⟩` have values
    that are not Lorentz invariant (`C125_not_invariant`).
  * The determinant of the empty matrix is 0 (`C26_empty_matrix`).
  * tr5 whose first slot is not a one-digit label can have the wrong sign
    (`C23_rotation_flips_sign`); labels from ten on are refused
    (`C23_two_digit_labels_refused`).
  * `ee` takes `-` and `m` for opposite helicities (`C30_mixed_minus_spelling`) and does not
    return for `+` and `p` (`C31_ee_terminates_iff`).
  * `s_ij` with two-digit labels is read digit by digit (`C82_two_digit_mandelstam`), a
    registered mass called like `m1` is not read (`C82_mass_shadowed`), open strings with
    several slots in parentheses are not recognised (`C82_open_parentheses_missed`).
  * A minus sign before a parenthesis applies to its first label only
    (`C85_minus_before_parenthesis`).
* Expressions
  * A mass `m_1` and a Gram determinant `Δ_135` inside an expression are put in `oPs('..')`
    twice, which is no Python (`C94_mass_twice`, `C94_gram_twice`).
  * Strings with labels of two digits are broken up (`C94_two_digits`), traces with several
    slots in parentheses are not found (`C94_trace_slots`).
  * Names of internal masses with `s` before the digits are broken up: alone `ms2` is the
    mass, in an expression it is read as `m` times `s_2` (`C94_mass_name_wrong`). Names
    without `k`, `q`, `r`, `P` are found if the letter before the digits is none of `s`, `S`,
    `m`, `M` (`C94_mass_name`).
* Images
  * `image` can be wrong when momenta coincide (`C33_image_wrong`). It is right exactly if the permutation sends
    coinciding particles to labels next to each other (`C33_right_iff`).
  * `copy` is wrong from ten particles on, for the empty point and for coinciding momenta
    (`C34_copy_wrong_from_ten`, `C34_copy_empty`, `C34_copy_coinciding`); with up to nine particles it is right exactly if
    coinciding particles have labels next to each other (`C34_copy_iff`).
  * The shorthands with three labels are not relabelled (`C35_shorthand_not_relabelled`, on texts `C126_shorthand`).
  * `all_symmetries` repeats entries exactly from eleven particles on (`C37_repeats_iff`), and at ten its result is not closed under `inverse`
    (`C37_inverse_at_ten`).
* Lists of particles
  * `insert` cannot append (`C39_cannot_append`).
  * A plain label of two digits reads another particle (`C40_multi_digit_wrong`), writing
    through a plain label does nothing (`C40_plain_write_ignored`).
  * `==` is not symmetric (`C41_not_symmetric`).
  * The construction of three arcs does not always return (`C44_diverges`).
* `cluster` rewrites masses wrongly from ten particles on and for unions of corners
  (`C46_wrong_from_ten`, `C46_wrong_from_twelve`, `C46_union_of_corners_wrong`).
* Internal masses: lists and tuples raise (`C51_list_tuple_raise`), a set is shared with
  the caller (`C51_set_aliased`), other names are dropped (`C51_other_names_dropped`).
  A mass called `ms` or `multiplicity` has the name of a property without setter: the constructor
  raises AttributeError (`C51_property_raises`), and so does an assignment, which nevertheless
  registers the name, so that `image`, `copy` and `cluster` of the point raise from then on
  (`C115_property_registered`). A set given to two constructors is one set: a new mass on one point
  makes the same methods of the other point raise (`C115_shared_set`). Slices have no masses.
* `subs_dict` with an empty dictionary raises (`C52_empty_raises`).
* Invariants
  * From ten particles on the Mandelstams include names that `compute` refuses
    (`C54_refuted`), and generating the strings raises (`C60_ten_particles_raise`).
  * From eleven on tr5 names repeat labels (`C55_broken_from_eleven`).
  * From five to nine points one combination of flags raises TypeError (`C60_five_points`, `C60_six_seven`,
    `C60_eight_nine_partial`).
  * At eight and nine points it depends on the order in which Python traverses sets of strings whether `Invariants(n)` raises: in
    ascending order it raises ValueError for every combination of flags (`C60_eight_nine_raise`), in descending order it does not
    (`C60_eight_nine_partial`). Python's order changes with the seed of its hash function.
  * Cache: an incomplete file stays (`C59_incomplete_file_is_permanent`), a failed
    generation leaves an empty file (`C59_failed_generation_leaves_empty_file`), flags are
    ignored (`C59_flags_ignored`).
* Setters of one invariant
  * A string set through its tail or last slot gets minus the value when the number of
    slots is even (`C62_tail_partial`, `C63_last_slot_even_partial`) and raises through the
    last slot when it is odd and at least three (`C63_last_slot_odd_partial`).
  * `s` of all labels but one vanishes identically (`C64_all_but_one_partial`).
  * Setting a Gram determinant whose first corner has one label raises
    (`C65_single_label_corner_partial`).
  * `⟨a|..|a]` with one free label ends at the value times a ratio of brackets
    (`C62_same_end_one_free_partial`).
  * The difference of five-brackets restores momentum conservation with particles that it
    contains: from a point that does not conserve momentum it ends elsewhere
    (`C91_not_conserving_partial`).
  * tr5 at five points gets minus the value for odd orderings
    (`C67_five_points_odd_wrong`).
* Setters of two invariants, and `variety`
  * Labels are exchanged without the values (`C70_exchanged`); further cases do not keep the
    requests (`C70_contained_not_kept`).
  * At four particles the calls do not end (`C71_loops_at_four`).
  * With one label left over, `⟨a|b⟩` and `[d|a]`: restoring momentum conservation overwrites
    what was set, the second ends at the same value whatever is asked for
    (`C87_shared_head_partial`). The same for `⟨a|b⟩` and an `s` that contains `a`
    (`C88_shared_head_partial`).
  * `s` of two labels is not set (`C88_two_labels_partial`).
  * Two Mandelstams, the second contained in the first: setting the second moves the first
    (`C89_contained_partial`). The same when together they have all labels, because the second is
    replaced by its complement (`C89_no_free_partial`); with one label left over and the first the
    longer one, each gets the other's value (`C89_exchanged_partial`).
  * Two three-brackets: a longer first string is set through a label that the second also has
    (`C90_longer_partial`); a wrong closing bracket on line 531 makes `[a|..|b⟩` be set twice
    through the same label (`C90_square_partial`); starts are compared before the string is
    reversed (`C90_stale_partial`); `⟨a|m|b]` with `[a|m|b⟩` raises (`C90_refused`);
    `⟨A|B|C]` with `⟨B|A|C]` uses the formula for other strings (`C90_custom_partial`); a string
    rewritten by momentum conservation changes sign, its value does not
    (`C90_flipped_partial`).
  * Two-bracket and Δ: a single label in the corner named first raises
    (`C95_single_label_partial`). Three-bracket and Δ: the particle changed for Δ may occur in the
    string (last example of Examples/PairDelta); after momentum conservation is used on the
    string it ends at minus the value (`C96_negated_partial`).
  * Three-bracket and Mandelstam: the same sign (`C97_negated_partial`); with one label free and
    both ends of the string in the invariant nothing restores momentum conservation
    (`C97_not_conserving_partial`); a string contained in the invariant is replaced by another
    pair with the values exchanged (`C97_contained_partial`).
  * Two-bracket and string: with the three-bracket `[3|3+4|1⟩` the pair `⟨1|2⟩` loses its value, the
    string being set through the spinor of particle 1 (`C98_disturbed_partial`). A slot that
    momentum conservation would leave empty raises a TypeError (model of lines 223-236).
    An even string that begins with the first label of the two-bracket is turned round without
    changing the sign of the value, so it gets the opposite value (`C98_turned_partial`);
    `_set_pair` compares up to a sign and does not notice. Where neither the string nor one with a
    slot rewritten leaves a way to restore momentum conservation the method returns a point that
    does not conserve it (`C98_unfixable_partial`; `⟨1|2⟩` and `⟨3|(1+2)|3]` at four points).
  * Mandelstam and Δ: the square root is that of mpmath, so the method raises over finite and p-adic
    fields (`C99_needs_mpmath`); not implemented for one label in each corner
    (`C99_not_implemented`), which explains the comment "failed: 8/20 @ 6pt".
  * The pairs written out for seven points: `⟨7|3+4|5+6|7⟩`, `Δ_135` leaves the string at minus its value
    (`C100_string_gram`); a text with parentheses, or with the corners of Δ in another order, is not
    implemented (`C100_other`).
  * `_set_pair("s_123", v, "⟨3|1+2|3]", w)` returns normally with `s_123 = w`; with the two strings in
    the other order it raises (`C101_exchanged_partial`). The reason is that the method returns the list
    of the strings it has set in place of those asked for, and `_set_pair` checks these.
  * Over a finite field the values are not checked (`C68_variety_finite_ignores_values`).
  * A failed solver goes unnoticed when Singular is not allowed
    (`C69_not_allowed_returns`).
* Polynomial images: the literal form fails for a three-cycle (`C73_literal_fails`),
  conjugation changes the sign of brackets (`C73_conjugate_sign`), two-digit labels are
  misread (`C74_two_digits_wrong`), the empty bracket ring has multiplicity one
  (`C75_invariant_none`).
* `LipsIdeal` refuses a covariant that vanishes identically, like `⟨1|1⟩` (`C102_defined` and the example after it).
* `univariate_slice(seed=None)`, the default, raises a TypeError if the first solution has a parameter that is zero: `None + counter` (`C105_retry`).
* Expressions with open indices:
  * `[1|@|2|@|3⟩` is not `[1|2|3⟩` (`C106_glue_middle_partial`, `C106_square_wrong`): a piece open at both sides is always read as if it
    followed an angle bracket; `_parse` corrects this after `[i^|` only.
  * That correction, `transpose(-ϵ @ P @ ϵ)`, reverses the order of the slots (`C106_flip_partial`).
  * That correction is left out from label nine on, because the pattern looks back for a second component of one digit: `[9^|1+2|5_⟩` is not
    `-[10|1+2|6⟩`, while `[8^|1+2|5_⟩` is `-[9|1+2|6⟩` (`C106_nine_partial`, `C106_nine_wrong`).
  * Pieces with one open index and a slot of two digits, `⟨1|10|` or `|12|3⟩`, are broken up (`C106_two_digits_wrong`).
    With one digit next to the bar of the spinor they are found, whatever the other labels (`C106_open_end`, `C106_open_begin`).
    This is exact: with more digits there the spinor is always taken alone (`C106_open_end_wrong`, `C106_open_end_iff`, `C106_open_begin_wrong`,
    `C106_open_begin_iff`).
  * `|1⟩+⟨2|` is the table of all sums, `⟨1||2⟩` the table of all products (`C106_spread_partial`).
  * Brackets of massive particles next to each other, `⟨1_|4_⟩[1^|4^]`, are left without a `*` and read as a call.
* Images of a `SpinorIdeal` under an exchange of angle and square brackets do not commute with `invariant_slice` unless the generators are
  homogeneous: `⟨1|2⟩ = 1` becomes `[1|2] = 1` in the brackets and `[1|2] = -1` in the components (`C107_exchange_wrong`).
* The files of `save_phase_space_point` cannot be read by Mathematica as numbers: `repr(x)[5:-1]` of `mpf('1.5')` is `1.5'`, with a
  quote left over, so `1.5'+2.0'I` is written (`C108_file_quotes`). Without the quotes they would be right (`C108_file_partial`).
* `Particles(2)` has all momenta zero and `Particles(3)` all angle brackets zero, without a warning (`C109_two`, `C109_three`); the
  description of `randomise_all` says that it breaks momentum conservation, which it restores (`C109_randomise_all`).
* Strings with two slots, `all_strings(n, "4")`:
  * For different ends too much is removed: at six points `⟨1|(2+3)|(3+4)|2⟩` is not a product of anything generated, it vanishes at a
    point where nothing generated does (`C111_six_missing`). The third of the tests asks that one slot less the other be the far end, and
    does not ask that the other be contained.
  * At seven points, with sets in ascending order, the removal of doubles also loses strings with equal ends: of 15 classes of equal strings
    for each end one is left, and none for the ends 4 and 5 (`C111_seven_ascending`). In descending order all are kept, three copies of each.
  * At nine points `⟨1|(2+3)|(2+3+4+5)|1⟩` and its reverse are both written (`C111_nine_twice`): the comparison of slots stops at the shorter one.
* Points in memory:
  * Slices are not shifted to labels from one: `ps[a:b]` begins with the particle after `ps[a]`, and holds labels `a + 1`, …, `b`
    (`C130_not_base_one`, `C130_labels_partial`). Only slices without lower bound number particles as the point does (`C130_prefix`). A slice has
    no internal masses (`C130_point`).
  * `Particles([...])` of particles of another point has the same particles, and `fix_mom_cons` at its end changes two of them: the other point then
    no longer conserves momentum, exactly by what the listed particles lacked (`C132_breaks`, `C132_total`).
  * A slice of a point has the same particles: changing the slice changes the point (`C112_slice_shared`).
  * In `cluster` a corner with one particle is a shallow copy with the same arrays. `make_analytical_d` on the clustered point writes into the
    spinors of the original, whose other representations stay as they were (`C112_cluster_shared`, `C112_cluster_stale`).
  * `oPs["|1⟩"] = oPs["|2⟩"]` stores the same array, and `make_analytical_d` or `subs` on one particle then changes the other (`C112_assigned_shared`).
* `to_field` keeps the spinors only: a massive particle comes back massless, without an exception, and momentum is no longer conserved
  (`C118_massive`, `C118_mass_lost`).
* A point compares equal to every point that continues it, with another hash (`C07_points_prefix`).
* At seven points `Δ_12|347|56` is listed in `invs_4` only, so `full_minus_4_brackets` does not have it (`C114_misplaced`).
* The parameters `y2` never enter a bivariate slice (`C78_y2_never_enters`).
* Random momenta can be left without spinors (`C80_spinors_may_be_missing`).
* `3/2**2` is 9/4 (`C81_fraction_power`), `x/2/3` is 3x/2 (`C81_fraction_divisor`),
  `x**12/3` raises (`C81_fraction_exponent`), `(1+2)/4` is a float
  (`C81_integer_quotient`), and over the field of thirteen elements `13/26` is 1/2 (`C81_characteristic`). In
  general the quotients of literals are taken first, and a text is not read at all exactly when an exponent
  of several digits is divided by a literal (`C81_exact`, `C81_read_iff`).
* The third save of an invariant overwrites the second (`C83_third_save_overwrites`).

## Plan, property by property

| id | what is modelled | how it is proved |
|----|------------------|------------------|
| C01 | all eight setters of `Particle` as state transformers with error values | invariant, induction over histories |
| C02 | the ten conversion routines | algebra on 2x2 matrices |
| C03 | `lsq`, `ldot` | algebra |
| C04 | spinor setters, `_set_r_sp_d`, `_set_l_sp_d` in both conventions | algebra |
| C05 | same, with `P0+P3 = 0` | symmetric: proved; asymmetric: negation by witness |
| C06 | `__add__` .. `__truediv__`, `sum` | induction on the list |
| C07 | `__eq__`, `__hash__` (hash as an arbitrary function of the tuple) | equivalence; negation of the hash contract by witness; partial theorem |
| C08 | `angles_for_squares` | algebra |
| C09-C13 | `fix_mom_cons` on lists of particles | algebra + sums over lists |
| C14-C22, C28, C29 | `compute` on parsed invariants, chains as lists of slots | induction on chains |
| C23 | tr5 branch with its rotation loop | antisymmetry where the first slot is massless; sign bug shown by witness |
| C24, C25, C27 | δ5, Δ, Ω, Π branches | algebra with `linear_combination` |
| C26 | `det` | induction, Laplace expansion in Mathlib |
| C30, C31 | `ep`, `pe`, `ee` | algebra; non-termination of `ee` by fuel-independent divergence |
| C32-C37 | `image`, `copy`, `inverse`, `identity`, phase-weight symmetries | list sorting lemmas; permutation group |
| C38-C42 | indexing decorator, `insert`, `__eq__`, `_complementary` | list lemmas; negations by witness |
| C43, C44 | `ijk_to_3NonOverlappingLists` with explicit fuel/graph semantics | termination measure; divergence by invariant |
| C45-C47 | `cluster` | sums over lists; algebra; negation by witness for string masses |
| C48, C49 | consistency checks, bubble sort, the default invariants | termination by inversions, sortedness, permutation; the texts of the default invariants are different and each has the value of its bracket |
| C50 | `_get_lNB`, `_lNB_to_string` | round trip on character lists |
| C51 | constructor branch for internal masses, `__setattr__` | negation for list/tuple; invariant for the others |
| C52 | `subs_dict`, `rsubs_dict` | leftmost scanning, induction |
| C53-C58 | generators in `invariants.py` | combinatorics on lists |
| C59, C60 | cache protocol as transition system; `Purge4Brackets` flag | crash-point witness; partial theorem |
| C61-C67 | `_set_*` solvers | algebra |
| C68, C69 | `_set`, `_set_pair`, `variety` around arbitrary inner solvers | decision logic |
| C70-C72 | pair setters' label bookkeeping and dispatch | witness, well-founded measure, case analysis |
| C73-C76 | polynomial images, ring sizes, `update_particles` | algebra, arithmetic |
| C77, C78 | slices | polynomial identity in t; witness |
| C79, C80 | twistor and mpc randomisation | telescoping sum; algebra |
| C81, C82 | expression evaluation, dispatch order | induction, case analysis |
| C83, C84 | saving files, `make_analytical_d` | history witness; algebra |
| C85, C86 | slots with parentheses; `how_to_fix_mom_cons` | induction on texts; case analysis, algebra |
| C87-C90 | the steps of four `_set_pair_*` methods | what each step keeps; affine dependence on the value; exceptions as affine laws |
| C91 | `_set_p5Bdiff` | affine equation; what restoring momentum conservation keeps |
| C92 | patterns of `compute` | regular expressions as languages, equal to the matchers; one pattern per first, third, last character and number of bars |
| C93 | `_set`, `_set_inner`, `check_consistency` on texts | C92 for the dispatch, C61-C67 for the setters, C82 for the values |
| C95, C96 | `_set_pair_A2_or_S2_and_Dijk`, `_set_pair_3B_and_Dijk` | C65 without momentum conservation; C25 for the order of the corners; which spinors the other invariant uses |
| C97 | `_set_pair_3B_and_Sijk` | the steps of C64 and C90; which spinors restoring momentum conservation changes |
| C98 | `_set_pair_A2_or_S2_and_NB` | one spinor changed by any way of setting a string; C72 for the particles that restore momentum conservation |
| C99 | `_set_pair_Sijk_and_Dijk`, `expression_for_a`, `expression_for_e` | the coefficients in closed form (`sdA_eq`, `sdB_eq`, `sdC_eq`, by `ring`), then the quadratic equation; a complete case analysis over which of the six labels are in the invariant |
| C100 | `_set_pair_NB_and_Dijk`, lines 94-101 of `_set_pair_inner` | setting a string and Δ on text without restoring momentum conservation (`text_quadratic`, `text_delta`), what moves and what does not, then the symmetry of Δ in its corners and momentum conservation in a slot for the texts asked for |
| C101 | `_set_pair_inner`, `_set_pair` | all branches put together with recursion counted; termination by refinement of the step relation of C71; case analysis over the 36 pairs of kinds; what the checks at the end say |
| C102 | `LipsIdeal`, `_singular_variety` | every covariant defined over an arbitrary commutative ring and natural under ring maps; polynomials in independent symbols are determined by their value; `point_on_variety` is an oracle that returns a common zero |
| C103 | `conversionIdeal`, `SpinorIdeal` | substitution of brackets is a retraction modulo the conversion ideal; elimination is an oracle with its usual specification, shown to exist by Hilbert's basis theorem |
| C104 | `LipsIdeal.__call__`, `image`, `equivalenceClass` | texts denote polynomials; renaming of variables commutes with the covariants over any ring; grouping by value keeps first occurrences; orbit counting. Equality of ideals (`Ideal.__eq__`, `__hash__` of syngular) is an argument that is an equivalence relation |
| C105 | `univariate_slice`, `bivariate_slice` | components as polynomials in the variables over polynomials in the parameters; naturality of the covariants under reading a polynomial with other values; a polynomial in a transcendental is zero exactly if its coefficients are. `point_on_variety` is assumed to return a common zero |
| C94 | `_parse` on characters, `compute` on expressions | what each pattern can match inside and across the parts of the text, pass by pass; C92 for the names, C81 for the value |
| C106 | `_eval_node`, `as_scalar_if_scalar`, `ast.parse` | induction over a relation that says what an expression means in matrix algebra; strings through associativity of the products, spin indices through the Levi-Civita symbol and, on texts, through the places where each of the five substitutions can match; the recursive descent finds exactly the derivations of the grammar, by induction over derivations and over the depth |
| C107 | `SpinorIdeal.__call__`, `image`, `LipsIdeal.invariant_slice` | the one algebra homomorphism that moves the brackets; it commutes with writing brackets in components, up to signs for an exchange, which homogeneous generators do not see. Texts are shown to have one reading (Props/PolyText), which also makes C104 about the polynomials of the texts |
| C108 | `four_momenta_for_mathematica`, `_r_sp_d_for_mathematica`, `_l_sp_d_for_mathematica` | decimals and statements of Mathematica as inductive relations, with one value for each text; what `str.replace` does across the pieces of a line |
| C109 | `Particles.__init__` (external kinematics), `randomise_all` | C09 for the repair, uniqueness by contracting with the left spinors |
| C110 | `all_strings` for three brackets, `Purge3Brackets` | the slots of each pair of ends compared by evaluation over the whole domain (at most nine particles), everything else for arbitrary sets and points; momentum conservation exchanges a slot for its complement; the restriction through C58 |
| C111 | `all_strings` for four brackets | values by momentum conservation and the Schouten identity for arbitrary sets; the tests of `all_strings` as statements on sets (Props/StringPairsList); the loop that removes doubles by what it can remove at all; at seven points in ascending order by following each class of three equal strings |
| C112 | `Model/Heap`: particles and their one-index spinors have addresses; commands for construction, assignments, `angles_for_squares`, `make_analytical_d`, `subs`, `image`, `cluster`, slices and lists of particles of other points | induction over the commands with the invariant that no object, and for the stronger form no array, is in two places (`Good`, `Sep`); for copies the invariant that one point shares nothing with the rest (`Alone`) |
| C113 | `generate_5Brackets` | the list for all n by cutting a rotation of the circle into three pieces: a piece across the label `a` that is not everything is no cyclic interval; values by momentum conservation in the middle slot |
| C114 | `GenerateFromScratch`, `full`, `full_minus_4_brackets`, `invs_N` | C53, C55-C57, C110, C111 and C113 put together; the test of two labels being neighbours of the end as a finite check over all labels up to nine particles (all that the generator accepts) |
| C115 | `Model/MassOps`: points with the number of their container `internal_masses`; construction, assignment, `image`, slices, `cluster`, `subs` | induction over the commands with the invariant that no container belongs to two points and every registered name has a value (`MInv`); negations for a shared set and for names of properties |
| C116 | `GenerateFromScratch` with `compute` and `_set_inner` | C114 for the texts, C82, C92 and C93 for reading them, C43 for the loops of the shorthands |
| C117 | `Model/HardBlock`: the loop over nine strings at six points, with `_set` and `phasespace_consistency_check` of the model | induction over the strings and over the attempts; C61 for what `_set` reaches; C82 for values of the two spellings of a string; C56 for the strings being new |
| C118 | `Model/FieldChange`: `to_field`, `padic_to_finite_field`, `finite_field_to_padic`, around any conversion of a number that may raise | every branch of `compute` respects each relation between two fields that respects sums, products, signs and halves (`Lemmas/Transfer`); the relation of coming from one element of a ring |
| C119 | `Model/Components`: `subs` and `make_analytical_d`, with `computeText` | `Lemmas/Transfer` with the relation of a polynomial and what is substituted for it; C84 for the components after `make_analytical_d` |
| C120 | `Model/Call` and `Model/NodeText`: `compute` of expressions, before and after a change of the field | `Lemmas/TransferEval`: all operations of `_eval_node` on numbers and arrays respect a relation between two fields that also respects inverses of numbers whose partner is not zero, up to divisions by zero in the second field; integers of a p-adic field, embeddings, and rational functions with their value at a point |
| C121 | `Model/Call`: `compute` of texts, before and after a Lorentz transformation of the point | C20 for the covariants of the model, then every form a text can have and every name the reader of expressions asks for; a congruence of the evaluation in its names |
| C122 | the same, after multiplying spinors by factors | all covariants scale (`Scaled`), with factors per particle and one for all momenta; the operations on numbers respect weights (`WRel`); weights by counting in `Spec/Weight` |
| C123 | all setters of `Model/Set*` and `Model/Pair*`, `fixMomCons`, `imageRule`, `anglesForSquares` as commands on a point | every setter is made of assignments of one spinor and of momentum fixing (`Lemmas/SetKeeps`), both keep massless particles massless; recursion by induction on fuel; the checks after setting give momentum conservation; induction over the history. The real branch of `fix_mom_cons` is left out: it may clear spinors. For calls that raise see C124 |
| C124 | `Model/SetLeft`, `Model/PairLeft`: the particles after each setter of one or two invariants and after `fix_mom_cons`, whether it returns or raises | each function follows its setter, with the point so far in place of an exception; `Leaves` (agrees with the setter where it returns, on the mass shell, unchanged if it raised without fixing, at most three particles, one without fixing) is shown for every setter; `Lemmas/SetMom` for momentum; pairs are two steps and momentum fixing (`Lemmas/PairLeft`, `leaves_pairInner` by induction on fuel). The conversions of values and texts before the first step change nothing. On massless particles `fix_mom_cons` raises before it assigns (`Lemmas/SetStays`), so that what was set stays (`Props/LeftStays`) |
| C125 | `Model/EvalArr`, `Model/NodeText`: expressions with open indices, before and after a Lorentz transformation of the point | kinds of indices and the rules for contracting them (`Spec/Indices`); induction on the rules, every operation on arrays respects `Moved`; the names by C20 and C121 |
| C126 | `Model/Front`, `Model/EvalArr`, `Model/NodeText`: names and expressions on the image of a point | renaming of labels in names (`Spec/Names`); every pattern and every reading of a label commutes with replacing digits by digits (`Lemmas/Relabel`, `Lemmas/RelabelRead`), values by C35; induction on expressions; for written expressions the renaming commutes with the rewriting of the text, the lexer and the parser (`Lemmas/RenameText`, `Props/RelabelWritten`) |
| C127 | `Model/Call`, `Model/Front`, `Model/Particle`: expressions on a point with angle and square brackets exchanged | flipped invariants and expressions (`Spec/Flip`); values of every form by C35, replacing a name by `(-name)` commutes with the rewriting of the text, the lexer and the parser (`Lemmas/SubstText`); joined with C126 for images with the flag set |
| C128 | `Model/EvalArr`, `Model/NodeText`: expressions with open indices, before and after scaling of spinors | weights by counting on syntax trees (`Spec/NodeWeight`); every array operation commutes with scaling, induction over expressions with a weight; names by C122 and by the spinors of the scaled point |
| C129 | `Model/EvalArr`, `Model/NodeText`, `Model/Particle`: expressions with open indices on a point with angle and square brackets exchanged | mirror images of names and syntax trees (`Spec/Mirror`); every array operation commutes with transposition, matrix products with the factors exchanged, induction over pairs of mirror images; products of slots are reversed, closed names by C35 and C127 |
| C130 | `Model/PointSlice`: slices as indices of a point, with `slice.indices` of Python | positions by bounds and divisibility (`Spec/PointSlice`); arithmetic progressions upwards and downwards; reading back by induction over the positions written. Labels of a slice are off by one: shown as a negation |
| C131 | `Model/ThreeCorners`: `ijk_to_3NonOverlappingLists` in both modes, `ijk_to_3Ks` | the lists partition the labels by C43, their order by C95; momenta by C45, Gram determinants by C25, texts by C82 |
| C132 | `Model/BuildFrom`: `Particles([...])` of particles of another point, which are not copied | the repair by C109; the total momentum of the other point by splitting the sum. The claim about the other point is false: shown as a negation |
| C133 | `Model/NewParticle`: the choice that the constructor of particles makes by shape | cases; consistency by C01 |

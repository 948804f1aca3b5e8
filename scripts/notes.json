{
"C05": [
"partial",
"Holds in the symmetric convention; in the asymmetric one the negation is proved (C05_asymmetric_degenerate_raises, C05_asymmetric_corrupts)."
],
"C07": [
"partial",
"Equality is an equivalence matching momenta. The hash contract is refuted (C07_hash_contract_violated, C07_points_prefix), and which equal particles and points share a hash is exact: massive ones always (C07_hash_partial), massless ones exactly if the little-group factor is one (C07_hash_iff), points exactly if of equal length with every particle massive or with the same spinors (C07_points_iff)."
],
"C22": [
"proved",
"For every even number of slots; odd traces are accepted and frame dependent (C22_odd_trace_accepted)."
],
"C23": [
"partial",
"Totally antisymmetric on one-digit massless labels and linear in the slots after a one-digit first slot. The full claim is refuted: rotation of the slots loses the sign (C23_rotation_flips_sign, C23_first_slot_not_additive), labels from 10 on are refused (C23_two_digit_labels_refused)."
],
"C26": [
"proved",
"All non-empty matrices; the empty one gives 0 (C26_empty_matrix)."
],
"C28": [
"partial",
"Exact for the unicode brackets; strings in ASCII angle brackets passed whole are misread and never rejected (C28_ascii_brackets_misread)."
],
"C30": [
"partial",
"All identities proved; symmetry of ee fails for the mixed spellings '-' and 'm' (C30_mixed_minus_spelling)."
],
"C31": [
"partial",
"Refuted: C31_ee_terminates_iff characterises termination exactly; '+' with 'p' never returns. C31_terminates_partial covers configurations with one spelling."
],
"C33": [
"partial",
"Refuted as stated (C33_image_wrong, C33_image_wrong_value); C33_right_iff says exactly when it is right: the permutation sends coinciding particles to labels next to each other, with no other particle between. Points with pairwise distinct momenta are C32."
],
"C34": [
"partial",
"Settled for every number of particles: copy never raises for a point with particles, and is right if and only if the digits of 123456789101112… at the first coinciding positions do not descend (C34_copy_any); up to nine particles this says that coinciding particles have labels next to each other (C34_copy_iff, C34_copy_partial for pairwise distinct ones). Refuted from ten particles on for distinct momenta (C34_copy_wrong_from_ten), for the empty point (C34_copy_empty) and for coinciding momenta apart (C34_copy_coinciding)."
],
"C35": [
"partial",
"Proved for spinor strings, s, traces, Gram determinants with explicit corners, tr5; refuted for the shorthands with three labels (C35_shorthand_not_relabelled)."
],
"C37": [
"partial",
"Proved as stated for up to nine particles. At ten the list is still exact and free of repetition (C37_exactly_up_to_ten, C37_no_repetition_up_to_ten) and not closed under inverse (C37_inverse_at_ten); all_symmetries repeats entries exactly from eleven on (C37_repeats_iff)."
],
"C39": [
"partial",
"Refuted at position len+1 (C39_cannot_append); proved for positions 1..len."
],
"C40": [
"partial",
"Spinor slots proved; plain labels read correctly only below ten (C40_multi_digit_wrong), and writing through a plain label is ignored (C40_plain_write_ignored)."
],
"C41": [
"partial",
"C41_eq_exact says what __eq__ computes; it is not symmetric and ignores length (C41_not_symmetric). On points of equal length it is an equivalence."
],
"C44": [
"partial",
"Refuted: C44_terminates_iff characterises the triples on which the code returns."
],
"C46": [
"partial",
"Proved for up to nine particles and pairwise disjoint corners (C46_corner_mass_partial); refuted for every number of particles from ten on (C46_wrong_from_ten: the tenth corner is written s_10 and read as one and zero; C46_wrong_from_twelve: two corners written alike) and for the mass of a union of corners (C46_union_of_corners_wrong)."
],
"C51": [
"partial",
"Proved for dictionaries whose keys have the form of a mass and are not names of properties without setter, and for sets; such names raise (C51_property_raises), the caller's set is aliased (C51_set_aliased), lists and tuples always raise (C51_list_tuple_raise), other names in a dictionary are not registered (C51_other_names_dropped)."
],
"C52": [
"proved",
"An empty dictionary raises KeyError (C52_empty_raises)."
],
"C50": [
"proved",
"An empty slot raises (C50_empty_slot)."
],
"C82": [
"partial",
"Proved for brackets, spinors, closed strings, traces, tr5, open strings, s, the Gram shorthands and masses; refuted for two-digit labels of s_ij (C82_two_digit_mandelstam), for a registered mass called like m1 (C82_mass_shadowed) and for open strings with several slots in parentheses (C82_open_parentheses_missed)."
],
"C85": [
"partial",
"Proved when no minus sign stands before a parenthesis (C85_parentheses_partial); refuted otherwise (C85_minus_before_parenthesis, C85_wrong_by)."
],
"C54": [
"partial",
"Refuted: from ten particles on the list contains names that compute refuses (C54_refuted)."
],
"C55": [
"proved",
"From eleven particles on, outside the stated range, names with repeated labels are listed (C55_broken_from_eleven)."
],
"C59": [
"partial",
"Proved for every interleaving of processes that are not interrupted while writing (C59_returned_lists_partial, C59_sequential); refuted after a crash or a failed generation and for different flags (C59_incomplete_file_is_permanent, C59_crash_leaves_incomplete_file, C59_failed_generation_leaves_empty_file, C59_flags_ignored)."
],
"C60": [
"partial",
"Settled by particle number: proved up to four particles (C60_up_to_four_partial); from five to nine the combination restrict-without-further-restrict raises TypeError and all others construct, at six and seven for every traversal order of sets (C60_five_points, C60_six_seven), at eight and nine for orders that are never ascending (C60_eight_nine_partial). Refuted at eight and nine for ascending orders (C60_eight_nine_raise) and for every combination from ten on (C60_ten_particles_raise). The block of hard-coded strings at six points enters as a parameter; C117 is about the block. Open at eight and nine: which of the orders that are neither ascending nor descending raise."
],
"C61": [
"proved",
"Exact over every field of characteristic other than two; the guards are needed (C61_guards)."
],
"C62": [
"partial",
"Proved through the head, linear and quadratic (C62_head_linear, C62_head_quadratic), with one free label (C62_head_one_free), and for the rewriting of a slot (C62_rewritten_slot). Through the tail it holds for an odd number of slots and is refuted for an even one, where minus the value is set (C62_tail_partial). Refuted for ⟨a|..|a] with one free label (C62_same_end_one_free_partial)."
],
"C63": [
"partial",
"Proved for the first slot (C63_first_slot). Refuted for the last slot, outside the stated range: even strings get minus the value, odd ones raise (C63_last_slot_even_partial, C63_last_slot_odd_partial)."
],
"C64": [
"partial",
"Proved for at most n-2 labels (C64_set_mandelstam, C64_room); with n-1 labels the invariant vanishes identically and cannot be set (C64_all_but_one_partial)."
],
"C65": [
"partial",
"Proved for corners with at least two labels in the first (C65_set_delta); a first corner with one label raises (C65_single_label_corner_partial)."
],
"C66": [
"proved",
"Whichever square root the field returns; without a root the method raises."
],
"C67": [
"partial",
"Proved at six points and above (C67_six_points) and for even orderings at five points (C67_five_points_even); refuted for odd orderings, which get the opposite value (C67_five_points_odd_wrong)."
],
"C68": [
"partial",
"Proved for _set (C68_set). For _set_pair only for the strings that the inner method put in place of those asked for (C68_set_pair_partial, C68_set_pair_replaced); for variety the requested values are not looked at over a finite field (C68_variety_partial, C68_variety_finite_ignores_values)."
],
"C69": [
"partial",
"The fallback is proved (C69_fallback); without it variety can return normally after the hard-coded solver raised (C69_not_allowed_returns, C69_not_allowed_partial)."
],
"C70": [
"partial",
"Every recursive call keeps both requests up to sign except in the listed cases (C70_step_partial); refuted when the second list is shorter (C70_exchanged, C70_exchanged_six)."
],
"C71": [
"partial",
"Proved from five particles on, with at most four recursive calls (C71_stops); refuted for four particles (C71_loops_at_four)."
],
"C72": [
"proved",
""
],
"C86": [
"proved",
""
],
"C76": [
"proved",
"For massless points; a symbol and its name are the same key. The internal masses that subs also replaces are not modelled."
],
"C77": [
"proved",
"The shift after substitution; finding the parameters with Singular is not modelled. The conditions are also necessary over an infinite field (C77_conditions_necessary)."
],
"C78": [
"partial",
"Refuted: the parameters y2 never enter (C78_y2_never_enters). The other three families enter (C78_others_enter_partial); the slice still conserves momentum, with a mixed term in the brackets (C78_bivariate_slice)."
],
"C79": [
"proved",
"For all numbers of particles. It returns in the symmetric convention and over fields with 1j (C79_returns)."
],
"C80": [
"proved",
"The momentum is massless and not excluded for any draws and any square root; the spinors can still be missing (C80_spinors_may_be_missing)."
],
"C83": [
"partial",
"Settled for every history of saves: of the points saved for an invariant exactly the first and the last are left, and no other file is written (C83_history, C83_only_these). So the claim is refuted from the third save on (C83_third_save_overwrites) and holds for two (C83_two_saves_partial, C83_first_save_kept_partial); saves of other invariants, whose file names differ, do not matter (C83_names_distinct, C83_other_invariants_kept)."
],
"C84": [
"proved",
"For massless points; a mask that is too short raises IndexError (C84_short_mask)."
],
"C73": [
"partial",
"Proved for component polynomials and all rules with n <= 9 in the form image(f)(image p) = f(p), with composition, and for bracket polynomials under rules without exchange, signs included. The literal form image(f)(p) = f(image p) is refuted (three-cycle). With exchange of angle and square brackets the bracket image has the opposite sign for every bracket (C73_conjugate_sign)."
],
"C74": [
"partial",
"Refuted for every n >= 10 (a10 becomes a20 under the exchange of 1 and 2); the part about one-digit labels moved among themselves is proved."
],
"C75": [
"partial",
"Proved for all n for components and for all n >= 1 for brackets, where the square root is assumed exact on the perfect square it is applied to. For n = 0 the bracket ring gives multiplicity one (C75_invariant_none)."
],
"C81": [
"partial",
"As stated the property fails where quotients of two integer literals are divisors, exponents or raised to powers, where the result is a float and, for the converse, in nonzero characteristic (C81_fraction_power, C81_fraction_divisor, C81_fraction_exponent, C81_integer_quotient, C81_characteristic); C81_value_partial and C81_defined_partial leave these out. C81_reading, C81_read_iff and C81_exact say for all texts how they are read: with the quotients of literals taken first, and not at all when an exponent of several digits is divided by a literal. The grammar part (C81_grammar) holds for all texts."
],
"C87": [
"partial",
"Proved with two free labels (C87_separate, C87_shared), with one free label when the first label is not in the second bracket (C87_one_free, C87_one_free_shared), without a free label for a square first bracket (C87_none_free_square); the same two labels raise (C87_same_labels). Refuted where momentum conservation is restored through a label of both (C87_shared_head_partial)."
],
"C88": [
"partial",
"Proved with two free labels, at six points with disjoint labels, and with one free label not shared (C88_two_free, C88_six_disjoint, C88_one_free); other disjoint requests raise. Refuted with one free label and a shared first label (C88_shared_head_partial); s of two labels is not set (C88_two_labels_partial)."
],
"C89": [
"partial",
"Proved with two labels in neither, when the second has a label that the first has not (C89_two_free), and for _set_pair as a whole with one label in neither, when the first is not the longer one and the second has two labels that the first has not (C89_one_free). Refuted when the second is contained in the first (C89_contained_partial), when the two have all labels together (C89_no_free_partial), and with one label in neither when the first is longer: the values are exchanged (C89_exchanged_partial). Not covered: at most one label in neither and at most one label only in the second, that is, invariants of n - 2 labels or more."
],
"C90": [
"partial",
"Proved with two free labels: a label only in the middle of the second (C90_middle, C90_longer), equal middles (C90_ends, C90_ends_back), the strings ⟨A|(B+C)|A] and ⟨B|(A+C)|B] (C90_custom). Refuted in six cases (C90_longer_partial, C90_square_partial, C90_stale_partial, C90_refused, C90_custom_partial, C90_flipped_partial). With fewer than two free labels see C86."
],
"C91": [
"proved",
"From points that conserve momentum (C91_set), and without restoring conservation from every massless point (C91_set_without_fix); what happens from other points is C91_not_conserving_partial."
],
"C92": [
"proved",
"The regular expressions are transcribed as languages (Mathlib's Language); the matchers of the model are proved to accept exactly those. \\d is an ASCII digit, $ does not allow a final newline."
],
"C93": [
"partial",
"Fails at tr5 at five points in odd orders, where the code raises (C93_tr5_five_partial). Differences of five-brackets: _set for one-digit labels (C93_five_brackets), _set_inner for all (C93_five_brackets_inner). Texts outside the model are listed in the header of Model/SetText."
],
"C94": [
"partial",
"As for C81 the value by ordinary arithmetic is not what comes out where _parse takes quotients of literals first, and the converse fails in nonzero characteristic; C94_value_partial, C94_call_partial and C94_defined_partial leave these out, C94_exact, C94_long_exponent and C94_call_exact cover all texts. The parsing itself (C94_parse, C94_eval, C94_names, C94_leaf) is complete for the texts in Spec/Leaves. Names of internal masses alone are in C94_mass_name, with ms2 as a case that fails in C94_mass_name_wrong."
],
"C95": [
"proved",
"C95_two_delta is the claim; C95_single_label_partial is the case of one label in the corner named first, in which the method raises. The guards on Δ are stated at the point reached after the bracket is set."
],
"C96": [
"partial",
"C96_ends holds without hypotheses on labels for a string with different ends one of which is the first label of a corner. Elsewhere the code does not make sure that the particle changed for Δ leaves the string alone (hypothesis Undisturbed; Examples/PairDelta has a string for which it fails), and C96_negated_partial proves the opposite sign after momentum conservation is used on the string."
],
"C97": [
"partial",
"Proved with two labels free, as given or with the complement of the invariant, and with one label free and an end outside the invariant. The remaining cases are proved not to give the values or momentum conservation (theorems with suffix _partial); with no free label only that momentum is conserved when the method returns is proved."
],
"C98": [
"partial",
"Proved for the choice of string, for the values reached whenever the method returns, and for returning. For strings with both ends of the two-bracket's kind and two labels free, both values are shown to be reached if the end that is set, or the label of the first slot that is changed, is not one of the two-bracket (C98_same_kind, C98_middle); when the string is turned round it gets the opposite value (C98_turned_partial), one case in which the two-bracket is disturbed is proved (C98_disturbed_partial), and without a way to restore momentum conservation it is not conserved (C98_unfixable_partial). Returning is proved for strings set through their head."
],
"C99": [
"proved",
"Corners of two labels (all of six points) and, at any multiplicity, two corners of two labels with s_ABC or its complement. Longer corners, for which the formulas set s_ABC of the first labels instead, are not treated."
],
"C100": [
"proved",
"All eight pairs of texts; the case of a missing square root included."
],
"C101": [
"partial",
"Proved as stated, for invariants that are read already; the claim that a normal return means the values asked for fails when all labels of a three-bracket are among those of the Mandelstam invariant (C101_exchanged_partial), and C101_sound has that case as an alternative. The two tables of texts may take more fuel to read a text; their results are C100."
],
"C102": [
"proved",
"Covariants are given as data, without divisions and with Gram determinants only on their own; sympy and Singular are trusted to read an expression as the polynomial it is, point_on_variety to return a common zero."
],
"C103": [
"proved",
"eliminate is assumed to return the elimination ideal of the component variables; covariants as in C102."
],
"C104": [
"proved",
"Equality of ideals is decided by the package syngular and is an argument of the model."
],
"C105": [
"proved",
"point_on_variety and univariate_slice of the package syngular are arguments assumed to return common zeros; constraints are given as data, without divisions. The loop that draws again is cut after any number of rounds."
],
"C106": [
"partial",
"proved for every expression with a meaning in matrix algebra (C106_value, C106_scalar, C106_numbers), for strings cut in two or three pieces (C106_glue, C106_glue_middle, C106_linear), spin indices also on texts (C106_spin_index, C106_spin_text, C106_spin_touch, C106_spin_parse), names with open indices on texts (C106_open_spinor, C106_double_open, C106_open_end, C106_open_begin; C106_open_end_iff and C106_open_begin_iff say which pieces with one open index are found), refusals. The code violates the claim for sums of unlike shapes (C106_spread_partial), for double-open pieces after a plain square bracket at an even place (C106_glue_middle_partial, C106_square_wrong) and for several slots after [i^| (C106_flip_partial), and for a slot after [i^| from label nine on (C106_nine_partial, C106_nine_wrong)."
],
"C107": [
"partial",
"proved for permutations and texts in full (C107_image, C107_moves, C107_group, C107_zeros, C107_slice, C107_invariants, C107_one_polynomial); with an exchange of angle and square brackets the zeros and slices agree for homogeneous generators (C107_zeros_partial, C107_slice_partial) and the code violates the claim otherwise (C107_exchange_wrong)"
],
"C108": [
"partial",
"declarations of momenta and spinors proved in full (C108_momenta, C108_spinors, C108_one_number); the files of save_phase_space_point are right up to quotes (C108_file_partial) and the code violates the claim because of these quotes (C108_file_quotes)"
],
"C109": [
"proved",
"for exact arithmetic; real momenta are C11, random momenta in the complex numbers C80"
],
"C110": [
"proved",
"Up to nine particles, as stated: from ten on labels have two digits and the comparison of slots by characters has no meaning (C60_ten_particles_raise)."
],
"C111": [
"partial",
"Exact for equal ends (C111_removed_equal, C111_equal_ends) and for six points or descending order (C111_six, C111_descending); completeness is false for different ends (C111_six_missing) and for equal ends in ascending order at seven points (C111_seven_ascending). What is missing: which strings with equal ends and disjoint slots are lost for other orders and at eight and nine points."
],
"C112": [
"partial",
"C112_step, C112_history_partial, C112_history_assigns_partial and C112_untouched for all programs without sharing; C112_copy, C112_alone_step and C112_isolated for copies in any memory; C112_make_analytical and C112_subs tie the loops to Model/Components. The claim for all programs is refuted by C112_slice_shared, C112_cluster_shared with C112_cluster_stale, and C112_assigned_shared. Massive fermions, and the four-momentum written into by twist_x_to_mom, are left out."
],
"C113": [
"proved",
"All multiplicities. The order of the labels in the third slot is the order of a Python set; C113_value holds for any order."
],
"C114": [
"proved",
"For every run of the constructor that succeeds (C60 says when it does). The content of the list with two slots refers to all_strings (C111), since which doubles are left depends on the order of sets; what the check of hard-coded strings at six points returns is a parameter."
],
"C115": [
"partial",
"C115_history_partial (all clean programs), C115_step (one command, does not raise). The claim without conditions is false: C115_shared_set, C115_property_registered. What subs does to one value is a parameter."
],
"C116": [
"proved",
"The points are massless and otherwise arbitrary; conservation of momentum is not needed. Whether _set then succeeds depends on the guards of C61-C67."
],
"C117": [
"proved",
"Around any solver, any draws and any evaluation. C117_new needs that values within the tolerance of the one asked for count as small, as 10^-30 does; C117_unrestricted needs exact arithmetic."
],
"C118": [
"partial",
"Proved for massless points (C118_returns, C118_spinors, C118_same, C118_values, C118_conserves, C118_round_trip, and C118_padic for p-adic numbers). Refuted for massive particles, which come back massless (C118_massive, C118_mass_lost)."
],
"C119": [
"proved",
"C119_subs for any ring of components in which 2 is invertible; C119_polynomials for polynomials over a field; C119_analytical from the numerical point over make_analytical_d and back. Massless points, texts of the model of compute."
],
"C120": [
"proved",
"C120_values for any conversion by ring homomorphisms with 2 invertible and units reflected; C120_padic, C120_fields, C120_symbols its cases. Texts of the model of compute and of expressions; values the model of expressions does not follow (floats, roots) correspond trivially."
],
"C121": [
"proved",
"for every text; the two conditions on traces and strings are shown to be needed"
],
"C122": [
"proved",
"for every text of an invariant and every expression that has a weight"
],
"C123": [
"proved",
"All setters for all texts and pairs, fix_mom_cons (complex branch), image and angles_for_squares; calls that raise end the history."
],
"C124": [
"proved",
"All setters of one or two invariants and fix_mom_cons (complex branch); over any sequence of calls."
],
"C125": [
"proved",
"Induction on the rules for indices in Spec/Indices (Typed); texts by C125_text once the text is read as the tree. The non-invariance of expressions whose indices do not fit is C125_not_invariant."
],
"C126": [
"proved",
"all names except the shorthands, for which the claim is refuted (C126_shorthand); written expressions of invariants by C126_written and C126_call; for texts with open indices the syntax trees of the two texts are given (C126_text)"
],
"C127": [
"proved",
"for texts that are read as an expression (readText); which exception a text that is no expression raises is not compared"
],
"C128": [
"proved",
"massive spinors, whose two components come from two massless particles, have a number of spinors but no little-group weight for one of them"
],
"C129": [
"proved",
"Open strings with an even number of slots and no end have no mirror image among the names; blocks are those with one row or one column of two entries, which is what massive spinors are written with. The kind of an exception may differ, as the factors are evaluated in the opposite order."
],
"C130": [
"partial",
"Positions, order, reading, writing and deleting are shown for all slices; that ps[a:b] holds labels a to b-1 and keeps internal masses is refuted (C130_not_base_one, C130_point), the labels it holds are a+1 to b."
],
"C131": [
"proved",
"In the symmetric convention, in which additions of particles do not raise."
],
"C132": [
"partial",
"The new point conserves momentum. That the other point stays as it was holds with fix_mom_cons=False and for listed particles that conserve momentum (C132_unchanged_partial); otherwise it is refuted: the two particles drawn change in both points and the other point no longer conserves momentum (C132_breaks, C132_total)."
],
"C133": [
"proved",
"A momentum raises TypeError in fields without 1j (C133_accepted); in the asymmetric convention also as in C05. Arguments other than those listed raise, a pair with an item that is no array AttributeError instead of the message of the constructor (C133_refused)."
]
}
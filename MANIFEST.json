{
 "claims": [
  {
   "property": "C01",
   "status": "proved",
   "theorems": [
    "Lips.C01_op_consistent",
    "Lips.C01_history_consistent",
    "Lips.C01_constructors_consistent",
    "Lips.C01_missing_spinor_half_assigned"
   ],
   "note": ""
  },
  {
   "property": "C02",
   "status": "proved",
   "theorems": [
    "Lips.C02_assign_then_read",
    "Lips.C02_round_trips"
   ],
   "note": ""
  },
  {
   "property": "C03",
   "status": "proved",
   "theorems": [
    "Lips.C03_m2_minkowski",
    "Lips.C03_ldot_minkowski",
    "Lips.C03_ldot_bilinear"
   ],
   "note": ""
  },
  {
   "property": "C04",
   "status": "proved",
   "theorems": [
    "Lips.C04_spinor_assignment_massless",
    "Lips.C04_massless_rebuilt"
   ],
   "note": ""
  },
  {
   "property": "C05",
   "status": "partial",
   "theorems": [
    "Lips.C05_symmetric_degenerate",
    "Lips.C05_asymmetric_degenerate_raises",
    "Lips.C05_asymmetric_corrupts"
   ],
   "note": "Holds in the symmetric convention; in the asymmetric one the negation is proved (C05_asymmetric_degenerate_raises, C05_asymmetric_corrupts)."
  },
  {
   "property": "C06",
   "status": "proved",
   "theorems": [
    "Lips.C06_arithmetic",
    "Lips.C06_results_consistent",
    "Lips.C06_sum_is_vector_sum",
    "Lips.C06_sum_total",
    "Lips.C06_sum_order_independent",
    "Lips.C06_sum_grouping_independent"
   ],
   "note": ""
  },
  {
   "property": "C07",
   "status": "partial",
   "theorems": [
    "Lips.C07_hash_iff",
    "Lips.C07_points_iff",
    "Lips.C07_eq_equivalence",
    "Lips.C07_eq_iff_mom",
    "Lips.C07_hash_contract_violated",
    "Lips.C07_hash_partial",
    "Lips.C07_degenerate_unhashable",
    "Lips.C07_points_partial",
    "Lips.C07_points_prefix",
    "Lips.C07_points_hashable"
   ],
   "note": "Equality is an equivalence matching momenta. The hash contract is refuted (C07_hash_contract_violated, C07_points_prefix), and which equal particles and points share a hash is exact: massive ones always (C07_hash_partial), massless ones exactly if the little-group factor is one (C07_hash_iff), points exactly if of equal length with every particle massive or with the same spinors (C07_points_iff)."
  },
  {
   "property": "C08",
   "status": "proved",
   "theorems": [
    "Lips.C08_swap_is_parity",
    "Lips.C08_swap_involutive"
   ],
   "note": ""
  },
  {
   "property": "C09",
   "status": "proved",
   "theorems": [
    "Lips.C09_fix_mom_cons_axis1",
    "Lips.C09_vanishing_bracket_raises"
   ],
   "note": ""
  },
  {
   "property": "C10",
   "status": "proved",
   "theorems": [
    "Lips.C10_fix_mom_cons_axis2",
    "Lips.C10_vanishing_bracket_raises"
   ],
   "note": ""
  },
  {
   "property": "C11",
   "status": "proved",
   "theorems": [
    "Lips.C11_real_momenta",
    "Lips.C11_real_momenta_returns"
   ],
   "note": ""
  },
  {
   "property": "C12",
   "status": "proved",
   "theorems": [
    "Lips.C12_any_draw",
    "Lips.C12_one_zero_label_is_noop"
   ],
   "note": ""
  },
  {
   "property": "C13",
   "status": "proved",
   "theorems": [
    "Lips.C13_fixed_point_axis1",
    "Lips.C13_fixed_point_axis2",
    "Lips.C13_idempotent"
   ],
   "note": ""
  },
  {
   "property": "C14",
   "status": "proved",
   "theorems": [
    "Lips.C14_antisymmetric",
    "Lips.C14_schouten"
   ],
   "note": ""
  },
  {
   "property": "C15",
   "status": "proved",
   "theorems": [
    "Lips.C15_two_particle",
    "Lips.C15_general",
    "Lips.C15_sum_of_pairs"
   ],
   "note": ""
  },
  {
   "property": "C16",
   "status": "proved",
   "theorems": [
    "Lips.C16_order_independent",
    "Lips.C16_complement"
   ],
   "note": ""
  },
  {
   "property": "C17",
   "status": "proved",
   "theorems": [
    "Lips.C17_expansion",
    "Lips.C17_slot_linear"
   ],
   "note": ""
  },
  {
   "property": "C18",
   "status": "proved",
   "theorems": [
    "Lips.C18_reversal"
   ],
   "note": ""
  },
  {
   "property": "C19",
   "status": "proved",
   "theorems": [
    "Lips.C19_complement_in_slot",
    "Lips.C19_end_label_drops"
   ],
   "note": ""
  },
  {
   "property": "C20",
   "status": "proved",
   "theorems": [
    "Lips.C20_spinor_strings",
    "Lips.C20_momentum_invariants",
    "Lips.C20_tr5",
    "Lips.C20_images_exist"
   ],
   "note": ""
  },
  {
   "property": "C21",
   "status": "proved",
   "theorems": [
    "Lips.C21_momentum_unchanged",
    "Lips.C21_weight_zero",
    "Lips.C21_string_weight"
   ],
   "note": ""
  },
  {
   "property": "C22",
   "status": "proved",
   "theorems": [
    "Lips.C22_cyclic",
    "Lips.C22_reversal",
    "Lips.C22_two_slots",
    "Lips.C22_trace_is_string",
    "Lips.C22_odd_trace_accepted"
   ],
   "note": "For every even number of slots; odd traces are accepted and frame dependent (C22_odd_trace_accepted)."
  },
  {
   "property": "C23",
   "status": "partial",
   "theorems": [
    "Lips.C23_antisymmetric",
    "Lips.C23_linear_partial",
    "Lips.C23_rotation_flips_sign",
    "Lips.C23_first_slot_not_additive",
    "Lips.C23_two_digit_labels_refused"
   ],
   "note": "Totally antisymmetric on one-digit massless labels and linear in the slots after a one-digit first slot. The full claim is refuted: rotation of the slots loses the sign (C23_rotation_flips_sign, C23_first_slot_not_additive), labels from 10 on are refused (C23_two_digit_labels_refused)."
  },
  {
   "property": "C24",
   "status": "proved",
   "theorems": [
    "Lips.C24_delta5_is_tr5_squared"
   ],
   "note": ""
  },
  {
   "property": "C25",
   "status": "proved",
   "theorems": [
    "Lips.C25_kallen",
    "Lips.C25_permutation"
   ],
   "note": ""
  },
  {
   "property": "C26",
   "status": "proved",
   "theorems": [
    "Lips.C26_det_is_determinant",
    "Lips.C26_det_laws",
    "Lips.C26_empty_matrix"
   ],
   "note": "All non-empty matrices; the empty one gives 0 (C26_empty_matrix)."
  },
  {
   "property": "C27",
   "status": "proved",
   "theorems": [
    "Lips.C27_omega_pi"
   ],
   "note": ""
  },
  {
   "property": "C28",
   "status": "partial",
   "theorems": [
    "Lips.C28_syntax_error_iff",
    "Lips.C28_ascii_brackets_misread"
   ],
   "note": "Exact for the unicode brackets; strings in ASCII angle brackets passed whole are misread and never rejected (C28_ascii_brackets_misread)."
  },
  {
   "property": "C29",
   "status": "proved",
   "theorems": [
    "Lips.C29_open_strings_glue",
    "Lips.C29_completeness"
   ],
   "note": ""
  },
  {
   "property": "C30",
   "status": "partial",
   "theorems": [
    "Lips.C30_ep_is_contraction",
    "Lips.C30_ep_bad_reference",
    "Lips.C30_transverse",
    "Lips.C30_momentum_conservation",
    "Lips.C30_gauge_shift",
    "Lips.C30_ee_is_contraction",
    "Lips.C30_mixed_minus_spelling"
   ],
   "note": "All identities proved; symmetry of ee fails for the mixed spellings '-' and 'm' (C30_mixed_minus_spelling)."
  },
  {
   "property": "C31",
   "status": "partial",
   "theorems": [
    "Lips.C31_ee_terminates_iff",
    "Lips.C31_terminates_partial"
   ],
   "note": "Refuted: C31_ee_terminates_iff characterises termination exactly; '+' with 'p' never returns. C31_terminates_partial covers configurations with one spelling."
  },
  {
   "property": "C32",
   "status": "proved",
   "theorems": [
    "Lips.C32_image_moves",
    "Lips.C32_image_compose",
    "Lips.C32_image_inverse",
    "Lips.C32_rules_compose"
   ],
   "note": ""
  },
  {
   "property": "C33",
   "status": "partial",
   "theorems": [
    "Lips.C33_image_wrong",
    "Lips.C33_image_wrong_value",
    "Lips.C33_all_equal_partial",
    "Lips.C33_right_iff"
   ],
   "note": "Refuted as stated (C33_image_wrong, C33_image_wrong_value); C33_right_iff says exactly when it is right: the permutation sends coinciding particles to labels next to each other, with no other particle between. Points with pairwise distinct momenta are C32."
  },
  {
   "property": "C34",
   "status": "partial",
   "theorems": [
    "Lips.C34_copy_any",
    "Lips.C34_copy_wrong_from_ten",
    "Lips.C34_copy_partial",
    "Lips.C34_copy_empty",
    "Lips.C34_copy_coinciding",
    "Lips.C34_copy_iff"
   ],
   "note": "Settled for every number of particles: copy never raises for a point with particles, and is right if and only if the digits of 123456789101112… at the first coinciding positions do not descend (C34_copy_any); up to nine particles this says that coinciding particles have labels next to each other (C34_copy_iff, C34_copy_partial for pairwise distinct ones). Refuted from ten particles on for distinct momenta (C34_copy_wrong_from_ten), for the empty point (C34_copy_empty) and for coinciding momenta apart (C34_copy_coinciding)."
  },
  {
   "property": "C35",
   "status": "partial",
   "theorems": [
    "Lips.C35_relabel",
    "Lips.C35_swap_strings",
    "Lips.C35_swap_invariants",
    "Lips.C35_shorthand_not_relabelled"
   ],
   "note": "Proved for spinor strings, s, traces, Gram determinants with explicit corners, tr5; refuted for the shorthands with three labels (C35_shorthand_not_relabelled)."
  },
  {
   "property": "C36",
   "status": "proved",
   "theorems": [
    "Lips.C36_inverse",
    "Lips.C36_involution"
   ],
   "note": ""
  },
  {
   "property": "C37",
   "status": "partial",
   "theorems": [
    "Lips.C37_exactly_the_symmetries",
    "Lips.C37_no_repetition",
    "Lips.C37_group",
    "Lips.C37_all_symmetries",
    "Lips.C37_repeats_from_eleven",
    "Lips.C37_exactly_up_to_ten",
    "Lips.C37_no_repetition_up_to_ten",
    "Lips.C37_repeats_iff",
    "Lips.C37_inverse_at_ten"
   ],
   "note": "Proved as stated for up to nine particles. At ten the list is still exact and free of repetition (C37_exactly_up_to_ten, C37_no_repetition_up_to_ten) and not closed under inverse (C37_inverse_at_ten); all_symmetries repeats entries exactly from eleven on (C37_repeats_iff)."
  },
  {
   "property": "C38",
   "status": "proved",
   "theorems": [
    "Lips.C38_get_exact",
    "Lips.C38_step",
    "Lips.C38_histories",
    "Lips.C38_read_after_write"
   ],
   "note": ""
  },
  {
   "property": "C39",
   "status": "partial",
   "theorems": [
    "Lips.C39_insert_partial",
    "Lips.C39_cannot_append"
   ],
   "note": "Refuted at position len+1 (C39_cannot_append); proved for positions 1..len."
  },
  {
   "property": "C40",
   "status": "partial",
   "theorems": [
    "Lips.C40_spinor_read",
    "Lips.C40_spinor_write",
    "Lips.C40_plain_label_partial",
    "Lips.C40_multi_digit_wrong",
    "Lips.C40_plain_write_ignored"
   ],
   "note": "Spinor slots proved; plain labels read correctly only below ten (C40_multi_digit_wrong), and writing through a plain label is ignored (C40_plain_write_ignored)."
  },
  {
   "property": "C41",
   "status": "partial",
   "theorems": [
    "Lips.C41_eq_exact",
    "Lips.C41_equivalence_partial",
    "Lips.C41_not_symmetric"
   ],
   "note": "C41_eq_exact says what __eq__ computes; it is not symmetric and ignores length (C41_not_symmetric). On points of equal length it is an equivalence."
  },
  {
   "property": "C42",
   "status": "proved",
   "theorems": [
    "Lips.C42_complement",
    "Lips.C42_twice"
   ],
   "note": ""
  },
  {
   "property": "C43",
   "status": "proved",
   "theorems": [
    "Lips.C43_three_arcs"
   ],
   "note": ""
  },
  {
   "property": "C44",
   "status": "partial",
   "theorems": [
    "Lips.C44_diverges",
    "Lips.C44_terminates_iff",
    "Lips.C44_terminates_partial"
   ],
   "note": "Refuted: C44_terminates_iff characterises the triples on which the code returns."
  },
  {
   "property": "C45",
   "status": "proved",
   "theorems": [
    "Lips.C45_leg_momentum",
    "Lips.C45_single_leg",
    "Lips.C45_total_momentum",
    "Lips.C45_consistent",
    "Lips.C45_invariants",
    "Lips.C45_two_steps",
    "Lips.C45_succeeds"
   ],
   "note": ""
  },
  {
   "property": "C46",
   "status": "partial",
   "theorems": [
    "Lips.C46_corner_mass_partial",
    "Lips.C46_wrong_from_twelve",
    "Lips.C46_union_of_corners_wrong",
    "Lips.C46_wrong_from_ten"
   ],
   "note": "Proved for up to nine particles and pairwise disjoint corners (C46_corner_mass_partial); refuted for every number of particles from ten on (C46_wrong_from_ten: the tenth corner is written s_10 and read as one and zero; C46_wrong_from_twelve: two corners written alike) and for the mass of a union of corners (C46_union_of_corners_wrong)."
  },
  {
   "property": "C47",
   "status": "proved",
   "theorems": [
    "Lips.C47_completeness",
    "Lips.C47_dirac",
    "Lips.C47_one_state",
    "Lips.C47_swap",
    "Lips.C47_dirac_of_completeness"
   ],
   "note": ""
  },
  {
   "property": "C48",
   "status": "proved",
   "theorems": [
    "Lips.C48_terminates",
    "Lips.C48_outliers",
    "Lips.C48_caller_unchanged",
    "Lips.C48_default_pairs",
    "Lips.C48_default",
    "Lips.C48_default_count",
    "Lips.C48_default_values"
   ],
   "note": ""
  },
  {
   "property": "C49",
   "status": "proved",
   "theorems": [
    "Lips.C49_momentum_conservation_check",
    "Lips.C49_onshell_relation_check",
    "Lips.C49_check_after_fix"
   ],
   "note": ""
  },
  {
   "property": "C50",
   "status": "proved",
   "theorems": [
    "Lips.C50_round_trip",
    "Lips.C50_empty_slot"
   ],
   "note": "An empty slot raises (C50_empty_slot)."
  },
  {
   "property": "C51",
   "status": "partial",
   "theorems": [
    "Lips.C51_dict_partial",
    "Lips.C51_set_aliased",
    "Lips.C51_list_tuple_raise",
    "Lips.C51_other_names_dropped",
    "Lips.C51_property_raises"
   ],
   "note": "Proved for dictionaries whose keys have the form of a mass and are not names of properties without setter, and for sets; such names raise (C51_property_raises), the caller's set is aliased (C51_set_aliased), lists and tuples always raise (C51_list_tuple_raise), other names in a dictionary are not registered (C51_other_names_dropped)."
  },
  {
   "property": "C52",
   "status": "proved",
   "theorems": [
    "Lips.C52_subs_dict",
    "Lips.C52_untouched",
    "Lips.C52_empty_raises",
    "Lips.C52_bold_digits_undone",
    "Lips.C52_no_bold_left"
   ],
   "note": "An empty dictionary raises KeyError (C52_empty_raises)."
  },
  {
   "property": "C53",
   "status": "proved",
   "theorems": [
    "Lips.C53_mandelstams"
   ],
   "note": ""
  },
  {
   "property": "C54",
   "status": "partial",
   "theorems": [
    "Lips.C54_refuted"
   ],
   "note": "Refuted: from ten particles on the list contains names that compute refuses (C54_refuted)."
  },
  {
   "property": "C55",
   "status": "proved",
   "theorems": [
    "Lips.C55_tr5",
    "Lips.C55_five_points",
    "Lips.C55_last_label",
    "Lips.C55_broken_from_eleven"
   ],
   "note": "From eleven particles on, outside the stated range, names with repeated labels are listed (C55_broken_from_eleven)."
  },
  {
   "property": "C56",
   "status": "proved",
   "theorems": [
    "Lips.C56_partitions",
    "Lips.C56_texts"
   ],
   "note": ""
  },
  {
   "property": "C57",
   "status": "proved",
   "theorems": [
    "Lips.C57_two_brackets"
   ],
   "note": ""
  },
  {
   "property": "C58",
   "status": "proved",
   "theorems": [
    "Lips.C58_neighbouring"
   ],
   "note": ""
  },
  {
   "property": "C59",
   "status": "partial",
   "theorems": [
    "Lips.C59_returned_lists_partial",
    "Lips.C59_sequential",
    "Lips.C59_incomplete_file_is_permanent",
    "Lips.C59_crash_leaves_incomplete_file",
    "Lips.C59_failed_generation_leaves_empty_file",
    "Lips.C59_flags_ignored",
    "Lips.C59_unrestricted_bypasses",
    "Lips.C59_complete_file_is_returned"
   ],
   "note": "Proved for every interleaving of processes that are not interrupted while writing (C59_returned_lists_partial, C59_sequential); refuted after a crash or a failed generation and for different flags (C59_incomplete_file_is_permanent, C59_crash_leaves_incomplete_file, C59_failed_generation_leaves_empty_file, C59_flags_ignored)."
  },
  {
   "property": "C60",
   "status": "partial",
   "theorems": [
    "Lips.C60_ten_particles_raise",
    "Lips.C60_up_to_four_partial",
    "Lips.C60_five_points",
    "Lips.C60_six_seven",
    "Lips.C60_eight_nine_partial",
    "Lips.C60_eight_nine_raise"
   ],
   "note": "Settled by particle number: proved up to four particles (C60_up_to_four_partial); from five to nine the combination restrict-without-further-restrict raises TypeError and all others construct, at six and seven for every traversal order of sets (C60_five_points, C60_six_seven), at eight and nine for orders that are never ascending (C60_eight_nine_partial). Refuted at eight and nine for ascending orders (C60_eight_nine_raise) and for every combination from ten on (C60_ten_particles_raise). The block of hard-coded strings at six points enters as a parameter; C117 is about the block. Open at eight and nine: which of the orders that are neither ascending nor descending raise."
  },
  {
   "property": "C61",
   "status": "proved",
   "theorems": [
    "Lips.C61_set_angle",
    "Lips.C61_set_square",
    "Lips.C61_four_particles",
    "Lips.C61_guards"
   ],
   "note": "Exact over every field of characteristic other than two; the guards are needed (C61_guards)."
  },
  {
   "property": "C62",
   "status": "partial",
   "theorems": [
    "Lips.C62_head_one_free",
    "Lips.C62_same_end_one_free_partial",
    "Lips.C62_head_linear",
    "Lips.C62_head_quadratic",
    "Lips.C62_tail_partial",
    "Lips.C62_rewritten_slot"
   ],
   "note": "Proved through the head, linear and quadratic (C62_head_linear, C62_head_quadratic), with one free label (C62_head_one_free), and for the rewriting of a slot (C62_rewritten_slot). Through the tail it holds for an odd number of slots and is refuted for an even one, where minus the value is set (C62_tail_partial). Refuted for ⟨a|..|a] with one free label (C62_same_end_one_free_partial)."
  },
  {
   "property": "C63",
   "status": "partial",
   "theorems": [
    "Lips.C63_first_slot",
    "Lips.C63_last_slot_even_partial",
    "Lips.C63_last_slot_odd_partial"
   ],
   "note": "Proved for the first slot (C63_first_slot). Refuted for the last slot, outside the stated range: even strings get minus the value, odd ones raise (C63_last_slot_even_partial, C63_last_slot_odd_partial)."
  },
  {
   "property": "C64",
   "status": "partial",
   "theorems": [
    "Lips.C64_set_mandelstam",
    "Lips.C64_room",
    "Lips.C64_all_but_one_partial"
   ],
   "note": "Proved for at most n-2 labels (C64_set_mandelstam, C64_room); with n-1 labels the invariant vanishes identically and cannot be set (C64_all_but_one_partial)."
  },
  {
   "property": "C65",
   "status": "partial",
   "theorems": [
    "Lips.C65_set_delta",
    "Lips.C65_single_label_corner_partial"
   ],
   "note": "Proved for corners with at least two labels in the first (C65_set_delta); a first corner with one label raises (C65_single_label_corner_partial)."
  },
  {
   "property": "C66",
   "status": "proved",
   "theorems": [
    "Lips.C66_set_omega",
    "Lips.C66_set_pi"
   ],
   "note": "Whichever square root the field returns; without a root the method raises."
  },
  {
   "property": "C67",
   "status": "partial",
   "theorems": [
    "Lips.C67_five_points_partial",
    "Lips.C67_five_points_even",
    "Lips.C67_five_points_odd_wrong",
    "Lips.C67_five_points_returns",
    "Lips.C67_few_points",
    "Lips.C67_six_points"
   ],
   "note": "Proved at six points and above (C67_six_points) and for even orderings at five points (C67_five_points_even); refuted for odd orderings, which get the opposite value (C67_five_points_odd_wrong)."
  },
  {
   "property": "C68",
   "status": "partial",
   "theorems": [
    "Lips.C68_set",
    "Lips.C68_set_pair_partial",
    "Lips.C68_set_pair_replaced",
    "Lips.C68_variety_partial",
    "Lips.C68_variety_finite_ignores_values"
   ],
   "note": "Proved for _set (C68_set). For _set_pair only for the strings that the inner method put in place of those asked for (C68_set_pair_partial, C68_set_pair_replaced); for variety the requested values are not looked at over a finite field (C68_variety_partial, C68_variety_finite_ignores_values)."
  },
  {
   "property": "C69",
   "status": "partial",
   "theorems": [
    "Lips.C69_fallback",
    "Lips.C69_not_allowed_returns",
    "Lips.C69_not_allowed_partial"
   ],
   "note": "The fallback is proved (C69_fallback); without it variety can return normally after the hard-coded solver raised (C69_not_allowed_returns, C69_not_allowed_partial)."
  },
  {
   "property": "C70",
   "status": "partial",
   "theorems": [
    "Lips.C70_exchanged_not_kept",
    "Lips.C70_contained_not_kept",
    "Lips.C70_set",
    "Lips.C70_exchanged",
    "Lips.C70_exchanged_six",
    "Lips.C70_step_partial"
   ],
   "note": "Every recursive call keeps both requests up to sign except in the listed cases (C70_step_partial); refuted when the second list is shorter (C70_exchanged, C70_exchanged_six)."
  },
  {
   "property": "C71",
   "status": "partial",
   "theorems": [
    "Lips.C71_stops",
    "Lips.C71_loops_at_four"
   ],
   "note": "Proved from five particles on, with at most four recursive calls (C71_stops); refuted for four particles (C71_loops_at_four)."
  },
  {
   "property": "C72",
   "status": "proved",
   "theorems": [
    "Lips.C72_safe",
    "Lips.C72_fix"
   ],
   "note": ""
  },
  {
   "property": "C73",
   "status": "partial",
   "theorems": [
    "Lips.C73_covariant",
    "Lips.C73_covariant_compose",
    "Lips.C73_literal_fails",
    "Lips.C73_invariant",
    "Lips.C73_invariant_conjugate_partial",
    "Lips.C73_conjugate_sign"
   ],
   "note": "Proved for component polynomials and all rules with n <= 9 in the form image(f)(image p) = f(p), with composition, and for bracket polynomials under rules without exchange, signs included. The literal form image(f)(p) = f(image p) is refuted (three-cycle). With exchange of angle and square brackets the bracket image has the opposite sign for every bracket (C73_conjugate_sign)."
  },
  {
   "property": "C74",
   "status": "partial",
   "theorems": [
    "Lips.C74_two_digits_wrong",
    "Lips.C74_one_digit_partial"
   ],
   "note": "Refuted for every n >= 10 (a10 becomes a20 under the exchange of 1 and 2); the part about one-digit labels moved among themselves is proved."
  },
  {
   "property": "C75",
   "status": "partial",
   "theorems": [
    "Lips.C75_covariant",
    "Lips.C75_invariant",
    "Lips.C75_invariant_none"
   ],
   "note": "Proved for all n for components and for all n >= 1 for brackets, where the square root is assumed exact on the perfect square it is applied to. For n = 0 the bracket ring gives multiplicity one (C75_invariant_none)."
  },
  {
   "property": "C76",
   "status": "proved",
   "theorems": [
    "Lips.C76_write_then_read",
    "Lips.C76_missing_component",
    "Lips.C76_symbols_and_back"
   ],
   "note": "For massless points; a symbol and its name are the same key. The internal masses that subs also replaces are not modelled."
  },
  {
   "property": "C77",
   "status": "proved",
   "theorems": [
    "Lips.C77_univariate_slice",
    "Lips.C77_conditions_necessary"
   ],
   "note": "The shift after substitution; finding the parameters with Singular is not modelled. The conditions are also necessary over an infinite field (C77_conditions_necessary)."
  },
  {
   "property": "C78",
   "status": "partial",
   "theorems": [
    "Lips.C78_y2_never_enters",
    "Lips.C78_others_enter_partial",
    "Lips.C78_bivariate_slice"
   ],
   "note": "Refuted: the parameters y2 never enter (C78_y2_never_enters). The other three families enter (C78_others_enter_partial); the slice still conserves momentum, with a mixed term in the brackets (C78_bivariate_slice)."
  },
  {
   "property": "C79",
   "status": "proved",
   "theorems": [
    "Lips.C79_twistor",
    "Lips.C79_returns",
    "Lips.C79_parallel_neighbours"
   ],
   "note": "For all numbers of particles. It returns in the symmetric convention and over fields with 1j (C79_returns)."
  },
  {
   "property": "C80",
   "status": "proved",
   "theorems": [
    "Lips.C80_random_momentum",
    "Lips.C80_redraws",
    "Lips.C80_spinors_may_be_missing"
   ],
   "note": "The momentum is massless and not excluded for any draws and any square root; the spinors can still be missing (C80_spinors_may_be_missing)."
  },
  {
   "property": "C81",
   "status": "partial",
   "theorems": [
    "Lips.C81_value_partial",
    "Lips.C81_defined_partial",
    "Lips.C81_division_by_zero",
    "Lips.C81_rational",
    "Lips.C81_fraction_power",
    "Lips.C81_fraction_divisor",
    "Lips.C81_fraction_exponent",
    "Lips.C81_integer_quotient",
    "Lips.C81_reading",
    "Lips.C81_long_exponent",
    "Lips.C81_read_iff",
    "Lips.C81_exact",
    "Lips.C81_characteristic",
    "Lips.C81_grammar",
    "Lips.C81_raises",
    "Lips.C81_raises_first",
    "Lips.C81_over_zero",
    "Lips.C81_zero_power"
   ],
   "note": "As stated the property fails where quotients of two integer literals are divisors, exponents or raised to powers, where the result is a float and, for the converse, in nonzero characteristic (C81_fraction_power, C81_fraction_divisor, C81_fraction_exponent, C81_integer_quotient, C81_characteristic); C81_value_partial and C81_defined_partial leave these out. C81_reading, C81_read_iff and C81_exact say for all texts how they are read: with the quotients of literals taken first, and not at all when an exponent of several digits is divided by a literal. The grammar part (C81_grammar) holds for all texts."
  },
  {
   "property": "C82",
   "status": "partial",
   "theorems": [
    "Lips.C82_bold",
    "Lips.C82_angle",
    "Lips.C82_square",
    "Lips.C82_spinors",
    "Lips.C82_string",
    "Lips.C82_mandelstam",
    "Lips.C82_two_digit_mandelstam",
    "Lips.C82_shorthands",
    "Lips.C82_delta",
    "Lips.C82_mass_name",
    "Lips.C82_mass_shadowed",
    "Lips.C82_tr5",
    "Lips.C82_tr5_labels",
    "Lips.C82_tr",
    "Lips.C82_open_begin",
    "Lips.C82_open_end",
    "Lips.C82_open_parentheses_missed"
   ],
   "note": "Proved for brackets, spinors, closed strings, traces, tr5, open strings, s, the Gram shorthands and masses; refuted for two-digit labels of s_ij (C82_two_digit_mandelstam), for a registered mass called like m1 (C82_mass_shadowed) and for open strings with several slots in parentheses (C82_open_parentheses_missed)."
  },
  {
   "property": "C83",
   "status": "partial",
   "theorems": [
    "Lips.C83_third_save_overwrites",
    "Lips.C83_first_save_kept_partial",
    "Lips.C83_two_saves_partial",
    "Lips.C83_names_distinct",
    "Lips.C83_other_invariants_kept",
    "Lips.C83_history",
    "Lips.C83_only_these"
   ],
   "note": "Settled for every history of saves: of the points saved for an invariant exactly the first and the last are left, and no other file is written (C83_history, C83_only_these). So the claim is refuted from the third save on (C83_third_save_overwrites) and holds for two (C83_two_saves_partial, C83_first_save_kept_partial); saves of other invariants, whose file names differ, do not matter (C83_names_distinct, C83_other_invariants_kept)."
  },
  {
   "property": "C84",
   "status": "proved",
   "theorems": [
    "Lips.C84_symbols_where_zero",
    "Lips.C84_default",
    "Lips.C84_short_mask"
   ],
   "note": "For massless points; a mask that is too short raises IndexError (C84_short_mask)."
  },
  {
   "property": "C85",
   "status": "partial",
   "theorems": [
    "Lips.C85_parentheses_partial",
    "Lips.C85_minus_before_parenthesis",
    "Lips.C85_wrong_by"
   ],
   "note": "Proved when no minus sign stands before a parenthesis (C85_parentheses_partial); refuted otherwise (C85_minus_before_parenthesis, C85_wrong_by)."
  },
  {
   "property": "C86",
   "status": "proved",
   "theorems": [
    "Lips.C86_safe",
    "Lips.C86_fix"
   ],
   "note": ""
  },
  {
   "property": "C87",
   "status": "partial",
   "theorems": [
    "Lips.C87_separate",
    "Lips.C87_shared",
    "Lips.C87_same_labels",
    "Lips.C87_one_free",
    "Lips.C87_one_free_shared",
    "Lips.C87_none_free_square",
    "Lips.C87_shared_head_partial",
    "Lips.C87_none_free_checked"
   ],
   "note": "Proved with two free labels (C87_separate, C87_shared), with one free label when the first label is not in the second bracket (C87_one_free, C87_one_free_shared), without a free label for a square first bracket (C87_none_free_square); the same two labels raise (C87_same_labels). Refuted where momentum conservation is restored through a label of both (C87_shared_head_partial)."
  },
  {
   "property": "C88",
   "status": "partial",
   "theorems": [
    "Lips.C88_two_free",
    "Lips.C88_six_disjoint",
    "Lips.C88_one_free",
    "Lips.C88_shared_head_partial",
    "Lips.C88_two_labels_partial",
    "Lips.C88_disjoint_refused",
    "Lips.C88_none_free_checked"
   ],
   "note": "Proved with two free labels, at six points with disjoint labels, and with one free label not shared (C88_two_free, C88_six_disjoint, C88_one_free); other disjoint requests raise. Refuted with one free label and a shared first label (C88_shared_head_partial); s of two labels is not set (C88_two_labels_partial)."
  },
  {
   "property": "C89",
   "status": "partial",
   "theorems": [
    "Lips.C89_two_free",
    "Lips.C89_contained_partial",
    "Lips.C89_one_free",
    "Lips.C89_exchanged_partial",
    "Lips.C89_no_free_partial"
   ],
   "note": "Proved with two labels in neither, when the second has a label that the first has not (C89_two_free), and for _set_pair as a whole with one label in neither, when the first is not the longer one and the second has two labels that the first has not (C89_one_free). Refuted when the second is contained in the first (C89_contained_partial), when the two have all labels together (C89_no_free_partial), and with one label in neither when the first is longer: the values are exchanged (C89_exchanged_partial). Not covered: at most one label in neither and at most one label only in the second, that is, invariants of n - 2 labels or more."
  },
  {
   "property": "C90",
   "status": "partial",
   "theorems": [
    "Lips.C90_middle",
    "Lips.C90_longer",
    "Lips.C90_longer_partial",
    "Lips.C90_square_partial",
    "Lips.C90_ends",
    "Lips.C90_ends_back",
    "Lips.C90_stale_partial",
    "Lips.C90_refused",
    "Lips.C90_custom",
    "Lips.C90_custom_partial",
    "Lips.C90_flipped_partial"
   ],
   "note": "Proved with two free labels: a label only in the middle of the second (C90_middle, C90_longer), equal middles (C90_ends, C90_ends_back), the strings ⟨A|(B+C)|A] and ⟨B|(A+C)|B] (C90_custom). Refuted in six cases (C90_longer_partial, C90_square_partial, C90_stale_partial, C90_refused, C90_custom_partial, C90_flipped_partial). With fewer than two free labels see C86."
  },
  {
   "property": "C91",
   "status": "proved",
   "theorems": [
    "Lips.C91_set",
    "Lips.C91_set_without_fix",
    "Lips.C91_not_conserving_partial"
   ],
   "note": "From points that conserve momentum (C91_set), and without restoring conservation from every massless point (C91_set_without_fix); what happens from other points is C91_not_conserving_partial."
  },
  {
   "property": "C92",
   "status": "proved",
   "theorems": [
    "Lips.C92_unique",
    "Lips.C92_reads",
    "Lips.C92_expression",
    "Lips.C92_slot"
   ],
   "note": "The regular expressions are transcribed as languages (Mathlib's Language); the matchers of the model are proved to accept exactly those. \\d is an ASCII digit, $ does not allow a final newline."
  },
  {
   "property": "C93",
   "status": "partial",
   "theorems": [
    "Lips.C93_unique",
    "Lips.C93_reads",
    "Lips.C93_ignored",
    "Lips.C93_agrees",
    "Lips.C93_check_raises",
    "Lips.C93_check_passes",
    "Lips.C93_refused",
    "Lips.C93_returns",
    "Lips.C93_angle",
    "Lips.C93_square",
    "Lips.C93_string_head",
    "Lips.C93_string_quadratic",
    "Lips.C93_string_middle",
    "Lips.C93_string_tail_raises",
    "Lips.C93_mandelstam",
    "Lips.C93_two_labels",
    "Lips.C93_delta",
    "Lips.C93_delta_short",
    "Lips.C93_omega",
    "Lips.C93_pi",
    "Lips.C93_tr5",
    "Lips.C93_tr5_five_partial",
    "Lips.C93_tr5_spellings",
    "Lips.C93_five_brackets_inner",
    "Lips.C93_five_brackets",
    "Lips.C93_unknown"
   ],
   "note": "Fails at tr5 at five points in odd orders, where the code raises (C93_tr5_five_partial). Differences of five-brackets: _set for one-digit labels (C93_five_brackets), _set_inner for all (C93_five_brackets_inner). Texts outside the model are listed in the header of Model/SetText."
  },
  {
   "property": "C94",
   "status": "partial",
   "theorems": [
    "Lips.C94_leaf_raises",
    "Lips.C94_raises",
    "Lips.C94_mass_name",
    "Lips.C94_mass_name_wrong",
    "Lips.C94_parse",
    "Lips.C94_eval",
    "Lips.C94_value_partial",
    "Lips.C94_defined_partial",
    "Lips.C94_single",
    "Lips.C94_leaf",
    "Lips.C94_call_partial",
    "Lips.C94_mass_twice",
    "Lips.C94_gram_twice",
    "Lips.C94_two_digits",
    "Lips.C94_trace_slots",
    "Lips.C94_exact",
    "Lips.C94_long_exponent",
    "Lips.C94_call_exact",
    "Lips.C94_names"
   ],
   "note": "As for C81 the value by ordinary arithmetic is not what comes out where _parse takes quotients of literals first, and the converse fails in nonzero characteristic; C94_value_partial, C94_call_partial and C94_defined_partial leave these out, C94_exact, C94_long_exponent and C94_call_exact cover all texts. The parsing itself (C94_parse, C94_eval, C94_names, C94_leaf) is complete for the texts in Spec/Leaves. Names of internal masses alone are in C94_mass_name, with ms2 as a case that fails in C94_mass_name_wrong."
  },
  {
   "property": "C95",
   "status": "proved",
   "theorems": [
    "Lips.C95_order",
    "Lips.C95_first_corner",
    "Lips.C95_two_delta",
    "Lips.C95_single_label_partial"
   ],
   "note": "C95_two_delta is the claim; C95_single_label_partial is the case of one label in the corner named first, in which the method raises. The guards on Δ are stated at the point reached after the bracket is set."
  },
  {
   "property": "C96",
   "status": "partial",
   "theorems": [
    "Lips.C96_three_delta_partial",
    "Lips.C96_ends",
    "Lips.C96_negated_partial"
   ],
   "note": "C96_ends holds without hypotheses on labels for a string with different ends one of which is the first label of a corner. Elsewhere the code does not make sure that the particle changed for Δ leaves the string alone (hypothesis Undisturbed; Examples/PairDelta has a string for which it fails), and C96_negated_partial proves the opposite sign after momentum conservation is used on the string."
  },
  {
   "property": "C97",
   "status": "partial",
   "theorems": [
    "Lips.C97_two_free",
    "Lips.C97_complement",
    "Lips.C97_negated_partial",
    "Lips.C97_again",
    "Lips.C97_contained_partial",
    "Lips.C97_none_free_checked",
    "Lips.C97_one_free",
    "Lips.C97_not_conserving_partial"
   ],
   "note": "Proved with two labels free, as given or with the complement of the invariant, and with one label free and an end outside the invariant. The remaining cases are proved not to give the values or momentum conservation (theorems with suffix _partial); with no free label only that momentum is conserved when the method returns is proved."
  },
  {
   "property": "C98",
   "status": "partial",
   "theorems": [
    "Lips.C98_plan",
    "Lips.C98_reached",
    "Lips.C98_other_kind",
    "Lips.C98_same_kind",
    "Lips.C98_turned_partial",
    "Lips.C98_middle",
    "Lips.C98_three",
    "Lips.C98_returns",
    "Lips.C98_three_returns",
    "Lips.C98_disturbed_partial",
    "Lips.C98_unfixable_partial"
   ],
   "note": "Proved for the choice of string, for the values reached whenever the method returns, and for returning. For strings with both ends of the two-bracket's kind and two labels free, both values are shown to be reached if the end that is set, or the label of the first slot that is changed, is not one of the two-bracket (C98_same_kind, C98_middle); when the string is turned round it gets the opposite value (C98_turned_partial), one case in which the two-bracket is disturbed is proved (C98_disturbed_partial), and without a way to restore momentum conservation it is not conserved (C98_unfixable_partial). Returning is proved for strings set through their head."
  },
  {
   "property": "C99",
   "status": "proved",
   "theorems": [
    "Lips.C99_mandel_gram",
    "Lips.C99_not_implemented",
    "Lips.C99_six",
    "Lips.C99_needs_mpmath"
   ],
   "note": "Corners of two labels (all of six points) and, at any multiplicity, two corners of two labels with s_ABC or its complement. Longer corners, for which the formulas set s_ABC of the first labels instead, are not treated."
  },
  {
   "property": "C100",
   "status": "proved",
   "theorems": [
    "Lips.C100_string_gram",
    "Lips.C100_two_strings",
    "Lips.C100_other"
   ],
   "note": "All eight pairs of texts; the case of a missing square root included."
  },
  {
   "property": "C101",
   "status": "partial",
   "theorems": [
    "Lips.C101_answers",
    "Lips.C101_order",
    "Lips.C101_not_implemented",
    "Lips.C101_refuses",
    "Lips.C101_returns",
    "Lips.C101_sound",
    "Lips.C101_exchanged_partial"
   ],
   "note": "Proved as stated, for invariants that are read already; the claim that a normal return means the values asked for fails when all labels of a three-bracket are among those of the Mandelstam invariant (C101_exchanged_partial), and C101_sound has that case as an alternative. The two tables of texts may take more fuel to read a text; their results are C100."
  },
  {
   "property": "C102",
   "status": "proved",
   "theorems": [
    "Lips.C102_values",
    "Lips.C102_zero_locus",
    "Lips.C102_defined",
    "Lips.C102_singular_variety",
    "Lips.C102_contains",
    "Lips.C102_members"
   ],
   "note": "Covariants are given as data, without divisions and with Gram determinants only on their own; sympy and Singular are trusted to read an expression as the polynomial it is, point_on_variety to return a common zero."
  },
  {
   "property": "C103",
   "status": "proved",
   "theorems": [
    "Lips.C103_conversion",
    "Lips.C103_membership",
    "Lips.C103_vanishes",
    "Lips.C103_schouten",
    "Lips.C103_momentum"
   ],
   "note": "eliminate is assumed to return the elimination ideal of the component variables; covariants as in C102."
  },
  {
   "property": "C104",
   "status": "proved",
   "theorems": [
    "Lips.C104_one_polynomial",
    "Lips.C104_image",
    "Lips.C104_zeros",
    "Lips.C104_group",
    "Lips.C104_covariants",
    "Lips.C104_call",
    "Lips.C104_class",
    "Lips.C104_class_size"
   ],
   "note": "Equality of ideals is decided by the package syngular and is an argument of the model."
  },
  {
   "property": "C105",
   "status": "proved",
   "theorems": [
    "Lips.C105_equations",
    "Lips.C105_defined",
    "Lips.C105_univariate",
    "Lips.C105_bivariate",
    "Lips.C105_generic",
    "Lips.C105_retry"
   ],
   "note": "point_on_variety and univariate_slice of the package syngular are arguments assumed to return common zeros; constraints are given as data, without divisions. The loop that draws again is cut after any number of rounds."
  },
  {
   "property": "C106",
   "status": "partial",
   "theorems": [
    "Lips.C106_value",
    "Lips.C106_scalar",
    "Lips.C106_numbers",
    "Lips.C106_slice",
    "Lips.C106_entry",
    "Lips.C106_refuses",
    "Lips.C106_shapes",
    "Lips.C106_types",
    "Lips.C106_spread_partial",
    "Lips.C106_glue",
    "Lips.C106_glue_middle",
    "Lips.C106_linear",
    "Lips.C106_glue_middle_partial",
    "Lips.C106_spin_index",
    "Lips.C106_flip_one",
    "Lips.C106_flip_partial",
    "Lips.C106_reads",
    "Lips.C106_unambiguous",
    "Lips.C106_open_end_wrong",
    "Lips.C106_open_end_iff",
    "Lips.C106_open_begin_wrong",
    "Lips.C106_open_begin_iff",
    "Lips.C106_open_end",
    "Lips.C106_open_begin",
    "Lips.C106_open_spinor",
    "Lips.C106_double_open",
    "Lips.C106_nine_partial",
    "Lips.C106_nine_wrong",
    "Lips.C106_two_digits_wrong",
    "Lips.C106_spin_text",
    "Lips.C106_spin_touch",
    "Lips.C106_spin_parse"
   ],
   "note": "proved for every expression with a meaning in matrix algebra (C106_value, C106_scalar, C106_numbers), for strings cut in two or three pieces (C106_glue, C106_glue_middle, C106_linear), spin indices also on texts (C106_spin_index, C106_spin_text, C106_spin_touch, C106_spin_parse), names with open indices on texts (C106_open_spinor, C106_double_open, C106_open_end, C106_open_begin; C106_open_end_iff and C106_open_begin_iff say which pieces with one open index are found), refusals. The code violates the claim for sums of unlike shapes (C106_spread_partial), for double-open pieces after a plain square bracket at an even place (C106_glue_middle_partial, C106_square_wrong) and for several slots after [i^| (C106_flip_partial), and for a slot after [i^| from label nine on (C106_nine_partial, C106_nine_wrong)."
  },
  {
   "property": "C107",
   "status": "partial",
   "theorems": [
    "Lips.C107_one_polynomial",
    "Lips.C107_image",
    "Lips.C107_moves",
    "Lips.C107_group",
    "Lips.C107_zeros_partial",
    "Lips.C107_zeros",
    "Lips.C107_slice_partial",
    "Lips.C107_slice",
    "Lips.C107_invariants",
    "Lips.C107_exchange_wrong",
    "Lips.C107_call",
    "Lips.C107_call_raises"
   ],
   "note": "proved for permutations and texts in full (C107_image, C107_moves, C107_group, C107_zeros, C107_slice, C107_invariants, C107_one_polynomial); with an exchange of angle and square brackets the zeros and slices agree for homogeneous generators (C107_zeros_partial, C107_slice_partial) and the code violates the claim otherwise (C107_exchange_wrong)"
  },
  {
   "property": "C108",
   "status": "partial",
   "theorems": [
    "Lips.C108_one_number",
    "Lips.C108_file_quotes",
    "Lips.C108_file_partial",
    "Lips.C108_momenta",
    "Lips.C108_spinors"
   ],
   "note": "declarations of momenta and spinors proved in full (C108_momenta, C108_spinors, C108_one_number); the files of save_phase_space_point are right up to quotes (C108_file_partial) and the code violates the claim because of these quotes (C108_file_quotes)"
  },
  {
   "property": "C109",
   "status": "proved",
   "theorems": [
    "Lips.C109_fix",
    "Lips.C109_construct",
    "Lips.C109_new",
    "Lips.C109_construct_real",
    "Lips.C109_new_real",
    "Lips.C109_randomise_all",
    "Lips.C109_no_fix",
    "Lips.C109_one",
    "Lips.C109_two",
    "Lips.C109_three"
   ],
   "note": "for exact arithmetic; real momenta are C11, random momenta in the complex numbers C80"
  },
  {
   "property": "C110",
   "status": "proved",
   "theorems": [
    "Lips.C110_list",
    "Lips.C110_one_of_two",
    "Lips.C110_value",
    "Lips.C110_complete",
    "Lips.C110_restricted"
   ],
   "note": "Up to nine particles, as stated: from ten on labels have two digits and the comparison of slots by characters has no meaning (C60_ten_particles_raise)."
  },
  {
   "property": "C111",
   "status": "partial",
   "theorems": [
    "Lips.C111_reverse",
    "Lips.C111_complement",
    "Lips.C111_factor",
    "Lips.C111_one_apart",
    "Lips.C111_three",
    "Lips.C111_value",
    "Lips.C111_mandelstam",
    "Lips.C111_removed_equal",
    "Lips.C111_removed_factor",
    "Lips.C111_list",
    "Lips.C111_descending",
    "Lips.C111_six",
    "Lips.C111_equal_ends",
    "Lips.C111_different_ends_partial",
    "Lips.C111_six_missing",
    "Lips.C111_nine_twice",
    "Lips.C111_seven_ascending"
   ],
   "note": "Exact for equal ends (C111_removed_equal, C111_equal_ends) and for six points or descending order (C111_six, C111_descending); completeness is false for different ends (C111_six_missing) and for equal ends in ascending order at seven points (C111_seven_ascending). What is missing: which strings with equal ends and disjoint slots are lost for other orders and at eight and nine points."
  },
  {
   "property": "C112",
   "status": "partial",
   "theorems": [
    "Lips.C112_step",
    "Lips.C112_history_partial",
    "Lips.C112_history_assigns_partial",
    "Lips.C112_untouched",
    "Lips.C112_copy",
    "Lips.C112_alone_step",
    "Lips.C112_isolated",
    "Lips.C112_make_analytical",
    "Lips.C112_subs",
    "Lips.C112_slice_shared",
    "Lips.C112_cluster_shared",
    "Lips.C112_cluster_stale",
    "Lips.C112_assigned_shared"
   ],
   "note": "C112_step, C112_history_partial, C112_history_assigns_partial and C112_untouched for all programs without sharing; C112_copy, C112_alone_step and C112_isolated for copies in any memory; C112_make_analytical and C112_subs tie the loops to Model/Components. The claim for all programs is refuted by C112_slice_shared, C112_cluster_shared with C112_cluster_stale, and C112_assigned_shared. Massive fermions, and the four-momentum written into by twist_x_to_mom, are left out."
  },
  {
   "property": "C113",
   "status": "proved",
   "theorems": [
    "Lips.C113_list",
    "Lips.C113_once",
    "Lips.C113_texts",
    "Lips.C113_texts_once",
    "Lips.C113_generated",
    "Lips.C113_complete",
    "Lips.C113_mandelstams",
    "Lips.C113_reverse",
    "Lips.C113_value"
   ],
   "note": "All multiplicities. The order of the labels in the third slot is the order of a Python set; C113_value holds for any order."
  },
  {
   "property": "C114",
   "status": "proved",
   "theorems": [
    "Lips.C114_restricted",
    "Lips.C114_one_slot",
    "Lips.C114_two_slots",
    "Lips.C114_three_slots",
    "Lips.C114_others",
    "Lips.C114_misplaced",
    "Lips.C114_joined"
   ],
   "note": "For every run of the constructor that succeeds (C60 says when it does). The content of the list with two slots refers to all_strings (C111), since which doubles are left depends on the order of sets; what the check of hard-coded strings at six points returns is a parameter."
  },
  {
   "property": "C115",
   "status": "partial",
   "theorems": [
    "Lips.C115_step",
    "Lips.C115_history_partial",
    "Lips.C115_shared_set",
    "Lips.C115_property_registered"
   ],
   "note": "C115_history_partial (all clean programs), C115_step (one command, does not raise). The claim without conditions is false: C115_shared_set, C115_property_registered. What subs does to one value is a parameter."
  },
  {
   "property": "C116",
   "status": "proved",
   "theorems": [
    "Lips.C116_usable",
    "Lips.C116_room"
   ],
   "note": "The points are massless and otherwise arbitrary; conservation of momentum is not needed. Whether _set then succeeds depends on the guards of C61-C67."
  },
  {
   "property": "C117",
   "status": "proved",
   "theorems": [
    "Lips.C117_added",
    "Lips.C117_ends",
    "Lips.C117_returns",
    "Lips.C117_new",
    "Lips.C117_not_listed",
    "Lips.C117_six",
    "Lips.C117_unrestricted"
   ],
   "note": "Around any solver, any draws and any evaluation. C117_new needs that values within the tolerance of the one asked for count as small, as 10^-30 does; C117_unrestricted needs exact arithmetic."
  },
  {
   "property": "C118",
   "status": "partial",
   "theorems": [
    "Lips.C118_returns",
    "Lips.C118_raises",
    "Lips.C118_spinors",
    "Lips.C118_same",
    "Lips.C118_values",
    "Lips.C118_conserves",
    "Lips.C118_round_trip",
    "Lips.C118_massive",
    "Lips.C118_mass_lost",
    "Lips.C118_padic"
   ],
   "note": "Proved for massless points (C118_returns, C118_spinors, C118_same, C118_values, C118_conserves, C118_round_trip, and C118_padic for p-adic numbers). Refuted for massive particles, which come back massless (C118_massive, C118_mass_lost)."
  },
  {
   "property": "C119",
   "status": "proved",
   "theorems": [
    "Lips.C119_subs",
    "Lips.C119_polynomials",
    "Lips.C119_analytical"
   ],
   "note": "C119_subs for any ring of components in which 2 is invertible; C119_polynomials for polynomials over a field; C119_analytical from the numerical point over make_analytical_d and back. Massless points, texts of the model of compute."
  },
  {
   "property": "C120",
   "status": "proved",
   "theorems": [
    "Lips.C120_values",
    "Lips.C120_padic",
    "Lips.C120_fields",
    "Lips.C120_symbols"
   ],
   "note": "C120_values for any conversion by ring homomorphisms with 2 invertible and units reflected; C120_padic, C120_fields, C120_symbols its cases. Texts of the model of compute and of expressions; values the model of expressions does not follow (floats, roots) correspond trivially."
  },
  {
   "property": "C121",
   "status": "proved",
   "theorems": [
    "Lips.C121_text",
    "Lips.C121_expression",
    "Lips.C121_not_invariant"
   ],
   "note": "for every text; the two conditions on traces and strings are shown to be needed"
  },
  {
   "property": "C122",
   "status": "proved",
   "theorems": [
    "Lips.C122_little_group_written",
    "Lips.C122_dimension_written",
    "Lips.C122_little_group",
    "Lips.C122_little_group_expression",
    "Lips.C122_dimension",
    "Lips.C122_dimension_expression"
   ],
   "note": "for every text of an invariant and every expression that has a weight"
  },
  {
   "property": "C123",
   "status": "proved",
   "theorems": [
    "Lips.C123_set",
    "Lips.C123_pair",
    "Lips.C123_pair_inner",
    "Lips.C123_step",
    "Lips.C123_history",
    "Lips.C123_good"
   ],
   "note": "All setters for all texts and pairs, fix_mom_cons (complex branch), image and angles_for_squares; calls that raise end the history."
  },
  {
   "property": "C124",
   "status": "proved",
   "theorems": [
    "Lips.C124_returns",
    "Lips.C124_known",
    "Lips.C124_shell",
    "Lips.C124_untouched",
    "Lips.C124_frame",
    "Lips.C124_momentum",
    "Lips.C124_angle_raises",
    "Lips.C124_pair_returns",
    "Lips.C124_pair_known",
    "Lips.C124_pair_shell",
    "Lips.C124_pair_frame",
    "Lips.C124_pair_not",
    "Lips.C124_pair_raises",
    "Lips.C124_step",
    "Lips.C124_run",
    "Lips.C124_run_known",
    "Lips.C124_history",
    "Lips.C124_recover",
    "Lips.C124_stays",
    "Lips.C124_stays_string",
    "Lips.C124_stays_mandelstam",
    "Lips.C124_fix_atomic",
    "Lips.C124_pair_stays",
    "Lips.C124_pair_stays_mandelstam",
    "Lips.C124_pair_unfixable",
    "Lips.C124_string_unfixable",
    "Lips.C124_mandelstam_unfixable"
   ],
   "note": "All setters of one or two invariants and fix_mom_cons (complex branch); over any sequence of calls."
  },
  {
   "property": "C125",
   "status": "proved",
   "theorems": [
    "Lips.C125_covariant",
    "Lips.C125_compute",
    "Lips.C125_array",
    "Lips.C125_invariant",
    "Lips.C125_text",
    "Lips.C125_massive",
    "Lips.C125_not_invariant"
   ],
   "note": "Induction on the rules for indices in Spec/Indices (Typed); texts by C125_text once the text is read as the tree. The non-invariance of expressions whose indices do not fit is C125_not_invariant."
  },
  {
   "property": "C126",
   "status": "proved",
   "theorems": [
    "Lips.C126_shorthand",
    "Lips.C126_names",
    "Lips.C126_expression",
    "Lips.C126_text",
    "Lips.C126_image",
    "Lips.C126_written",
    "Lips.C126_call"
   ],
   "note": "all names except the shorthands, for which the claim is refuted (C126_shorthand); written expressions of invariants by C126_written and C126_call; for texts with open indices the syntax trees of the two texts are given (C126_text)"
  },
  {
   "property": "C127",
   "status": "proved",
   "theorems": [
    "Lips.C127_invariant",
    "Lips.C127_written",
    "Lips.C127_call",
    "Lips.C127_image"
   ],
   "note": "for texts that are read as an expression (readText); which exception a text that is no expression raises is not compared"
  },
  {
   "property": "C128",
   "status": "proved",
   "theorems": [
    "Lips.C128_scaled",
    "Lips.C128_little_group",
    "Lips.C128_dimension",
    "Lips.C128_text",
    "Lips.C128_values"
   ],
   "note": "massive spinors, whose two components come from two massless particles, have a number of spinors but no little-group weight for one of them"
  },
  {
   "property": "C129",
   "status": "proved",
   "theorems": [
    "Lips.C129_transposed",
    "Lips.C129_compute",
    "Lips.C129_text",
    "Lips.C129_values"
   ],
   "note": "Open strings with an even number of slots and no end have no mirror image among the names; blocks are those with one row or one column of two entries, which is what massive spinors are written with. The kind of an exception may differ, as the factors are evaluated in the opposite order."
  },
  {
   "property": "C130",
   "status": "partial",
   "theorems": [
    "Lips.C130_members",
    "Lips.C130_zero_step",
    "Lips.C130_order",
    "Lips.C130_get",
    "Lips.C130_labels_partial",
    "Lips.C130_prefix",
    "Lips.C130_not_base_one",
    "Lips.C130_point",
    "Lips.C130_set_extended",
    "Lips.C130_set",
    "Lips.C130_del",
    "Lips.C130_del_labels_partial"
   ],
   "note": "Positions, order, reading, writing and deleting are shown for all slices; that ps[a:b] holds labels a to b-1 and keeps internal masses is refuted (C130_not_base_one, C130_point), the labels it holds are a+1 to b."
  },
  {
   "property": "C131",
   "status": "proved",
   "theorems": [
    "Lips.C131_three",
    "Lips.C131_order",
    "Lips.C131_text"
   ],
   "note": "In the symmetric convention, in which additions of particles do not raise."
  },
  {
   "property": "C132",
   "status": "partial",
   "theorems": [
    "Lips.C132_shared",
    "Lips.C132_unchanged_partial",
    "Lips.C132_total",
    "Lips.C132_breaks"
   ],
   "note": "The new point conserves momentum. That the other point stays as it was holds with fix_mom_cons=False and for listed particles that conserve momentum (C132_unchanged_partial); otherwise it is refuted: the two particles drawn change in both points and the other point no longer conserves momentum (C132_breaks, C132_total)."
  },
  {
   "property": "C133",
   "status": "proved",
   "theorems": [
    "Lips.C133_has",
    "Lips.C133_accepted",
    "Lips.C133_refused",
    "Lips.C133_component"
   ],
   "note": "A momentum raises TypeError in fields without 1j (C133_accepted); in the asymmetric convention also as in C05. Arguments other than those listed raise, a pair with an item that is no array AttributeError instead of the message of the constructor (C133_refused)."
  }
 ]
}
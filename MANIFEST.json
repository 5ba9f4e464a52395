{
 "claims": [
  {
   "property": "C01",
   "status": "proved",
   "theorems": [
    "FastPGM.C01_index_bijection",
    "FastPGM.C01_row_major"
   ],
   "note": ""
  },
  {
   "property": "C02",
   "status": "proved",
   "theorems": [
    "FastPGM.C02_reduction"
   ],
   "note": ""
  },
  {
   "property": "C03",
   "status": "proved",
   "theorems": [
    "FastPGM.C03_marginalization",
    "FastPGM.C03_marginalization_one",
    "FastPGM.C03_marginalization_simplified"
   ],
   "note": ""
  },
  {
   "property": "C04",
   "status": "proved",
   "theorems": [
    "FastPGM.C04_extension"
   ],
   "note": ""
  },
  {
   "property": "C05",
   "status": "proved",
   "theorems": [
    "FastPGM.C05_reorganization",
    "FastPGM.C05_move_to_end"
   ],
   "note": ""
  },
  {
   "property": "C06",
   "status": "proved",
   "theorems": [
    "FastPGM.C06_multiplication"
   ],
   "note": ""
  },
  {
   "property": "C07",
   "status": "partial",
   "theorems": [
    "FastPGM.C07_counterexample_empty",
    "FastPGM.C07_counterexample_order",
    "FastPGM.C07_two_extension_partial",
    "FastPGM.C07_one_variable_partial",
    "FastPGM.C07_one_variable_counterexample"
   ],
   "note": "False in the code as stated: a table without variables is squared (missing return), and tables over the same variables in different order are misaligned; both have counterexample theorems. Proved for all other pairs."
  },
  {
   "property": "C08",
   "status": "proved",
   "theorems": [
    "FastPGM.C08_division",
    "FastPGM.C08_division_undoes_multiplication"
   ],
   "note": ""
  },
  {
   "property": "C09",
   "status": "proved",
   "theorems": [
    "FastPGM.C09_normalize",
    "FastPGM.C09_normalize_zero",
    "FastPGM.C09_normalizeCPT"
   ],
   "note": ""
  },
  {
   "property": "C10",
   "status": "proved",
   "theorems": [
    "FastPGM.C10_nodeTable",
    "FastPGM.C10_history"
   ],
   "note": ""
  },
  {
   "property": "C11",
   "status": "proved",
   "theorems": [
    "FastPGM.C11_choices",
    "FastPGM.C11_nextN_add",
    "FastPGM.C11_invalid",
    "FastPGM.C11_zero"
   ],
   "note": ""
  },
  {
   "property": "C12",
   "status": "proved",
   "theorems": [
    "FastPGM.C12_naryCount",
    "FastPGM.C12_no_digit"
   ],
   "note": ""
  },
  {
   "property": "C13",
   "status": "proved",
   "theorems": [
    "FastPGM.C13_split",
    "FastPGM.C13_split_single",
    "FastPGM.C13_split_unique"
   ],
   "note": ""
  },
  {
   "property": "C14",
   "status": "proved",
   "theorems": [
    "FastPGM.C14_trim",
    "FastPGM.C14_trim_unique",
    "FastPGM.C14_trim_idempotent",
    "FastPGM.C14_trimRightOne",
    "FastPGM.C14_empty_undefined",
    "FastPGM.C14_high_bytes_trimmed"
   ],
   "note": ""
  },
  {
   "property": "C15",
   "status": "proved",
   "theorems": [
    "FastPGM.C15_containsCircle",
    "FastPGM.C15_network",
    "FastPGM.C15_network_before_rejection"
   ],
   "note": ""
  },
  {
   "property": "C16",
   "status": "proved",
   "theorems": [
    "FastPGM.C16_topoSort",
    "FastPGM.C16_topoSort_cyclic",
    "FastPGM.C16_genTopoOrd",
    "FastPGM.C16_getTopoOrd",
    "FastPGM.C16_stale_cache"
   ],
   "note": ""
  },
  {
   "property": "C17",
   "status": "proved",
   "theorems": [
    "FastPGM.C17_never_cyclic",
    "FastPGM.C17_addDirectedEdge",
    "FastPGM.C17_deleteDirectedEdge",
    "FastPGM.C17_bad_index"
   ],
   "note": ""
  },
  {
   "property": "C18",
   "status": "proved",
   "theorems": [
    "FastPGM.C18_consistent",
    "FastPGM.C18_readding_breaks"
   ],
   "note": ""
  },
  {
   "property": "C19",
   "status": "proved",
   "theorems": [
    "FastPGM.C19_completeGraph"
   ],
   "note": ""
  },
  {
   "property": "C20",
   "status": "partial",
   "theorems": [
    "FastPGM.C20_additions",
    "FastPGM.C20_removal_exact",
    "FastPGM.C20_removal_partial",
    "FastPGM.C20_removal_wrong",
    "FastPGM.C20_rejected_add_wrong",
    "FastPGM.C20_network_partial"
   ],
   "note": "Proved for additions (C20_additions, C20_network_partial) and for removal of a one-valued parent. Removal of a parent with two or more values is wrong in the code: C20_removal_exact gives the exact result, C20_removal_wrong and C20_rejected_add_wrong are counterexamples."
  },
  {
   "property": "C21",
   "status": "partial",
   "theorems": [
    "FastPGM.C21_learned",
    "FastPGM.C21_learned_root_partial",
    "FastPGM.C21_root_odd"
   ],
   "note": "Proved for every variable of the dataset, with or without a virtual ROOT. False for the ROOT node itself when the number of instances is odd: its two entries sum to less than 1 (C21_root_odd)."
  },
  {
   "property": "C22",
   "status": "proved",
   "theorems": [
    "FastPGM.C22_learned",
    "FastPGM.C22_learned_root",
    "FastPGM.C22_unseen_configuration"
   ],
   "note": ""
  },
  {
   "property": "C23",
   "status": "proved",
   "theorems": [
    "FastPGM.C23_counts",
    "FastPGM.C23_initialize",
    "FastPGM.C23_distribution",
    "FastPGM.C23_monotone"
   ],
   "note": ""
  },
  {
   "property": "C24",
   "status": "proved",
   "theorems": [
    "FastPGM.C24_assign",
    "FastPGM.C24_positions",
    "FastPGM.C24_wrong_length"
   ],
   "note": ""
  },
  {
   "property": "C25",
   "status": "proved",
   "theorems": [
    "FastPGM.C25_counts",
    "FastPGM.C25_counts2D",
    "FastPGM.C25_empty_undefined"
   ],
   "note": ""
  },
  {
   "property": "C26",
   "status": "partial",
   "theorems": [
    "FastPGM.C26_tables",
    "FastPGM.C26_group",
    "FastPGM.C26_group_partial",
    "FastPGM.C26_group_overflow",
    "FastPGM.C26_degenerate_disagreement"
   ],
   "note": "The tables of a group equal the single tables for all inputs. The verdicts agree under the stated condition on degenerate tables; C26_degenerate_disagreement and C26_group_overflow show where the code departs from the claim."
  },
  {
   "property": "C27",
   "status": "proved",
   "theorems": [
    "FastPGM.C27_statistic",
    "FastPGM.C27_symmetric",
    "FastPGM.C27_same_statistic"
   ],
   "note": ""
  },
  {
   "property": "C28",
   "status": "proved",
   "theorems": [
    "FastPGM.C28_level",
    "FastPGM.C28_gsquare"
   ],
   "note": ""
  },
  {
   "property": "C29",
   "status": "partial",
   "theorems": [
    "FastPGM.C29_schedule",
    "FastPGM.C29_group_partial",
    "FastPGM.C29_single",
    "FastPGM.C29_group_disagreement"
   ],
   "note": "Proved for every independence verdict that the test answers consistently (C29_schedule), for the G2 test with group size 1 (C29_single: any batching and schedule), and for group sizes up to 8 when degenerate tables are judged independent (C29_group_partial). In the code the group test judges tables without degrees of freedom differently, so the skeleton can depend on the group size: C29_group_disagreement."
  },
  {
   "property": "C30",
   "status": "proved",
   "theorems": [
    "FastPGM.C30_sepset"
   ],
   "note": ""
  },
  {
   "property": "C31",
   "status": "proved",
   "theorems": [
    "FastPGM.C31_early_stop",
    "FastPGM.C31_depth",
    "FastPGM.C31_sizes"
   ],
   "note": ""
  },
  {
   "property": "C32",
   "status": "partial",
   "theorems": [
    "FastPGM.C32_acyclic",
    "FastPGM.C32_orientation_partial",
    "FastPGM.C32_vstructures",
    "FastPGM.C32_duplicate_edge"
   ],
   "note": "Acyclicity is proved for every input and execution (C32_acyclic). One edge per pair is proved when the demanded v-structures contain no cycle; otherwise it is false: C32_duplicate_edge."
  },
  {
   "property": "C33",
   "status": "partial",
   "theorems": [
    "FastPGM.C33_completion_partial",
    "FastPGM.C33_reallocation",
    "FastPGM.C33_stops_early"
   ],
   "note": "Proved for every bit sequence when the edge vector has room and undirected edges stand first. Otherwise false in the code: C33_reallocation (undefined behaviour for every complete skeleton), C33_stops_early."
  },
  {
   "property": "C34",
   "status": "proved",
   "theorems": [
    "FastPGM.C34_rename",
    "FastPGM.C34_data"
   ],
   "note": ""
  },
  {
   "property": "C35",
   "status": "proved",
   "theorems": [
    "FastPGM.C35_roots",
    "FastPGM.C35_addRoot",
    "FastPGM.C35_junction_tree"
   ],
   "note": ""
  },
  {
   "property": "C36",
   "status": "partial",
   "theorems": [
    "FastPGM.C36_zero",
    "FastPGM.C36_symmetric",
    "FastPGM.C36_distance",
    "FastPGM.C36_dags",
    "FastPGM.C36_class_distance_partial",
    "FastPGM.C36_first_edge",
    "FastPGM.C36_empty_throws",
    "FastPGM.C36_num_edges"
   ],
   "note": "Proved when the first edge of the learned graph is directed (C36_distance, C36_dags), and against the graph of the equivalence class when it is undirected and the true graph has no node with two outsiders (C36_class_distance_partial). False otherwise: C36_first_edge, C36_empty_throws, C36_num_edges, C58_three_parents_ub."
  },
  {
   "property": "C37",
   "status": "proved",
   "theorems": [
    "FastPGM.C37_order",
    "FastPGM.C37_second_call_exits",
    "FastPGM.C37_undirected_exits"
   ],
   "note": ""
  },
  {
   "property": "C38",
   "status": "proved",
   "theorems": [
    "FastPGM.C38_moralize"
   ],
   "note": ""
  },
  {
   "property": "C39",
   "status": "proved",
   "theorems": [
    "FastPGM.C39_cliques",
    "FastPGM.C39_moral_cliques"
   ],
   "note": ""
  },
  {
   "property": "C40",
   "status": "proved",
   "theorems": [
    "FastPGM.C40_junction_tree",
    "FastPGM.C40_disconnected_ub",
    "FastPGM.C40_no_nodes_throw"
   ],
   "note": ""
  },
  {
   "property": "C41",
   "status": "proved",
   "theorems": [
    "FastPGM.C41_initial_product"
   ],
   "note": ""
  },
  {
   "property": "C42",
   "status": "proved",
   "theorems": [
    "FastPGM.C42_posterior",
    "FastPGM.C42_predict",
    "FastPGM.C42_observed_query_exit",
    "FastPGM.C42_learned"
   ],
   "note": ""
  },
  {
   "property": "C43",
   "status": "proved",
   "theorems": [
    "FastPGM.C43_backup",
    "FastPGM.C43_unchanged",
    "FastPGM.C43_sequence",
    "FastPGM.C43_predictAll"
   ],
   "note": ""
  },
  {
   "property": "C44",
   "status": "proved",
   "theorems": [
    "FastPGM.C44_order",
    "FastPGM.C44_answers"
   ],
   "note": ""
  },
  {
   "property": "C45",
   "status": "proved",
   "theorems": [
    "FastPGM.C45_bijection",
    "FastPGM.C45_schedule"
   ],
   "note": ""
  },
  {
   "property": "C46",
   "status": "proved",
   "theorems": [
    "FastPGM.C46_modulo"
   ],
   "note": ""
  },
  {
   "property": "C47",
   "status": "proved",
   "theorems": [
    "FastPGM.C47_argMax",
    "FastPGM.C47_indeterminate"
   ],
   "note": ""
  },
  {
   "property": "C48",
   "status": "proved",
   "theorems": [
    "FastPGM.C48_accuracy",
    "FastPGM.C48_range",
    "FastPGM.C48_degenerate"
   ],
   "note": ""
  },
  {
   "property": "C49",
   "status": "partial",
   "theorems": [
    "FastPGM.C49_evidence_partial",
    "FastPGM.C49_complete_partial",
    "FastPGM.C49_class_leaks",
    "FastPGM.C49_short_row_throws",
    "FastPGM.C49_all_instances"
   ],
   "note": "Holds for rows whose class value stands at position query_index (complete rows); for other rows the property is false: C49_class_leaks, C49_short_row_throws."
  },
  {
   "property": "C50",
   "status": "proved",
   "theorems": [
    "FastPGM.C50_encode",
    "FastPGM.C50_codes_injective",
    "FastPGM.C50_first_appearance",
    "FastPGM.C50_duplicate_names_exit",
    "FastPGM.C50_short_row_ub",
    "FastPGM.C50_header_only",
    "FastPGM.C50_no_instances_ub",
    "FastPGM.C50_integer_mode"
   ],
   "note": "Holds for every file with at least one full row. Boundary theorems: C50_header_only, C50_no_instances_ub, C50_short_row_ub, C50_duplicate_names_exit; in integer mode the recorded numbers of values are all 0 (C50_integer_mode)."
  },
  {
   "property": "C51",
   "status": "proved",
   "theorems": [
    "FastPGM.C51_encode",
    "FastPGM.C51_training_codes",
    "FastPGM.C51_no_maps_exit"
   ],
   "note": ""
  },
  {
   "property": "C52",
   "status": "proved",
   "theorems": [
    "FastPGM.C52_store_load",
    "FastPGM.C52_incomplete_exit",
    "FastPGM.C52_unterminated_line_lost",
    "FastPGM.C52_training"
   ],
   "note": "Round trip through the test loader. C52_training gives the exact behaviour of the training loader on such files, which loses trailing all-zero variables and is undefined if the class variable has the largest number; a last line without newline is lost (C52_unterminated_line_lost)."
  },
  {
   "property": "C53",
   "status": "proved",
   "theorems": [
    "FastPGM.C53_arrays",
    "FastPGM.C53_out_of_range_ub",
    "FastPGM.C53_csv",
    "FastPGM.C53_libsvm"
   ],
   "note": ""
  },
  {
   "property": "C54",
   "status": "partial",
   "theorems": [
    "FastPGM.C54_options_partial",
    "FastPGM.C54_asked_unique",
    "FastPGM.C54_unrecognized_exit",
    "FastPGM.C54_missing_value_ub",
    "FastPGM.C54_too_large_ub",
    "FastPGM.C54_alpha_throw",
    "FastPGM.C54_save_value_ub",
    "FastPGM.C54_save_value_takes_file",
    "FastPGM.C54_s_as_file",
    "FastPGM.C54_silent"
   ],
   "note": "Proved for every line of options with values (C54_options_partial), where the values of -ss and -sp have at least two characters and no digit 0-4 in third place. The claim is false for -ss and -sp with the documented one-character values (C54_save_value_ub) and for longer values with such a digit (C54_save_value_takes_file)."
  },
  {
   "property": "C55",
   "status": "proved",
   "theorems": [
    "FastPGM.C55_samples"
   ],
   "note": "For every implementation of discrete_distribution that keeps the standard's promise."
  },
  {
   "property": "C56",
   "status": "proved",
   "theorems": [
    "FastPGM.C56_recovers"
   ],
   "note": ""
  },
  {
   "property": "C57",
   "status": "partial",
   "theorems": [
    "FastPGM.C57_completion_partial",
    "FastPGM.C57_new_collider"
   ],
   "note": "Adjacencies, acyclicity, the colliders and the compelled directions of the true graph are proved; the absence of further colliders is false: C57_new_collider."
  },
  {
   "property": "C58",
   "status": "partial",
   "theorems": [
    "FastPGM.C58_labels_partial",
    "FastPGM.C58_three_parents_ub",
    "FastPGM.C58_unlabelled"
   ],
   "note": "Proved for every DAG in which no node has two outsiders (AtMostOneOutsider); otherwise false in the code because of a missing break: C58_three_parents_ub, C58_unlabelled."
  },
  {
   "property": "C59",
   "status": "proved",
   "theorems": [
    "FastPGM.C59_store_load",
    "FastPGM.C59_empty_cell_exit",
    "FastPGM.C59_test_data_exit"
   ],
   "note": ""
  },
  {
   "property": "C60",
   "status": "proved",
   "theorems": [
    "FastPGM.C60_cardinalities",
    "FastPGM.C60_names"
   ],
   "note": ""
  },
  {
   "property": "C61",
   "status": "proved",
   "theorems": [
    "FastPGM.C61_inversion_possible",
    "FastPGM.C61_zero_draw",
    "FastPGM.C61_box"
   ],
   "note": "For discrete_distribution by inversion on numbers in (0,1]."
  },
  {
   "property": "C62",
   "status": "proved",
   "theorems": [
    "FastPGM.C62_output_load",
    "FastPGM.C62_bad_class_ub"
   ],
   "note": ""
  },
  {
   "property": "C63",
   "status": "proved",
   "theorems": [
    "FastPGM.C63_total",
    "FastPGM.C63_conditional",
    "FastPGM.C63_answer",
    "FastPGM.C63_learned"
   ],
   "note": ""
  },
  {
   "property": "C64",
   "status": "proved",
   "theorems": [
    "FastPGM.C64_load",
    "FastPGM.C64_tables",
    "FastPGM.C64_inference",
    "FastPGM.C64_four_digits",
    "FastPGM.C64_checked",
    "FastPGM.C64_count_mismatch_exit",
    "FastPGM.C64_cycle_accepted"
   ],
   "note": ""
  },
  {
   "property": "C65",
   "status": "proved",
   "theorems": [
    "FastPGM.C65_load",
    "FastPGM.C65_tables",
    "FastPGM.C65_inference",
    "FastPGM.C65_same_as_xml",
    "FastPGM.C65_endless",
    "FastPGM.C65_blank_line_ub",
    "FastPGM.C65_unknown_parent_ub",
    "FastPGM.C65_unknown_value_accepted",
    "FastPGM.C65_last_line_lost",
    "FastPGM.C65_cycle_accepted",
    "FastPGM.C65_spacing"
   ],
   "note": ""
  },
  {
   "property": "C66",
   "status": "proved",
   "theorems": [
    "FastPGM.C66_probabilities"
   ],
   "note": ""
  },
  {
   "property": "C67",
   "status": "proved",
   "theorems": [
    "FastPGM.C67_round",
    "FastPGM.C67_round_fixed",
    "FastPGM.C67_mse",
    "FastPGM.C67_hellinger",
    "FastPGM.C67_zero",
    "FastPGM.C67_round_negative",
    "FastPGM.C67_impossible_ignored",
    "FastPGM.C67_all_observed"
   ],
   "note": ""
  },
  {
   "property": "C68",
   "status": "proved",
   "theorems": [
    "FastPGM.C68_load",
    "FastPGM.C68_short_file",
    "FastPGM.C68_short_line_ub"
   ],
   "note": ""
  },
  {
   "property": "C69",
   "status": "proved",
   "theorems": [
    "FastPGM.C69_evaluate",
    "FastPGM.C69_exact",
    "FastPGM.C69_few_ub"
   ],
   "note": ""
  },
  {
   "property": "C70",
   "status": "proved",
   "theorems": [
    "FastPGM.C70_exact",
    "FastPGM.C70_classify",
    "FastPGM.C70_class_unknown",
    "FastPGM.C70_nothing_known",
    "FastPGM.C70_few_rows_ub",
    "FastPGM.C70_random_root"
   ],
   "note": ""
  },
  {
   "property": "C71",
   "status": "proved",
   "theorems": [
    "FastPGM.C71_exact",
    "FastPGM.C71_evaluate",
    "FastPGM.C71_no_reference",
    "FastPGM.C71_few_rows_ub",
    "FastPGM.C71_nothing_named",
    "FastPGM.C71_first_unknown"
   ],
   "note": ""
  },
  {
   "property": "C72",
   "status": "proved",
   "theorems": [
    "FastPGM.C72_samples",
    "FastPGM.C72_reload"
   ],
   "note": ""
  },
  {
   "property": "C73",
   "status": "proved",
   "theorems": [
    "FastPGM.C73_structure",
    "FastPGM.C73_equivalence_class",
    "FastPGM.C73_no_edges_ub",
    "FastPGM.C73_lost_edges"
   ],
   "note": ""
  },
  {
   "property": "C74",
   "status": "proved",
   "theorems": [
    "FastPGM.C74_parameters",
    "FastPGM.C74_learned",
    "FastPGM.C74_unnamed_ub"
   ],
   "note": ""
  },
  {
   "property": "C75",
   "status": "proved",
   "theorems": [
    "FastPGM.C75_report",
    "FastPGM.C75_perfect",
    "FastPGM.C75_no_edges",
    "FastPGM.C75_level_exit",
    "FastPGM.C75_names_ignored"
   ],
   "note": ""
  },
  {
   "property": "C76",
   "status": "proved",
   "theorems": [
    "FastPGM.C76_report",
    "FastPGM.C76_undirected_ignored"
   ],
   "note": ""
  },
  {
   "property": "C77",
   "status": "proved",
   "theorems": [
    "FastPGM.C77_accuracy",
    "FastPGM.C77_plain",
    "FastPGM.C77_report",
    "FastPGM.C77_reference_fails",
    "FastPGM.C77_reference_exits",
    "FastPGM.C77_complete_ub",
    "FastPGM.C77_level_exit"
   ],
   "note": ""
  },
  {
   "property": "C78",
   "status": "proved",
   "theorems": [
    "FastPGM.C78_files",
    "FastPGM.C78_data_path",
    "FastPGM.C78_data_path_cut",
    "FastPGM.C78_data_path_none",
    "FastPGM.C78_structure",
    "FastPGM.C78_learning",
    "FastPGM.C78_classification",
    "FastPGM.C78_inference",
    "FastPGM.C78_samples_libsvm",
    "FastPGM.C78_samples_csv",
    "FastPGM.C78_stops",
    "FastPGM.C78_silent",
    "FastPGM.C78_perfect",
    "FastPGM.C78_level_exit"
   ],
   "note": ""
  },
  {
   "property": "C79",
   "status": "proved",
   "theorems": [
    "FastPGM.C79_depends",
    "FastPGM.C79_rerun",
    "FastPGM.C79_reference_lost"
   ],
   "note": ""
  },
  {
   "property": "C80",
   "status": "proved",
   "theorems": [
    "FastPGM.C80_index",
    "FastPGM.C80_marginalization",
    "FastPGM.C80_extension",
    "FastPGM.C80_evidence",
    "FastPGM.C80_lost",
    "FastPGM.C80_counts"
   ],
   "note": ""
  },
  {
   "property": "C81",
   "status": "proved",
   "theorems": [
    "FastPGM.C81_same_independences",
    "FastPGM.C81_learned",
    "FastPGM.C81_distance_zero"
   ],
   "note": ""
  },
  {
   "property": "C82",
   "status": "proved",
   "theorems": [
    "FastPGM.C82_any_order",
    "FastPGM.C82_by_levels",
    "FastPGM.C82_recursive",
    "FastPGM.C82_plain",
    "FastPGM.C82_posterior"
   ],
   "note": ""
  },
  {
   "property": "C83",
   "status": "proved",
   "theorems": [
    "FastPGM.C83_propagates_iff",
    "FastPGM.C83_zero_nan"
   ],
   "note": ""
  },
  {
   "property": "C84",
   "status": "proved",
   "theorems": [
    "FastPGM.C84_tracked",
    "FastPGM.C84_posterior",
    "FastPGM.C84_uniform",
    "FastPGM.C84_predict",
    "FastPGM.C84_binary64",
    "FastPGM.C84_double_tables"
   ],
   "note": ""
  },
  {
   "property": "C85",
   "status": "proved",
   "theorems": [
    "FastPGM.C85_one_outcome",
    "FastPGM.C85_posterior",
    "FastPGM.C85_predict",
    "FastPGM.C85_predictAll"
   ],
   "note": ""
  },
  {
   "property": "C86",
   "status": "partial",
   "theorems": [
    "FastPGM.C86_race",
    "FastPGM.C86_level0_shared",
    "FastPGM.C86_level_shared",
    "FastPGM.C86_one_thread_partial"
   ],
   "note": "False in the code for two or more threads: C86_race shows a data race for every test and every network with at least three variables. Proved with one thread (C86_one_thread_partial); C86_level0_shared and C86_level_shared show that the counter and the map of separating sets are the only places with races."
  },
  {
   "property": "C87",
   "status": "proved",
   "theorems": [
    "FastPGM.C87_count",
    "FastPGM.C87_tested",
    "FastPGM.C87_group",
    "FastPGM.C87_bound"
   ],
   "note": ""
  },
  {
   "property": "C88",
   "status": "proved",
   "theorems": [
    "FastPGM.C88_statistic",
    "FastPGM.C88_pvalue",
    "FastPGM.C88_few_instances"
   ],
   "note": ""
  },
  {
   "property": "C89",
   "status": "proved",
   "theorems": [
    "FastPGM.C89_maximum"
   ],
   "note": ""
  },
  {
   "property": "C90",
   "status": "proved",
   "theorems": [
    "FastPGM.C90_structure",
    "FastPGM.C90_command",
    "FastPGM.C90_parameters"
   ],
   "note": ""
  },
  {
   "property": "C91",
   "status": "proved",
   "theorems": [
    "FastPGM.C91_names",
    "FastPGM.C91_row_order"
   ],
   "note": ""
  },
  {
   "property": "C92",
   "status": "proved",
   "theorems": [
    "FastPGM.C92_irrelevant_evidence",
    "FastPGM.C92_label"
   ],
   "note": ""
  },
  {
   "property": "C93",
   "status": "proved",
   "theorems": [
    "FastPGM.C93_barren"
   ],
   "note": ""
  },
  {
   "property": "C94",
   "status": "proved",
   "theorems": [
    "FastPGM.C94_combinations",
    "FastPGM.C94_history",
    "FastPGM.C94_addDirectedEdge",
    "FastPGM.C94_topo_discrete",
    "FastPGM.C94_topo_mixed",
    "FastPGM.C94_double_edge"
   ],
   "note": ""
  },
  {
   "property": "C95",
   "status": "partial",
   "theorems": [
    "FastPGM.C95_copy_partial",
    "FastPGM.C95_add_partial",
    "FastPGM.C95_copy_loses_edges"
   ],
   "note": "The edge list is not copied (C95_copy_loses_edges), so equivalence under deletions is false; proved for nodes, order and additions."
  },
  {
   "property": "C96",
   "status": "proved",
   "theorems": [
    "FastPGM.C96_uniform",
    "FastPGM.C96_normalizeICPT",
    "FastPGM.C96_normalizePtScore",
    "FastPGM.C96_reduced",
    "FastPGM.C96_lookup",
    "FastPGM.C96_marginalized",
    "FastPGM.C96_marginalized_zero",
    "FastPGM.C96_not_cleared"
   ],
   "note": ""
  },
  {
   "property": "C97",
   "status": "proved",
   "theorems": [
    "FastPGM.C97_csv_training",
    "FastPGM.C97_no_continuous",
    "FastPGM.C97_no_continuous_test",
    "FastPGM.C97_libsvm_training_ub",
    "FastPGM.C97_libsvm_training_null",
    "FastPGM.C97_test_kinds",
    "FastPGM.C97_store_float",
    "FastPGM.C97_store_discrete",
    "FastPGM.C97_label_kind",
    "FastPGM.C97_label_kind_training"
   ],
   "note": ""
  },
  {
   "property": "C98",
   "status": "proved",
   "theorems": [
    "FastPGM.C98_bayes",
    "FastPGM.C98_total",
    "FastPGM.C98_chain"
   ],
   "note": ""
  },
  {
   "property": "C99",
   "status": "proved",
   "theorems": [
    "FastPGM.C99_law"
   ],
   "note": ""
  },
  {
   "property": "C100",
   "status": "proved",
   "theorems": [
    "FastPGM.C100_deviation",
    "FastPGM.C100_consistent"
   ],
   "note": ""
  },
  {
   "property": "C101",
   "status": "proved",
   "theorems": [
    "FastPGM.C101_answers"
   ],
   "note": ""
  },
  {
   "property": "C102",
   "status": "proved",
   "theorems": [
    "FastPGM.C102_limit",
    "FastPGM.C102_edges_kept",
    "FastPGM.C102_lower_bound",
    "FastPGM.C102_frequency",
    "FastPGM.C102_detected"
   ],
   "note": ""
  },
  {
   "property": "C103",
   "status": "proved",
   "theorems": [
    "FastPGM.C103_markov",
    "FastPGM.C103_upper_bound",
    "FastPGM.C103_accepted",
    "FastPGM.C103_limit",
    "FastPGM.C103_verdicts",
    "FastPGM.C103_consistent"
   ],
   "note": ""
  },
  {
   "property": "C104",
   "status": "proved",
   "theorems": [
    "FastPGM.C104_like",
    "FastPGM.C104_pvalue",
    "FastPGM.C104_level_zero",
    "FastPGM.C104_level_one",
    "FastPGM.C104_detected",
    "FastPGM.C104_edges_kept",
    "FastPGM.C104_consistent"
   ],
   "note": ""
  },
  {
   "property": "C105",
   "status": "proved",
   "theorems": [
    "FastPGM.C105_labels_suffice",
    "FastPGM.C105_label",
    "FastPGM.C105_best_label",
    "FastPGM.C105_accuracy"
   ],
   "note": ""
  },
  {
   "property": "C106",
   "status": "proved",
   "theorems": [
    "FastPGM.C106_reported",
    "FastPGM.C106_train_and_test"
   ],
   "note": ""
  },
  {
   "property": "C107",
   "status": "proved",
   "theorems": [
    "FastPGM.C107_tables",
    "FastPGM.C107_answers",
    "FastPGM.C107_predict",
    "FastPGM.C107_doubles"
   ],
   "note": ""
  },
  {
   "property": "C108",
   "status": "proved",
   "theorems": [
    "FastPGM.C108_answers"
   ],
   "note": ""
  },
  {
   "property": "C109",
   "status": "proved",
   "theorems": [
    "FastPGM.C109_factorises",
    "FastPGM.C109_answers"
   ],
   "note": ""
  },
  {
   "property": "C110",
   "status": "proved",
   "theorems": [
    "FastPGM.C110_answers",
    "FastPGM.C110_no_new_collider",
    "FastPGM.C110_compelled",
    "FastPGM.C110_wrong_answer"
   ],
   "note": ""
  },
  {
   "property": "C111",
   "status": "partial",
   "theorems": [
    "FastPGM.C111_undefined",
    "FastPGM.C111_release_partial",
    "FastPGM.C111_double_release"
   ],
   "note": "False for the code: every command deletes nodes through Node*, which has no virtual destructor (C111_undefined). Proved for the code with that destructor, including the exact list of objects that the learning commands never release."
  },
  {
   "property": "C112",
   "status": "proved",
   "theorems": [
    "FastPGM.C112_refines",
    "FastPGM.C112_released"
   ],
   "note": ""
  },
  {
   "property": "C113",
   "status": "proved",
   "theorems": [
    "FastPGM.C113_refines"
   ],
   "note": ""
  },
  {
   "property": "C114",
   "status": "partial",
   "theorems": [
    "FastPGM.C114_released_partial",
    "FastPGM.C114_sequence",
    "FastPGM.C114_leak"
   ],
   "note": "False for the code: single tests without a degree of freedom never release their table (C114_leak). Proved: exactly those tests leave blocks, and which."
  },
  {
   "property": "C115",
   "status": "proved",
   "theorems": [
    "FastPGM.C115_single",
    "FastPGM.C115_group",
    "FastPGM.C115_sufficient",
    "FastPGM.C115_group_lost"
   ],
   "note": ""
  },
  {
   "property": "C116",
   "status": "proved",
   "theorems": [
    "FastPGM.C116_complete_graph",
    "FastPGM.C116_skeleton",
    "FastPGM.C116_too_many"
   ],
   "note": ""
  },
  {
   "property": "C117",
   "status": "partial",
   "theorems": [
    "FastPGM.C117_print",
    "FastPGM.C117_complete_partial",
    "FastPGM.C117_nothing_printed",
    "FastPGM.C117_throws",
    "FastPGM.C117_check"
   ],
   "note": "Violated: the edge operations do not maintain num_edges, so a network built with them is printed without edges (C117_nothing_printed) or printing throws (C117_throws). Proved in general: exactly what is printed (C117_print), the right case (C117_complete_partial), CheckEdges (C117_check)."
  },
  {
   "property": "C118",
   "status": "proved",
   "theorems": [
    "FastPGM.C118_construction",
    "FastPGM.C118_posterior",
    "FastPGM.C118_predict",
    "FastPGM.C118_level_overflow",
    "FastPGM.C118_level_overflow_witness"
   ],
   "note": ""
  },
  {
   "property": "C119",
   "status": "proved",
   "theorems": [
    "FastPGM.C119_structure",
    "FastPGM.C119_statistic",
    "FastPGM.C119_verdict",
    "FastPGM.C119_answers",
    "FastPGM.C119_skeleton",
    "FastPGM.C119_rounding",
    "FastPGM.C119_doubles",
    "FastPGM.C119_verdict_doubles",
    "FastPGM.C119_skeleton_doubles"
   ],
   "note": ""
  },
  {
   "property": "C120",
   "status": "proved",
   "theorems": [
    "FastPGM.C120_classify",
    "FastPGM.C120_exact"
   ],
   "note": ""
  },
  {
   "property": "C121",
   "status": "proved",
   "theorems": [
    "FastPGM.C121_learned",
    "FastPGM.C121_learned_root",
    "FastPGM.C121_large_alpha",
    "FastPGM.C121_answers"
   ],
   "note": ""
  },
  {
   "property": "C122",
   "status": "proved",
   "theorems": [
    "FastPGM.C122_decimal",
    "FastPGM.C122_read",
    "FastPGM.C122_distinct"
   ],
   "note": ""
  },
  {
   "property": "C123",
   "status": "proved",
   "theorems": [
    "FastPGM.C123_order",
    "FastPGM.C123_nan",
    "FastPGM.C123_configuration",
    "FastPGM.C123_small",
    "FastPGM.C123_rounding"
   ],
   "note": ""
  },
  {
   "property": "C124",
   "status": "proved",
   "theorems": [
    "FastPGM.C124_combinations",
    "FastPGM.C124_count",
    "FastPGM.C124_argument"
   ],
   "note": ""
  },
  {
   "property": "C125",
   "status": "proved",
   "theorems": [
    "FastPGM.C125_succeeds",
    "FastPGM.C125_rows",
    "FastPGM.C125_training_codes",
    "FastPGM.C125_no_continuous",
    "FastPGM.C125_missing_number",
    "FastPGM.C125_numbers"
   ],
   "note": ""
  },
  {
   "property": "C126",
   "status": "proved",
   "theorems": [
    "FastPGM.C126_bif",
    "FastPGM.C126_bif_second_type",
    "FastPGM.C126_values",
    "FastPGM.C126_out_of_range",
    "FastPGM.C126_accepted"
   ],
   "note": ""
  },
  {
   "property": "C127",
   "status": "proved",
   "theorems": [
    "FastPGM.C127_order",
    "FastPGM.C127_random",
    "FastPGM.C127_uniform"
   ],
   "note": ""
  }
 ]
}
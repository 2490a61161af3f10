{
 "claims": [
  {
   "property": "C01",
   "status": "proved",
   "theorems": [
    "Verif.C01_find_all_dir_paths"
   ],
   "note": ""
  },
  {
   "property": "C02",
   "status": "proved",
   "theorems": [
    "Verif.C02_path_edges",
    "Verif.C02_find_all_undir_paths"
   ],
   "note": ""
  },
  {
   "property": "C03",
   "status": "proved",
   "theorems": [
    "Verif.C03_dfs_loop_terminates"
   ],
   "note": ""
  },
  {
   "property": "C04",
   "status": "proved",
   "theorems": [
    "Verif.C04_directed_decision_free_path"
   ],
   "note": ""
  },
  {
   "property": "C05",
   "status": "proved",
   "theorems": [
    "Verif.C05_get_motif_interior",
    "Verif.C05_get_motif_boundaries",
    "Verif.C05_get_motif_index_zero",
    "Verif.C05_get_motifs",
    "Verif.C05_get_motifs_short"
   ],
   "note": ""
  },
  {
   "property": "C06",
   "status": "proved",
   "theorems": [
    "Verif.C06_is_active_path"
   ],
   "note": ""
  },
  {
   "property": "C07",
   "status": "proved",
   "theorems": [
    "Verif.C07_find_active_path"
   ],
   "note": ""
  },
  {
   "property": "C08",
   "status": "proved",
   "theorems": [
    "Verif.C08_is_dconnected",
    "Verif.C08_work_list_terminates"
   ],
   "note": ""
  },
  {
   "property": "C09",
   "status": "proved",
   "theorems": [
    "Verif.C09_find_active_path_iff_is_dconnected",
    "Verif.C09_observed_start_differs"
   ],
   "note": ""
  },
  {
   "property": "C10",
   "status": "proved",
   "theorems": [
    "Verif.C10_is_dconnected_symmetric"
   ],
   "note": ""
  },
  {
   "property": "C11",
   "status": "proved",
   "theorems": [
    "Verif.C11_is_active_backdoor_trail"
   ],
   "note": ""
  },
  {
   "property": "C12",
   "status": "proved",
   "theorems": [
    "Verif.C12_is_active_indirect_frontdoor_trail"
   ],
   "note": ""
  },
  {
   "property": "C13",
   "status": "proved",
   "theorems": [
    "Verif.C13_edit_histories_preserve_wf",
    "Verif.C13_add_edge_effect",
    "Verif.C13_remove_effect",
    "Verif.C13_add_node_effect",
    "Verif.C13_constructor"
   ],
   "note": ""
  },
  {
   "property": "C14",
   "status": "proved",
   "theorems": [
    "Verif.C14_get_valid_order",
    "Verif.C14_get_valid_order_default"
   ],
   "note": ""
  },
  {
   "property": "C15",
   "status": "proved",
   "theorems": [
    "Verif.C15_constructor_consistent",
    "Verif.C15_role_call",
    "Verif.C15_role_histories",
    "Verif.C15_lists_show_roles"
   ],
   "note": ""
  },
  {
   "property": "C16",
   "status": "proved",
   "theorems": [
    "Verif.C16_copy_without_cpds",
    "Verif.C16_copy_exact",
    "Verif.C16_copy_loses_roles"
   ],
   "note": ""
  },
  {
   "property": "C17",
   "status": "proved",
   "theorems": [
    "Verif.C17_mechanism_graph",
    "Verif.C17_guard_fires",
    "Verif.C17_guard_is_wrong"
   ],
   "note": ""
  },
  {
   "property": "C18",
   "status": "proved",
   "theorems": [
    "Verif.C18_is_r_reachable",
    "Verif.C18_is_s_reachable",
    "Verif.C18_fresh_parent_irrelevant"
   ],
   "note": ""
  },
  {
   "property": "C19",
   "status": "proved",
   "theorems": [
    "Verif.C19_relevance_graph",
    "Verif.C19_sufficient_recall_agent",
    "Verif.C19_sufficient_recall_all"
   ],
   "note": ""
  },
  {
   "property": "C20",
   "status": "proved",
   "theorems": [
    "Verif.C20_scc_ordering"
   ],
   "note": ""
  },
  {
   "property": "C21",
   "status": "proved",
   "theorems": [
    "Verif.C21_subgames"
   ],
   "note": ""
  },
  {
   "property": "C22",
   "status": "proved",
   "theorems": [
    "Verif.C22_later_never_relies_on_earlier"
   ],
   "note": ""
  },
  {
   "property": "C23",
   "status": "proved",
   "theorems": [
    "Verif.C23_constructed_cpd_valid",
    "Verif.C23_parents_not_ready",
    "Verif.C23_ok_or_value_error"
   ],
   "note": ""
  },
  {
   "property": "C24",
   "status": "proved",
   "theorems": [
    "Verif.C24_missing_mass_even",
    "Verif.C24_column_sums_to_one"
   ],
   "note": ""
  },
  {
   "property": "C25",
   "status": "proved",
   "theorems": [
    "Verif.C25_inferred_domain",
    "Verif.C25_explicit_domain",
    "Verif.C25_outside_domain_rejected"
   ],
   "note": ""
  },
  {
   "property": "C26",
   "status": "proved",
   "theorems": [
    "Verif.C26_bernoulli",
    "Verif.C26_discrete_uniform",
    "Verif.C26_discrete_uniform_duplicates",
    "Verif.C26_noisy_copy"
   ],
   "note": ""
  },
  {
   "property": "C27",
   "status": "proved",
   "theorems": [
    "Verif.C27_pure_decision_rules"
   ],
   "note": ""
  },
  {
   "property": "C28",
   "status": "proved",
   "theorems": [
    "Verif.C28_arg2idx_bijection"
   ],
   "note": ""
  },
  {
   "property": "C29",
   "status": "proved",
   "theorems": [
    "Verif.C29_pure_policies",
    "Verif.C29_joint_strategy_exactly_once",
    "Verif.C29_joint_pure_policies"
   ],
   "note": ""
  },
  {
   "property": "C30",
   "status": "proved",
   "theorems": [
    "Verif.C30_signature_check_never_raises",
    "Verif.C30_documented_check",
    "Verif.C30_mismatch_accepted"
   ],
   "note": ""
  },
  {
   "property": "C31",
   "status": "proved",
   "theorems": [
    "Verif.C31_add_order_irrelevant"
   ],
   "note": ""
  },
  {
   "property": "C32",
   "status": "proved",
   "theorems": [
    "Verif.C32_all_nodes_instantiated",
    "Verif.C32_add_cpds_complete"
   ],
   "note": ""
  },
  {
   "property": "C33",
   "status": "proved",
   "theorems": [
    "Verif.C33_cpds_reflect_relationships",
    "Verif.C33_last_relationship",
    "Verif.C33_failed_assignment_stale"
   ],
   "note": ""
  },
  {
   "property": "C34",
   "status": "proved",
   "theorems": [
    "Verif.C34_rejected_not_atomic",
    "Verif.C34_counterexample"
   ],
   "note": ""
  },
  {
   "property": "C35",
   "status": "proved",
   "theorems": [
    "Verif.C35_copy_faithful",
    "Verif.C35_copy_of_copy",
    "Verif.C35_copy_of_copy_counterexample"
   ],
   "note": ""
  },
  {
   "property": "C36",
   "status": "proved",
   "theorems": [
    "Verif.C36_intervene_exact",
    "Verif.C36_intervene_unknown",
    "Verif.C36_counterexample"
   ],
   "note": ""
  },
  {
   "property": "C37",
   "status": "proved",
   "theorems": [
    "Verif.C37_query_with_intervention",
    "Verif.C37_query_rejected",
    "Verif.C37_query_connected",
    "Verif.C37_query_effect",
    "Verif.C37_counterexample"
   ],
   "note": ""
  },
  {
   "property": "C38",
   "status": "proved",
   "theorems": [
    "Verif.C38_context_outside_domain",
    "Verif.C38_answered_only_if_legal",
    "Verif.C38_different_components",
    "Verif.C38_table_in_context",
    "Verif.C38_impossible_context_ignored"
   ],
   "note": ""
  },
  {
   "property": "C39",
   "status": "proved",
   "theorems": [
    "Verif.C39_query_exact",
    "Verif.C39_query_answers",
    "Verif.C39_query_distribution"
   ],
   "note": ""
  },
  {
   "property": "C40",
   "status": "proved",
   "theorems": [
    "Verif.C40_truncated_factorisation",
    "Verif.C40_intervention_certain"
   ],
   "note": ""
  },
  {
   "property": "C41",
   "status": "proved",
   "theorems": [
    "Verif.C41_dsep_independent"
   ],
   "note": ""
  },
  {
   "property": "C42",
   "status": "proved",
   "theorems": [
    "Verif.C42_policy_check",
    "Verif.C42_answer_independent",
    "Verif.C42_same_answer"
   ],
   "note": ""
  },
  {
   "property": "C43",
   "status": "proved",
   "theorems": [
    "Verif.C43_expected_value",
    "Verif.C43_value_needs_answer",
    "Verif.C43_impossible_context",
    "Verif.C43_expected_utility",
    "Verif.C43_bounds",
    "Verif.C43_order_counterexample"
   ],
   "note": ""
  },
  {
   "property": "C44",
   "status": "proved",
   "theorems": [
    "Verif.C44_total_effect_exact",
    "Verif.C44_nondescendant",
    "Verif.C44_self",
    "Verif.C44_total_effect"
   ],
   "note": ""
  },
  {
   "property": "C45",
   "status": "proved",
   "theorems": [
    "Verif.C45_introduced_total_effect",
    "Verif.C45_swap"
   ],
   "note": ""
  },
  {
   "property": "C46",
   "status": "proved",
   "theorems": [
    "Verif.C46_optimal_decision_rules",
    "Verif.C46_optimal_pure_policies",
    "Verif.C46_exact",
    "Verif.C46_no_policy_better",
    "Verif.C46_no_decisions",
    "Verif.C46_different_agents",
    "Verif.C46_succeeds",
    "Verif.C46_negative_tolerance",
    "Verif.C46_large_tolerance",
    "Verif.C46_other_component",
    "Verif.C46_example"
   ],
   "note": ""
  },
  {
   "property": "C47",
   "status": "proved",
   "theorems": [
    "Verif.C47_impute_optimal_decision",
    "Verif.C47_needs",
    "Verif.C47_succeeds_iff",
    "Verif.C47_same_again",
    "Verif.C47_example",
    "Verif.C47_impossible_context",
    "Verif.C47_idle_decision"
   ],
   "note": ""
  },
  {
   "property": "C48",
   "status": "proved",
   "theorems": [
    "Verif.C48_impute_optimal_policy",
    "Verif.C48_example",
    "Verif.C48_without_recall",
    "Verif.C48_solve",
    "Verif.C48_solve_example",
    "Verif.C48_without_recall_example"
   ],
   "note": ""
  },
  {
   "property": "C49",
   "status": "proved",
   "theorems": [
    "Verif.C49_impute_random_decision",
    "Verif.C49_no_domain",
    "Verif.C49_fully_mixed",
    "Verif.C49_remove_rules",
    "Verif.C49_round_trip"
   ],
   "note": ""
  },
  {
   "property": "C50",
   "status": "proved",
   "theorems": [
    "Verif.C50_empty_query"
   ],
   "note": ""
  },
  {
   "property": "C51",
   "status": "proved",
   "theorems": [
    "Verif.C51_requisite",
    "Verif.C51_requisite_graph",
    "Verif.C51_single_decision",
    "Verif.C51_agent_without_utilities"
   ],
   "note": ""
  },
  {
   "property": "C52",
   "status": "proved",
   "theorems": [
    "Verif.C52_admits_voi",
    "Verif.C52_single_decision",
    "Verif.C52_errors",
    "Verif.C52_not_a_decision"
   ],
   "note": ""
  },
  {
   "property": "C53",
   "status": "proved",
   "theorems": [
    "Verif.C53_no_value_of_information"
   ],
   "note": ""
  },
  {
   "property": "C54",
   "status": "proved",
   "theorems": [
    "Verif.C54_admits_ri",
    "Verif.C54_errors"
   ],
   "note": ""
  },
  {
   "property": "C55",
   "status": "proved",
   "theorems": [
    "Verif.C55_admits_ici",
    "Verif.C55_between",
    "Verif.C55_errors"
   ],
   "note": ""
  },
  {
   "property": "C56",
   "status": "proved",
   "theorems": [
    "Verif.C56_admits_voc",
    "Verif.C56_admits_dir_voc",
    "Verif.C56_admits_indir_voc",
    "Verif.C56_implications",
    "Verif.C56_not_direct",
    "Verif.C56_errors"
   ],
   "note": ""
  },
  {
   "property": "C57",
   "status": "proved",
   "theorems": [
    "Verif.C57_no_value_of_control",
    "Verif.C57_control_gains_nothing"
   ],
   "note": ""
  },
  {
   "property": "C58",
   "status": "proved",
   "theorems": [
    "Verif.C58_quantitative_voi",
    "Verif.C58_quantitative_voc",
    "Verif.C58_voi_single_decision",
    "Verif.C58_voc_single_decision",
    "Verif.C58_voc_negative",
    "Verif.C58_voi_example",
    "Verif.C58_voc_example"
   ],
   "note": ""
  },
  {
   "property": "C59",
   "status": "proved",
   "theorems": [
    "Verif.C59_admits_ri_list",
    "Verif.C59_admits_ici_list",
    "Verif.C59_admits_voc_list",
    "Verif.C59_admits_indir_voc_list",
    "Verif.C59_admits_dir_voc_list",
    "Verif.C59_requisite_list",
    "Verif.C59_admits_voi_list",
    "Verif.C59_voi_list_no_error"
   ],
   "note": ""
  },
  {
   "property": "C60",
   "status": "proved",
   "theorems": [
    "Verif.C60_direct_effect",
    "Verif.C60_manipulation",
    "Verif.C60_unknown_effective"
   ],
   "note": ""
  },
  {
   "property": "C61",
   "status": "proved",
   "theorems": [
    "Verif.C61_revealing_or_denying",
    "Verif.C61_revealing_if_documented",
    "Verif.C61_signaling",
    "Verif.C61_signaling_returns",
    "Verif.C61_signaling_order",
    "Verif.C61_signaling_raises",
    "Verif.C61_revealing_undocumented"
   ],
   "note": ""
  },
  {
   "property": "C62",
   "status": "proved",
   "theorems": [
    "Verif.C62_terminates",
    "Verif.C62_result",
    "Verif.C62_returns",
    "Verif.C62_documented",
    "Verif.C62_example"
   ],
   "note": ""
  },
  {
   "property": "C63",
   "status": "proved",
   "theorems": [
    "Verif.C63_structure",
    "Verif.C63_returns",
    "Verif.C63_members",
    "Verif.C63_consistent",
    "Verif.C63_example",
    "Verif.C63_not_marginal",
    "Verif.C63_misaligned",
    "Verif.C63_lost_decision",
    "Verif.C63_plain_table",
    "Verif.C63_unspecified"
   ],
   "note": ""
  },
  {
   "property": "C64",
   "status": "proved",
   "theorems": [
    "Verif.C64_backward_induction",
    "Verif.C64_get_spe",
    "Verif.C64_example"
   ],
   "note": ""
  },
  {
   "property": "C65",
   "status": "proved",
   "theorems": [
    "Verif.C65_policy_profile_assignment"
   ],
   "note": ""
  },
  {
   "property": "C66",
   "status": "proved",
   "theorems": [
    "Verif.C66_game_tree",
    "Verif.C66_leaves",
    "Verif.C66_returns",
    "Verif.C66_fails",
    "Verif.C66_example",
    "Verif.C66_missing_player",
    "Verif.C66_missing_player_example",
    "Verif.C66_unobserved_counterexample"
   ],
   "note": ""
  },
  {
   "property": "C67",
   "status": "proved",
   "theorems": [
    "Verif.C67_same_information",
    "Verif.C67_information_sets",
    "Verif.C67_shared_counterexample"
   ],
   "note": ""
  },
  {
   "property": "C68",
   "status": "proved",
   "theorems": [
    "Verif.C68_solver_selection"
   ],
   "note": ""
  },
  {
   "property": "C69",
   "status": "proved",
   "theorems": [
    "Verif.C69_behavior_to_cpd",
    "Verif.C69_example"
   ],
   "note": ""
  },
  {
   "property": "C70",
   "status": "proved",
   "theorems": [
    "Verif.C70_random_dag",
    "Verif.C70_no_exception",
    "Verif.C70_no_dead_end",
    "Verif.C70_example"
   ],
   "note": ""
  },
  {
   "property": "C71",
   "status": "proved",
   "theorems": [
    "Verif.C71_in_degree",
    "Verif.C71_counterexample",
    "Verif.C71_never_returns",
    "Verif.C71_example"
   ],
   "note": ""
  },
  {
   "property": "C72",
   "status": "proved",
   "theorems": [
    "Verif.C72_random_macidbase",
    "Verif.C72_value_error",
    "Verif.C72_example",
    "Verif.C72_one_node"
   ],
   "note": ""
  },
  {
   "property": "C73",
   "status": "proved",
   "theorems": [
    "Verif.C73_add_sufficient_recall",
    "Verif.C73_value_error",
    "Verif.C73_no_exception",
    "Verif.C73_no_dead_end",
    "Verif.C73_example"
   ],
   "note": ""
  },
  {
   "property": "C74",
   "status": "proved",
   "theorems": [
    "Verif.C74_temp_seed",
    "Verif.C74_restores_state",
    "Verif.C74_same_distribution",
    "Verif.C74_history",
    "Verif.C74_legal_seed",
    "Verif.C74_illegal_seed",
    "Verif.C74_init",
    "Verif.C74_example"
   ],
   "note": ""
  },
  {
   "property": "C75",
   "status": "proved",
   "theorems": [
    "Verif.C75_requisite_graph_preserves"
   ],
   "note": ""
  },
  {
   "property": "C76",
   "status": "proved",
   "theorems": [
    "Verif.C76_payoffs",
    "Verif.C76_behavior_to_cpd",
    "Verif.C76_equilibria",
    "Verif.C76_example"
   ],
   "note": ""
  },
  {
   "property": "C77",
   "status": "proved",
   "theorems": [
    "Verif.C77_get_ne_in_sg",
    "Verif.C77_example"
   ],
   "note": ""
  },
  {
   "property": "C79",
   "status": "proved",
   "theorems": [
    "Verif.C79_counterexample",
    "Verif.C79_untouched",
    "Verif.C79_two_decisions",
    "Verif.C79_untouched_example",
    "Verif.C79_two_decisions_example"
   ],
   "note": ""
  },
  {
   "property": "C80",
   "status": "proved",
   "theorems": [
    "Verif.C80_add_random_cpds",
    "Verif.C80_example",
    "Verif.C80_bad_seed"
   ],
   "note": ""
  },
  {
   "property": "C81",
   "status": "proved",
   "theorems": [
    "Verif.C81_random_macid",
    "Verif.C81_random_macid_error",
    "Verif.C81_random_cid",
    "Verif.C81_random_cid_error",
    "Verif.C81_random_cids",
    "Verif.C81_random_cids_error",
    "Verif.C81_random_macids",
    "Verif.C81_example_cids",
    "Verif.C81_example_macids"
   ],
   "note": ""
  },
  {
   "property": "C78",
   "status": "proved",
   "theorems": [
    "Verif.C78_get_ne_in_sg",
    "Verif.C78_get_ne",
    "Verif.C78_example"
   ],
   "note": ""
  },
  {
   "property": "C82",
   "status": "proved",
   "theorems": [
    "Verif.C82_get_spe",
    "Verif.C82_example"
   ],
   "note": ""
  },
  {
   "property": "C83",
   "status": "proved",
   "theorems": [
    "Verif.C83_dconnected_dependent",
    "Verif.C83_iff"
   ],
   "note": ""
  },
  {
   "property": "C84",
   "status": "proved",
   "theorems": [
    "Verif.C84_voi_complete",
    "Verif.C84_voi_iff",
    "Verif.C84_quantitative_positive"
   ],
   "note": ""
  },
  {
   "property": "C85",
   "status": "proved",
   "theorems": [
    "Verif.C85_voc_complete",
    "Verif.C85_voc_iff",
    "Verif.C85_controlled",
    "Verif.C85_quantitative_positive"
   ],
   "note": ""
  },
  {
   "property": "C86",
   "status": "proved",
   "theorems": [
    "Verif.C86_no_incentive",
    "Verif.C86_incentive"
   ],
   "note": ""
  },
  {
   "property": "C87",
   "status": "proved",
   "theorems": [
    "Verif.C87_no_response"
   ],
   "note": ""
  },
  {
   "property": "C88",
   "status": "proved",
   "theorems": [
    "Verif.C88_least_squares",
    "Verif.C88_imputed",
    "Verif.C88_decision_error",
    "Verif.C88_example",
    "Verif.C88_unconnected_raises"
   ],
   "note": ""
  },
  {
   "property": "C89",
   "status": "proved",
   "theorems": [
    "Verif.C89_structural",
    "Verif.C89_missing_cpd",
    "Verif.C89_mechanisms",
    "Verif.C89_exact",
    "Verif.C89_example"
   ],
   "note": ""
  },
  {
   "property": "C90",
   "status": "proved",
   "theorems": [
    "Verif.C90_remove",
    "Verif.C90_remove_raises",
    "Verif.C90_remove_add",
    "Verif.C90_child_first",
    "Verif.C90_example"
   ],
   "note": ""
  },
  {
   "property": "C91",
   "status": "proved",
   "theorems": [
    "Verif.C91_sample",
    "Verif.C91_sample_exactly",
    "Verif.C91_incomplete"
   ],
   "note": ""
  },
  {
   "property": "C92",
   "status": "proved",
   "theorems": [
    "Verif.C92_programs",
    "Verif.C92_untouched",
    "Verif.C92_arguments_follow",
    "Verif.C92_shared_decisions"
   ],
   "note": ""
  },
  {
   "property": "C93",
   "status": "proved",
   "theorems": [
    "Verif.C93_ri_complete",
    "Verif.C93_ri_iff"
   ],
   "note": ""
  },
  {
   "property": "C94",
   "status": "proved",
   "theorems": [
    "Verif.C94_irrelevant_cpd",
    "Verif.C94_common_rule",
    "Verif.C94_relevant_cpd",
    "Verif.C94_r_reachable_iff",
    "Verif.C94_s_reachable_iff"
   ],
   "note": ""
  },
  {
   "property": "C95",
   "status": "proved",
   "theorems": [
    "Verif.C95_observe_do",
    "Verif.C95_query",
    "Verif.C95_mean",
    "Verif.C95_total_effect",
    "Verif.C95_adjustment",
    "Verif.C95_confounded",
    "Verif.C95_iff"
   ],
   "note": ""
  },
  {
   "property": "C96",
   "status": "proved",
   "theorems": [
    "Verif.C96_no_influence",
    "Verif.C96_pattern_has_path",
    "Verif.C96_listed",
    "Verif.C96_no_direct_effect",
    "Verif.C96_direct_effect",
    "Verif.C96_iff",
    "Verif.C96_expected_utility"
   ],
   "note": ""
  },
  {
   "property": "C97",
   "status": "proved",
   "theorems": [
    "Verif.C97_none_found",
    "Verif.C97_one_owner",
    "Verif.C97_get_spe",
    "Verif.C97_example"
   ],
   "note": ""
  },
  {
   "property": "C98",
   "status": "proved",
   "theorems": [
    "Verif.C98_get_ne_in_sg",
    "Verif.C98_get_ne",
    "Verif.C98_decided",
    "Verif.C98_get_spe_decided",
    "Verif.C98_get_spe",
    "Verif.C98_get_spe_finds",
    "Verif.C98_example",
    "Verif.C98_decided_example",
    "Verif.C98_order_counterexample"
   ],
   "note": ""
  },
  {
   "property": "C99",
   "status": "proved",
   "theorems": [
    "Verif.C99_add_edge",
    "Verif.C99_remove_edge",
    "Verif.C99_add_edge_stale",
    "Verif.C99_remove_edge_stale",
    "Verif.C99_repair",
    "Verif.C99_refused",
    "Verif.C99_example"
   ],
   "note": ""
  },
  {
   "property": "C100",
   "status": "proved",
   "theorems": [
    "Verif.C100_impute_optimal_policy",
    "Verif.C100_solve",
    "Verif.C100_without_recall",
    "Verif.C100_quantitative_voi",
    "Verif.C100_quantitative_voc",
    "Verif.C100_example",
    "Verif.C100_measures_example"
   ],
   "note": ""
  },
  {
   "property": "C101",
   "status": "proved",
   "theorems": [
    "Verif.C101_build",
    "Verif.C101_query_answered_iff",
    "Verif.C101_query_rejected",
    "Verif.C101_query_exact",
    "Verif.C101_context_rejected",
    "Verif.C101_query_effect",
    "Verif.C101_expected_value",
    "Verif.C101_expected_value_impossible",
    "Verif.C101_copy",
    "Verif.C101_intervene",
    "Verif.C101_list_rejected",
    "Verif.C101_list_blocks_copy",
    "Verif.C101_list_lingers"
   ],
   "note": ""
  },
  {
   "property": "C102",
   "status": "proved",
   "theorems": [
    "Verif.C102_lambda",
    "Verif.C102_others",
    "Verif.C102_not_function",
    "Verif.C102_other_line",
    "Verif.C102_example",
    "Verif.C102_wrong_labels"
   ],
   "note": ""
  },
  {
   "property": "C103",
   "status": "proved",
   "theorems": [
    "Verif.C103_repr",
    "Verif.C103_not_ready",
    "Verif.C103_example"
   ],
   "note": ""
  },
  {
   "property": "C104",
   "status": "proved",
   "theorems": [
    "Verif.C104_own",
    "Verif.C104_free",
    "Verif.C104_alike",
    "Verif.C104_copies",
    "Verif.C104_original_changed",
    "Verif.C104_example"
   ],
   "note": ""
  },
  {
   "property": "C105",
   "status": "proved",
   "theorems": [
    "Verif.C105_type_error",
    "Verif.C105_unnoticed",
    "Verif.C105_match",
    "Verif.C105_blames_parent",
    "Verif.C105_example"
   ],
   "note": ""
  },
  {
   "property": "C106",
   "status": "proved",
   "theorems": [
    "Verif.C106_sync",
    "Verif.C106_by_position",
    "Verif.C106_agreeing_names",
    "Verif.C106_other_order",
    "Verif.C106_example"
   ],
   "note": ""
  },
  {
   "property": "C107",
   "status": "proved",
   "theorems": [
    "Verif.C107_role_without_node",
    "Verif.C107_constructor",
    "Verif.C107_remove",
    "Verif.C107_not_a_node",
    "Verif.C107_leaf",
    "Verif.C107_dangling_role",
    "Verif.C107_function_of_removed",
    "Verif.C107_example",
    "Verif.C107_relationships",
    "Verif.C107_incomplete",
    "Verif.C107_stale_child",
    "Verif.C107_more_examples"
   ],
   "note": ""
  },
  {
   "property": "C108",
   "status": "proved",
   "theorems": [
    "Verif.C108_no_negative",
    "Verif.C108_rounded_columns",
    "Verif.C108_rounding_spreads",
    "Verif.C108_negative_table"
   ],
   "note": ""
  },
  {
   "property": "C109",
   "status": "proved",
   "theorems": [
    "Verif.C109_returns",
    "Verif.C109_raises",
    "Verif.C109_killed",
    "Verif.C109_killed_counterexample",
    "Verif.C109_example",
    "Verif.C109_player_without_utility"
   ],
   "note": ""
  },
  {
   "property": "C110",
   "status": "proved",
   "theorems": [
    "Verif.C110_order",
    "Verif.C110_product_rule",
    "Verif.C110_sum_rule",
    "Verif.C110_irrelevant_observations",
    "Verif.C110_irrelevant_intervention",
    "Verif.C110_example"
   ],
   "note": ""
  },
  {
   "property": "C111",
   "status": "proved",
   "theorems": [
    "Verif.C111_collections",
    "Verif.C111_constructor",
    "Verif.C111_query",
    "Verif.C111_nodes",
    "Verif.C111_relevance",
    "Verif.C111_subgame",
    "Verif.C111_payoffs",
    "Verif.C111_example"
   ],
   "note": ""
  },
  {
   "property": "C112",
   "status": "proved",
   "theorems": [
    "Verif.C112_shape",
    "Verif.C112_cid_color",
    "Verif.C112_macid_color",
    "Verif.C112_player_without_utility",
    "Verif.C112_draw",
    "Verif.C112_draw_property",
    "Verif.C112_label",
    "Verif.C112_cbn",
    "Verif.C112_draw_sccs",
    "Verif.C112_example"
   ],
   "note": ""
  },
  {
   "property": "C113",
   "status": "proved",
   "theorems": [
    "Verif.C113_assignable",
    "Verif.C113_any_part",
    "Verif.C113_plain_function",
    "Verif.C113_needs_total"
   ],
   "note": ""
  },
  {
   "property": "C114",
   "status": "proved",
   "theorems": [
    "Verif.C114_tables",
    "Verif.C114_equilibria",
    "Verif.C114_all_strategies",
    "Verif.C114_prisoners_dilemma",
    "Verif.C114_matching_pennies",
    "Verif.C114_battle_of_the_sexes",
    "Verif.C114_subgame_perfect",
    "Verif.C114_taxi_competition",
    "Verif.C114_modified_taxi_competition",
    "Verif.C114_diagrams"
   ],
   "note": ""
  },
  {
   "property": "C115",
   "status": "proved",
   "theorems": [
    "Verif.C115_requisite_graph",
    "Verif.C115_same_answers",
    "Verif.C115_voc",
    "Verif.C115_ici",
    "Verif.C115_ri_voi",
    "Verif.C115_apart",
    "Verif.C115_neither",
    "Verif.C115_example"
   ],
   "note": ""
  },
  {
   "property": "C116",
   "status": "proved",
   "theorems": [
    "Verif.C116_mechanism_graph",
    "Verif.C116_independent",
    "Verif.C116_same_answer",
    "Verif.C116_dependent",
    "Verif.C116_iff",
    "Verif.C116_refused",
    "Verif.C116_example"
   ],
   "note": ""
  },
  {
   "property": "C117",
   "status": "proved",
   "theorems": [
    "Verif.C117_rule1",
    "Verif.C117_rule2",
    "Verif.C117_rule3",
    "Verif.C117_rule3_graph",
    "Verif.C117_query",
    "Verif.C117_order",
    "Verif.C117_example",
    "Verif.C117_rule2_set",
    "Verif.C117_rule3_set",
    "Verif.C117_query_sets",
    "Verif.C117_example_sets"
   ],
   "note": ""
  },
  {
   "property": "C118",
   "status": "proved",
   "theorems": [
    "Verif.C118_weak_union",
    "Verif.C118_contraction",
    "Verif.C118_intersection",
    "Verif.C118_weak_transitivity",
    "Verif.C118_local_markov",
    "Verif.C118_blanket",
    "Verif.C118_adjacent",
    "Verif.C118_moral",
    "Verif.C118_more_edges",
    "Verif.C118_example"
   ],
   "note": ""
  },
  {
   "property": "C119",
   "status": "proved",
   "theorems": [
    "Verif.C119_prediction",
    "Verif.C119_no_introduced_effect",
    "Verif.C119_root",
    "Verif.C119_example"
   ],
   "note": ""
  },
  {
   "property": "C120",
   "status": "proved",
   "theorems": [
    "Verif.C120_one_agent",
    "Verif.C120_zero_sum",
    "Verif.C120_security",
    "Verif.C120_get_ne",
    "Verif.C120_agrees_with_optimal",
    "Verif.C120_example"
   ],
   "note": ""
  },
  {
   "property": "C121",
   "status": "proved",
   "theorems": [
    "Verif.C121_expected_utility",
    "Verif.C121_max",
    "Verif.C121_equilibria",
    "Verif.C121_voi",
    "Verif.C121_voc",
    "Verif.C121_example"
   ],
   "note": ""
  },
  {
   "property": "C122",
   "status": "proved",
   "theorems": [
    "Verif.C122_front_door",
    "Verif.C122_answers",
    "Verif.C122_identified",
    "Verif.C122_total_effect",
    "Verif.C122_example"
   ],
   "note": ""
  },
  {
   "property": "C123",
   "status": "proved",
   "theorems": [
    "Verif.C123_more",
    "Verif.C123_better",
    "Verif.C123_zero",
    "Verif.C123_compare",
    "Verif.C123_chain",
    "Verif.C123_example"
   ],
   "note": ""
  },
  {
   "property": "C124",
   "status": "proved",
   "theorems": [
    "Verif.C124_zero_sum",
    "Verif.C124_get_ne",
    "Verif.C124_leader",
    "Verif.C124_hurts",
    "Verif.C124_example"
   ],
   "note": ""
  },
  {
   "property": "C125",
   "status": "proved",
   "theorems": [
    "Verif.C125_one_pne",
    "Verif.C125_two_pne",
    "Verif.C125_no_pne",
    "Verif.C125_tie_break",
    "Verif.C125_three_actions",
    "Verif.C125_different_cardinality",
    "Verif.C125_tables"
   ],
   "note": ""
  },
  {
   "property": "C126",
   "status": "proved",
   "theorems": [
    "Verif.C126_subgame_mixed_spe",
    "Verif.C126_payoffs"
   ],
   "note": ""
  },
  {
   "property": "C127",
   "status": "proved",
   "theorems": [
    "Verif.C127_insufficient_recall",
    "Verif.C127_sequential",
    "Verif.C127_sequential_solved",
    "Verif.C127_insufficient_solved"
   ],
   "note": ""
  },
  {
   "property": "C128",
   "status": "proved",
   "theorems": [
    "Verif.C128_introduced_bias",
    "Verif.C128_predictor_bias",
    "Verif.C128_solved",
    "Verif.C128_example"
   ],
   "note": ""
  },
  {
   "property": "C129",
   "status": "proved",
   "theorems": [
    "Verif.C129_stories",
    "Verif.C129_grade_predictor",
    "Verif.C129_content_recommender"
   ],
   "note": ""
  },
  {
   "property": "C130",
   "status": "proved",
   "theorems": [
    "Verif.C130_requisite_rules",
    "Verif.C130_trim_example"
   ],
   "note": ""
  },
  {
   "property": "C131",
   "status": "proved",
   "theorems": [
    "Verif.C131_multi_agent_examples"
   ],
   "note": ""
  },
  {
   "property": "C132",
   "status": "proved",
   "theorems": [
    "Verif.C132_small_examples",
    "Verif.C132_value_of_information",
    "Verif.C132_observations"
   ],
   "note": ""
  },
  {
   "property": "C133",
   "status": "proved",
   "theorems": [
    "Verif.C133_seeing_and_doing",
    "Verif.C133_common_effect"
   ],
   "note": ""
  },
  {
   "property": "C134",
   "status": "proved",
   "theorems": [
    "Verif.C134_repeated_interventions",
    "Verif.C134_repeated_interventions_cbn",
    "Verif.C134_minimal_cbn"
   ],
   "note": ""
  }
 ]
}
'Verif.C01_find_all_dir_paths' depends on axioms: [propext, Classical.choice, Quot.sound]
'Verif.C02_path_edges' depends on axioms: [propext, Classical.choice, Quot.sound]
'Verif.C02_find_all_undir_paths' depends on axioms: [propext, Classical.choice, Quot.sound]
'Verif.C03_dfs_loop_terminates' depends on axioms: [propext, Classical.choice, Quot.sound]
'Verif.C04_directed_decision_free_path' depends on axioms: [propext, Classical.choice, Quot.sound]
'Verif.C05_get_motif_interior' depends on axioms: [propext, Classical.choice, Quot.sound]
'Verif.C05_get_motif_boundaries' depends on axioms: [propext, Classical.choice, Quot.sound]
'Verif.C05_get_motif_index_zero' depends on axioms: [propext, Classical.choice, Quot.sound]
'Verif.C05_get_motifs' depends on axioms: [propext, Classical.choice, Quot.sound]
'Verif.C05_get_motifs_short' depends on axioms: [propext, Classical.choice, Quot.sound]
'Verif.C06_is_active_path' depends on axioms: [propext, Classical.choice, Quot.sound]
'Verif.C07_find_active_path' depends on axioms: [propext, Classical.choice, Quot.sound]
'Verif.C08_is_dconnected' depends on axioms: [propext, Classical.choice, Quot.sound]
'Verif.C08_work_list_terminates' depends on axioms: [propext, Classical.choice, Quot.sound]
'Verif.C09_find_active_path_iff_is_dconnected' depends on axioms: [propext, Classical.choice, Quot.sound]
'Verif.C09_observed_start_differs' depends on axioms: [propext, Classical.choice, Quot.sound]
'Verif.C10_is_dconnected_symmetric' depends on axioms: [propext, Classical.choice, Quot.sound]
'Verif.C11_is_active_backdoor_trail' depends on axioms: [propext, Classical.choice, Quot.sound]
'Verif.C12_is_active_indirect_frontdoor_trail' depends on axioms: [propext, Classical.choice, Quot.sound]
'Verif.C13_edit_histories_preserve_wf' depends on axioms: [propext, Classical.choice, Quot.sound]
'Verif.C13_add_edge_effect' depends on axioms: [propext, Classical.choice, Quot.sound]
'Verif.C13_remove_effect' depends on axioms: [propext, Classical.choice, Quot.sound]
'Verif.C13_add_node_effect' depends on axioms: [propext, Quot.sound]
'Verif.C13_constructor' depends on axioms: [propext, Classical.choice, Quot.sound]
'Verif.C14_get_valid_order' depends on axioms: [propext, Classical.choice, Quot.sound]
'Verif.C14_get_valid_order_default' depends on axioms: [propext, Classical.choice, Quot.sound]
'Verif.C15_constructor_consistent' depends on axioms: [propext, Classical.choice, Quot.sound]
'Verif.C15_role_call' depends on axioms: [propext, Classical.choice, Quot.sound]
'Verif.C15_role_histories' depends on axioms: [propext, Classical.choice, Quot.sound]
'Verif.C15_lists_show_roles' depends on axioms: [propext, Classical.choice, Quot.sound]
'Verif.C16_copy_without_cpds' depends on axioms: [propext, Classical.choice, Quot.sound]
'Verif.C16_copy_exact' depends on axioms: [propext, Classical.choice, Quot.sound]
'Verif.C16_copy_loses_roles' depends on axioms: [propext, Classical.choice, Quot.sound]
'Verif.C17_mechanism_graph' depends on axioms: [propext, Classical.choice, Quot.sound]
'Verif.C17_guard_fires' depends on axioms: [propext, Classical.choice, Quot.sound]
'Verif.C17_guard_is_wrong' depends on axioms: [propext, Classical.choice, Quot.sound]
'Verif.C18_is_r_reachable' depends on axioms: [propext, Classical.choice, Quot.sound]
'Verif.C18_is_s_reachable' depends on axioms: [propext, Classical.choice, Quot.sound]
'Verif.C18_fresh_parent_irrelevant' depends on axioms: [propext, Classical.choice, Quot.sound]
'Verif.C19_relevance_graph' depends on axioms: [propext, Classical.choice, Quot.sound]
'Verif.C19_sufficient_recall_agent' depends on axioms: [propext, Classical.choice, Quot.sound]
'Verif.C19_sufficient_recall_all' depends on axioms: [propext, Classical.choice, Quot.sound]
'Verif.C20_scc_ordering' depends on axioms: [propext, Classical.choice, Quot.sound]
'Verif.C21_subgames' depends on axioms: [propext, Classical.choice, Quot.sound]
'Verif.C22_later_never_relies_on_earlier' depends on axioms: [propext, Classical.choice, Quot.sound]
'Verif.C23_constructed_cpd_valid' depends on axioms: [propext, Classical.choice, Quot.sound]
'Verif.C23_parents_not_ready' depends on axioms: [propext, Classical.choice, Quot.sound]
'Verif.C23_ok_or_value_error' depends on axioms: [propext, Classical.choice, Quot.sound]
'Verif.C24_missing_mass_even' depends on axioms: [propext, Classical.choice, Quot.sound]
'Verif.C24_column_sums_to_one' depends on axioms: [propext, Classical.choice, Quot.sound]
'Verif.C25_inferred_domain' depends on axioms: [propext, Classical.choice, Quot.sound]
'Verif.C25_explicit_domain' depends on axioms: [propext, Classical.choice, Quot.sound]
'Verif.C25_outside_domain_rejected' depends on axioms: [propext, Classical.choice, Quot.sound]
'Verif.C26_bernoulli' depends on axioms: [propext, Classical.choice, Quot.sound]
'Verif.C26_discrete_uniform' depends on axioms: [propext, Classical.choice, Quot.sound]
'Verif.C26_discrete_uniform_duplicates' depends on axioms: [propext, Classical.choice, Quot.sound]
'Verif.C26_noisy_copy' depends on axioms: [propext, Classical.choice, Quot.sound]
'Verif.C27_pure_decision_rules' depends on axioms: [propext, Classical.choice, Quot.sound]
'Verif.C28_arg2idx_bijection' depends on axioms: [propext, Classical.choice, Quot.sound]
'Verif.C29_pure_policies' depends on axioms: [propext, Quot.sound]
'Verif.C29_joint_strategy_exactly_once' depends on axioms: [propext, Classical.choice, Quot.sound]
'Verif.C29_joint_pure_policies' depends on axioms: [propext, Classical.choice, Quot.sound]
'Verif.C30_signature_check_never_raises' depends on axioms: [propext, Classical.choice, Quot.sound]
'Verif.C30_documented_check' depends on axioms: [propext, Classical.choice, Quot.sound]
'Verif.C30_mismatch_accepted' depends on axioms: [propext]
'Verif.C31_add_order_irrelevant' depends on axioms: [propext, Classical.choice, Quot.sound]
'Verif.C32_all_nodes_instantiated' depends on axioms: [propext, Classical.choice, Quot.sound]
'Verif.C32_add_cpds_complete' depends on axioms: [propext, Classical.choice, Quot.sound]
'Verif.C33_cpds_reflect_relationships' depends on axioms: [propext, Classical.choice, Quot.sound]
'Verif.C33_last_relationship' depends on axioms: [propext, Classical.choice, Quot.sound]
'Verif.C33_failed_assignment_stale' depends on axioms: [propext, Classical.choice, Quot.sound]
'Verif.C34_rejected_not_atomic' depends on axioms: [propext, Classical.choice, Quot.sound]
'Verif.C34_counterexample' depends on axioms: [propext, Classical.choice, Quot.sound]
'Verif.C35_copy_faithful' depends on axioms: [propext, Classical.choice, Quot.sound]
'Verif.C35_copy_of_copy' depends on axioms: [propext, Classical.choice, Quot.sound]
'Verif.C35_copy_of_copy_counterexample' depends on axioms: [propext, Classical.choice, Quot.sound]
'Verif.C36_intervene_exact' depends on axioms: [propext, Classical.choice, Quot.sound]
'Verif.C36_intervene_unknown' depends on axioms: [propext, Classical.choice, Quot.sound]
'Verif.C36_counterexample' depends on axioms: [propext, Classical.choice, Quot.sound]
'Verif.C37_query_with_intervention' depends on axioms: [propext, Classical.choice, Quot.sound]
'Verif.C37_query_rejected' depends on axioms: [propext, Classical.choice, Quot.sound]
'Verif.C37_query_connected' depends on axioms: [propext, Classical.choice, Quot.sound]
'Verif.C37_query_effect' depends on axioms: [propext, Classical.choice, Quot.sound]
'Verif.C37_counterexample' depends on axioms: [propext, Classical.choice, Quot.sound]
'Verif.C38_context_outside_domain' depends on axioms: [propext, Classical.choice, Quot.sound]
'Verif.C38_answered_only_if_legal' depends on axioms: [propext, Classical.choice, Quot.sound]
'Verif.C38_different_components' depends on axioms: [propext, Classical.choice, Quot.sound]
'Verif.C38_table_in_context' depends on axioms: [propext, Classical.choice, Quot.sound]
'Verif.C38_impossible_context_ignored' depends on axioms: [propext, Classical.choice, Quot.sound]
'Verif.C39_query_exact' depends on axioms: [propext, Classical.choice, Quot.sound]
'Verif.C39_query_answers' depends on axioms: [propext, Classical.choice, Quot.sound]
'Verif.C39_query_distribution' depends on axioms: [propext, Classical.choice, Quot.sound]
'Verif.C40_truncated_factorisation' depends on axioms: [propext, Classical.choice, Quot.sound]
'Verif.C40_intervention_certain' depends on axioms: [propext, Classical.choice, Quot.sound]
'Verif.C41_dsep_independent' depends on axioms: [propext, Classical.choice, Quot.sound]
'Verif.C42_policy_check' depends on axioms: [propext, Classical.choice, Quot.sound]
'Verif.C42_answer_independent' depends on axioms: [propext, Classical.choice, Quot.sound]
'Verif.C42_same_answer' depends on axioms: [propext, Classical.choice, Quot.sound]
'Verif.C43_expected_value' depends on axioms: [propext, Classical.choice, Quot.sound]
'Verif.C43_value_needs_answer' depends on axioms: [propext, Classical.choice, Quot.sound]
'Verif.C43_impossible_context' depends on axioms: [propext, Classical.choice, Quot.sound]
'Verif.C43_expected_utility' depends on axioms: [propext, Classical.choice, Quot.sound]
'Verif.C43_bounds' depends on axioms: [propext, Classical.choice, Quot.sound]
'Verif.C43_order_counterexample' depends on axioms: [propext, Classical.choice, Quot.sound]
'Verif.C44_total_effect_exact' depends on axioms: [propext, Classical.choice, Quot.sound]
'Verif.C44_nondescendant' depends on axioms: [propext, Classical.choice, Quot.sound]
'Verif.C44_self' depends on axioms: [propext, Classical.choice, Quot.sound]
'Verif.C44_total_effect' depends on axioms: [propext, Classical.choice, Quot.sound]
'Verif.C45_introduced_total_effect' depends on axioms: [propext, Classical.choice, Quot.sound]
'Verif.C45_swap' depends on axioms: [propext, Classical.choice, Quot.sound]
'Verif.C46_optimal_decision_rules' depends on axioms: [propext, Classical.choice, Quot.sound]
'Verif.C46_optimal_pure_policies' depends on axioms: [propext, Classical.choice, Quot.sound]
'Verif.C46_exact' depends on axioms: [propext, Classical.choice, Quot.sound]
'Verif.C46_no_policy_better' depends on axioms: [propext, Classical.choice, Quot.sound]
'Verif.C46_no_decisions' depends on axioms: [propext, Classical.choice, Quot.sound]
'Verif.C46_different_agents' depends on axioms: [propext, Classical.choice, Quot.sound]
'Verif.C46_succeeds' depends on axioms: [propext, Classical.choice, Quot.sound]
'Verif.C46_negative_tolerance' depends on axioms: [propext, Classical.choice, Quot.sound]
'Verif.C46_large_tolerance' depends on axioms: [propext, Classical.choice, Quot.sound]
'Verif.C46_other_component' depends on axioms: [propext, Classical.choice, Quot.sound]
'Verif.C46_example' depends on axioms: [propext, Classical.choice, Quot.sound]
'Verif.C47_impute_optimal_decision' depends on axioms: [propext, Classical.choice, Quot.sound]
'Verif.C47_needs' depends on axioms: [propext, Classical.choice, Quot.sound]
'Verif.C47_succeeds_iff' depends on axioms: [propext, Classical.choice, Quot.sound]
'Verif.C47_same_again' depends on axioms: [propext, Classical.choice, Quot.sound]
'Verif.C47_example' depends on axioms: [propext, Classical.choice, Quot.sound]
'Verif.C47_impossible_context' depends on axioms: [propext, Classical.choice, Quot.sound]
'Verif.C47_idle_decision' depends on axioms: [propext, Classical.choice, Quot.sound]
'Verif.C48_impute_optimal_policy' depends on axioms: [propext, Classical.choice, Quot.sound]
'Verif.C48_example' depends on axioms: [propext, Classical.choice, Quot.sound]
'Verif.C48_without_recall' depends on axioms: [propext, Classical.choice, Quot.sound]
'Verif.C48_solve' depends on axioms: [propext, Classical.choice, Quot.sound]
'Verif.C48_solve_example' depends on axioms: [propext, Classical.choice, Quot.sound]
'Verif.C48_without_recall_example' depends on axioms: [propext, Classical.choice, Quot.sound]
'Verif.C49_impute_random_decision' depends on axioms: [propext, Classical.choice, Quot.sound]
'Verif.C49_no_domain' depends on axioms: [propext, Classical.choice, Quot.sound]
'Verif.C49_fully_mixed' depends on axioms: [propext, Classical.choice, Quot.sound]
'Verif.C49_remove_rules' depends on axioms: [propext, Classical.choice, Quot.sound]
'Verif.C49_round_trip' depends on axioms: [propext, Classical.choice, Quot.sound]
'Verif.C50_empty_query' depends on axioms: [propext, Classical.choice, Quot.sound]
'Verif.C51_requisite' depends on axioms: [propext, Classical.choice, Quot.sound]
'Verif.C51_requisite_graph' depends on axioms: [propext, Classical.choice, Quot.sound]
'Verif.C51_single_decision' depends on axioms: [propext, Classical.choice, Quot.sound]
'Verif.C51_agent_without_utilities' depends on axioms: [propext, Classical.choice, Quot.sound]
'Verif.C52_admits_voi' depends on axioms: [propext, Classical.choice, Quot.sound]
'Verif.C52_single_decision' depends on axioms: [propext, Classical.choice, Quot.sound]
'Verif.C52_errors' depends on axioms: [propext, Classical.choice, Quot.sound]
'Verif.C52_not_a_decision' depends on axioms: [propext, Classical.choice, Quot.sound]
'Verif.C53_no_value_of_information' depends on axioms: [propext, Classical.choice, Quot.sound]
'Verif.C54_admits_ri' depends on axioms: [propext, Classical.choice, Quot.sound]
'Verif.C54_errors' depends on axioms: [propext, Classical.choice, Quot.sound]
'Verif.C55_admits_ici' depends on axioms: [propext, Classical.choice, Quot.sound]
'Verif.C55_between' depends on axioms: [propext, Classical.choice, Quot.sound]
'Verif.C55_errors' depends on axioms: [propext, Quot.sound]
'Verif.C56_admits_voc' depends on axioms: [propext, Classical.choice, Quot.sound]
'Verif.C56_admits_dir_voc' depends on axioms: [propext, Classical.choice, Quot.sound]
'Verif.C56_admits_indir_voc' depends on axioms: [propext, Classical.choice, Quot.sound]
'Verif.C56_implications' depends on axioms: [propext, Classical.choice, Quot.sound]
'Verif.C56_not_direct' depends on axioms: [propext, Classical.choice, Quot.sound]
'Verif.C56_errors' depends on axioms: [propext, Classical.choice, Quot.sound]
'Verif.C57_no_value_of_control' depends on axioms: [propext, Classical.choice, Quot.sound]
'Verif.C57_control_gains_nothing' depends on axioms: [propext, Classical.choice, Quot.sound]
'Verif.C58_quantitative_voi' depends on axioms: [propext, Classical.choice, Quot.sound]
'Verif.C58_quantitative_voc' depends on axioms: [propext, Classical.choice, Quot.sound]
'Verif.C58_voi_single_decision' depends on axioms: [propext, Classical.choice, Quot.sound]
'Verif.C58_voc_single_decision' depends on axioms: [propext, Classical.choice, Quot.sound]
'Verif.C58_voc_negative' depends on axioms: [propext, Classical.choice, Quot.sound]
'Verif.C58_voi_example' depends on axioms: [propext, Classical.choice, Quot.sound]
'Verif.C58_voc_example' depends on axioms: [propext, Classical.choice, Quot.sound]
'Verif.C59_admits_ri_list' depends on axioms: [propext, Classical.choice, Quot.sound]
'Verif.C59_admits_ici_list' depends on axioms: [propext, Quot.sound]
'Verif.C59_admits_voc_list' depends on axioms: [propext, Classical.choice, Quot.sound]
'Verif.C59_admits_indir_voc_list' depends on axioms: [propext, Classical.choice, Quot.sound]
'Verif.C59_admits_dir_voc_list' depends on axioms: [propext, Classical.choice, Quot.sound]
'Verif.C59_requisite_list' depends on axioms: [propext, Classical.choice, Quot.sound]
'Verif.C59_admits_voi_list' depends on axioms: [propext, Classical.choice, Quot.sound]
'Verif.C59_voi_list_no_error' depends on axioms: [propext, Classical.choice, Quot.sound]
'Verif.C60_direct_effect' depends on axioms: [propext, Classical.choice, Quot.sound]
'Verif.C60_manipulation' depends on axioms: [propext, Classical.choice, Quot.sound]
'Verif.C60_unknown_effective' depends on axioms: [propext, Quot.sound]
'Verif.C61_revealing_or_denying' depends on axioms: [propext, Classical.choice, Quot.sound]
'Verif.C61_revealing_if_documented' depends on axioms: [propext, Classical.choice, Quot.sound]
'Verif.C61_signaling' depends on axioms: [propext, Classical.choice, Quot.sound]
'Verif.C61_signaling_returns' depends on axioms: [propext, Classical.choice, Quot.sound]
'Verif.C61_signaling_order' depends on axioms: [propext, Classical.choice, Quot.sound]
'Verif.C61_signaling_raises' depends on axioms: [propext, Classical.choice, Quot.sound]
'Verif.C61_revealing_undocumented' depends on axioms: [propext, Classical.choice, Quot.sound]
'Verif.C62_terminates' depends on axioms: [propext, Quot.sound]
'Verif.C62_result' depends on axioms: [propext, Classical.choice, Quot.sound]
'Verif.C62_returns' depends on axioms: [propext, Classical.choice, Quot.sound]
'Verif.C62_documented' depends on axioms: [propext, Classical.choice, Quot.sound]
'Verif.C62_example' depends on axioms: [propext, Classical.choice, Quot.sound]
'Verif.C63_structure' depends on axioms: [propext, Classical.choice, Quot.sound]
'Verif.C63_returns' depends on axioms: [propext, Classical.choice, Quot.sound]
'Verif.C63_members' depends on axioms: [propext, Classical.choice, Quot.sound]
'Verif.C63_consistent' depends on axioms: [propext, Classical.choice, Quot.sound]
'Verif.C63_example' depends on axioms: [propext, Classical.choice, Quot.sound]
'Verif.C63_not_marginal' depends on axioms: [propext, Classical.choice, Quot.sound]
'Verif.C63_misaligned' depends on axioms: [propext, Classical.choice, Quot.sound]
'Verif.C63_lost_decision' depends on axioms: [propext, Classical.choice, Quot.sound]
'Verif.C63_plain_table' depends on axioms: [propext, Classical.choice, Quot.sound]
'Verif.C63_unspecified' depends on axioms: [propext, Classical.choice, Quot.sound]
'Verif.C64_backward_induction' depends on axioms: [propext, Classical.choice, Quot.sound]
'Verif.C64_get_spe' depends on axioms: [propext, Classical.choice, Quot.sound]
'Verif.C64_example' depends on axioms: [propext, Classical.choice, Quot.sound]
'Verif.C65_policy_profile_assignment' depends on axioms: [propext, Quot.sound]
'Verif.C66_game_tree' depends on axioms: [propext, Classical.choice, Quot.sound]
'Verif.C66_leaves' depends on axioms: [propext, Classical.choice, Quot.sound]
'Verif.C66_returns' depends on axioms: [propext, Classical.choice, Quot.sound]
'Verif.C66_fails' depends on axioms: [propext, Classical.choice, Quot.sound]
'Verif.C66_example' depends on axioms: [propext, Classical.choice, Quot.sound]
'Verif.C66_missing_player' depends on axioms: [propext, Classical.choice, Quot.sound]
'Verif.C66_missing_player_example' depends on axioms: [propext, Classical.choice, Quot.sound]
'Verif.C66_unobserved_counterexample' depends on axioms: [propext, Classical.choice, Quot.sound]
'Verif.C67_same_information' depends on axioms: [propext, Classical.choice, Quot.sound]
'Verif.C67_information_sets' depends on axioms: [propext, Classical.choice, Quot.sound]
'Verif.C67_shared_counterexample' depends on axioms: [propext, Classical.choice, Quot.sound]
'Verif.C68_solver_selection' depends on axioms: [propext, Classical.choice, Quot.sound]
'Verif.C69_behavior_to_cpd' depends on axioms: [propext, Classical.choice, Quot.sound]
'Verif.C69_example' depends on axioms: [propext, Classical.choice, Quot.sound]
'Verif.C70_random_dag' depends on axioms: [propext, Classical.choice, Quot.sound]
'Verif.C70_no_exception' depends on axioms: [propext, Classical.choice, Quot.sound]
'Verif.C70_no_dead_end' depends on axioms: [propext, Classical.choice, Quot.sound]
'Verif.C70_example' depends on axioms: [propext, Classical.choice, Quot.sound]
'Verif.C71_in_degree' depends on axioms: [propext, Classical.choice, Quot.sound]
'Verif.C71_counterexample' depends on axioms: [propext, Classical.choice, Quot.sound]
'Verif.C71_never_returns' depends on axioms: [propext, Classical.choice, Quot.sound]
'Verif.C71_example' depends on axioms: [propext, Classical.choice, Quot.sound]
'Verif.C72_random_macidbase' depends on axioms: [propext, Classical.choice, Quot.sound]
'Verif.C72_value_error' depends on axioms: [propext, Classical.choice, Quot.sound]
'Verif.C72_example' depends on axioms: [propext, Classical.choice, Quot.sound]
'Verif.C72_one_node' depends on axioms: [propext, Classical.choice, Quot.sound]
'Verif.C73_add_sufficient_recall' depends on axioms: [propext, Classical.choice, Quot.sound]
'Verif.C73_value_error' depends on axioms: [propext, Classical.choice, Quot.sound]
'Verif.C73_no_exception' depends on axioms: [propext, Classical.choice, Quot.sound]
'Verif.C73_no_dead_end' depends on axioms: [propext, Classical.choice, Quot.sound]
'Verif.C73_example' depends on axioms: [propext, Classical.choice, Quot.sound]
'Verif.C74_temp_seed' depends on axioms: [propext]
'Verif.C74_restores_state' depends on axioms: [propext]
'Verif.C74_same_distribution' depends on axioms: [propext]
'Verif.C74_history' depends on axioms: [propext]
'Verif.C74_legal_seed' depends on axioms: [propext, Classical.choice, Quot.sound]
'Verif.C74_illegal_seed' depends on axioms: [propext]
'Verif.C74_init' depends on axioms: [propext, Quot.sound]
'Verif.C74_example' depends on axioms: [propext, Quot.sound]
'Verif.C75_requisite_graph_preserves' depends on axioms: [propext, Classical.choice, Quot.sound]
'Verif.C76_payoffs' depends on axioms: [propext, Classical.choice, Quot.sound]
'Verif.C76_behavior_to_cpd' depends on axioms: [propext, Classical.choice, Quot.sound]
'Verif.C76_equilibria' depends on axioms: [propext, Classical.choice, Quot.sound]
'Verif.C76_example' depends on axioms: [propext, Classical.choice, Quot.sound]
'Verif.C77_get_ne_in_sg' depends on axioms: [propext, Classical.choice, Quot.sound]
'Verif.C77_example' depends on axioms: [propext, Classical.choice, Quot.sound]
'Verif.C79_counterexample' depends on axioms: [propext, Classical.choice, Quot.sound]
'Verif.C79_untouched' depends on axioms: [propext, Classical.choice, Quot.sound]
'Verif.C79_two_decisions' depends on axioms: [propext, Classical.choice, Quot.sound]
'Verif.C79_untouched_example' depends on axioms: [propext, Classical.choice, Quot.sound]
'Verif.C79_two_decisions_example' depends on axioms: [propext, Classical.choice, Quot.sound]
'Verif.C80_add_random_cpds' depends on axioms: [propext, Classical.choice, Quot.sound]
'Verif.C80_example' depends on axioms: [propext, Classical.choice, Quot.sound]
'Verif.C80_bad_seed' depends on axioms: [propext, Classical.choice, Quot.sound]
'Verif.C81_random_macid' depends on axioms: [propext, Classical.choice, Quot.sound]
'Verif.C81_random_macid_error' depends on axioms: [propext, Classical.choice, Quot.sound]
'Verif.C81_random_cid' depends on axioms: [propext, Classical.choice, Quot.sound]
'Verif.C81_random_cid_error' depends on axioms: [propext, Classical.choice, Quot.sound]
'Verif.C81_random_cids' depends on axioms: [propext, Classical.choice, Quot.sound]
'Verif.C81_random_cids_error' depends on axioms: [propext, Classical.choice, Quot.sound]
'Verif.C81_random_macids' depends on axioms: [propext, Classical.choice, Quot.sound]
'Verif.C81_example_cids' depends on axioms: [propext, Classical.choice, Quot.sound]
'Verif.C81_example_macids' depends on axioms: [propext, Classical.choice, Quot.sound]
'Verif.C78_get_ne_in_sg' depends on axioms: [propext, Classical.choice, Quot.sound]
'Verif.C78_get_ne' depends on axioms: [propext, Classical.choice, Quot.sound]
'Verif.C78_example' depends on axioms: [propext, Classical.choice, Quot.sound]
'Verif.C82_get_spe' depends on axioms: [propext, Classical.choice, Quot.sound]
'Verif.C82_example' depends on axioms: [propext, Classical.choice, Quot.sound]
'Verif.C83_dconnected_dependent' depends on axioms: [propext, Classical.choice, Quot.sound]
'Verif.C83_iff' depends on axioms: [propext, Classical.choice, Quot.sound]
'Verif.C84_voi_complete' depends on axioms: [propext, Classical.choice, Quot.sound]
'Verif.C84_voi_iff' depends on axioms: [propext, Classical.choice, Quot.sound]
'Verif.C84_quantitative_positive' depends on axioms: [propext, Classical.choice, Quot.sound]
'Verif.C85_voc_complete' depends on axioms: [propext, Classical.choice, Quot.sound]
'Verif.C85_voc_iff' depends on axioms: [propext, Classical.choice, Quot.sound]
'Verif.C85_controlled' depends on axioms: [propext, Classical.choice, Quot.sound]
'Verif.C85_quantitative_positive' depends on axioms: [propext, Classical.choice, Quot.sound]
'Verif.C86_no_incentive' depends on axioms: [propext, Classical.choice, Quot.sound]
'Verif.C86_incentive' depends on axioms: [propext, Classical.choice, Quot.sound]
'Verif.C87_no_response' depends on axioms: [propext, Classical.choice, Quot.sound]
'Verif.C88_least_squares' depends on axioms: [propext, Classical.choice, Quot.sound]
'Verif.C88_imputed' depends on axioms: [propext, Classical.choice, Quot.sound]
'Verif.C88_decision_error' depends on axioms: [propext, Classical.choice, Quot.sound]
'Verif.C88_example' depends on axioms: [propext, Classical.choice, Quot.sound]
'Verif.C88_unconnected_raises' depends on axioms: [propext, Classical.choice, Quot.sound]
'Verif.C89_structural' depends on axioms: [propext, Classical.choice, Quot.sound]
'Verif.C89_missing_cpd' depends on axioms: [propext, Classical.choice, Quot.sound]
'Verif.C89_mechanisms' depends on axioms: [propext, Classical.choice, Quot.sound]
'Verif.C89_exact' depends on axioms: [propext, Classical.choice, Quot.sound]
'Verif.C89_example' depends on axioms: [propext, Classical.choice, Quot.sound]
'Verif.C90_remove' depends on axioms: [propext, Quot.sound]
'Verif.C90_remove_raises' depends on axioms: [propext, Quot.sound]
'Verif.C90_remove_add' depends on axioms: [propext, Classical.choice, Quot.sound]
'Verif.C90_child_first' depends on axioms: [propext, Classical.choice, Quot.sound]
'Verif.C90_example' depends on axioms: [propext, Classical.choice, Quot.sound]
'Verif.C91_sample' depends on axioms: [propext, Classical.choice, Quot.sound]
'Verif.C91_sample_exactly' depends on axioms: [propext, Classical.choice, Quot.sound]
'Verif.C91_incomplete' depends on axioms: [propext, Classical.choice, Quot.sound]
'Verif.C92_programs' depends on axioms: [propext, Classical.choice, Quot.sound]
'Verif.C92_untouched' depends on axioms: [propext, Classical.choice, Quot.sound]
'Verif.C92_arguments_follow' depends on axioms: [propext, Quot.sound]
'Verif.C92_shared_decisions' depends on axioms: [propext, Classical.choice, Quot.sound]
'Verif.C93_ri_complete' depends on axioms: [propext, Classical.choice, Quot.sound]
'Verif.C93_ri_iff' depends on axioms: [propext, Classical.choice, Quot.sound]
'Verif.C94_irrelevant_cpd' depends on axioms: [propext, Classical.choice, Quot.sound]
'Verif.C94_common_rule' depends on axioms: [propext, Classical.choice, Quot.sound]
'Verif.C94_relevant_cpd' depends on axioms: [propext, Classical.choice, Quot.sound]
'Verif.C94_r_reachable_iff' depends on axioms: [propext, Classical.choice, Quot.sound]
'Verif.C94_s_reachable_iff' depends on axioms: [propext, Classical.choice, Quot.sound]
'Verif.C95_observe_do' depends on axioms: [propext, Classical.choice, Quot.sound]
'Verif.C95_query' depends on axioms: [propext, Classical.choice, Quot.sound]
'Verif.C95_mean' depends on axioms: [propext, Classical.choice, Quot.sound]
'Verif.C95_total_effect' depends on axioms: [propext, Classical.choice, Quot.sound]
'Verif.C95_adjustment' depends on axioms: [propext, Classical.choice, Quot.sound]
'Verif.C95_confounded' depends on axioms: [propext, Classical.choice, Quot.sound]
'Verif.C95_iff' depends on axioms: [propext, Classical.choice, Quot.sound]
'Verif.C96_no_influence' depends on axioms: [propext, Classical.choice, Quot.sound]
'Verif.C96_pattern_has_path' depends on axioms: [propext, Classical.choice, Quot.sound]
'Verif.C96_listed' depends on axioms: [propext, Classical.choice, Quot.sound]
'Verif.C96_no_direct_effect' depends on axioms: [propext, Classical.choice, Quot.sound]
'Verif.C96_direct_effect' depends on axioms: [propext, Classical.choice, Quot.sound]
'Verif.C96_iff' depends on axioms: [propext, Classical.choice, Quot.sound]
'Verif.C96_expected_utility' depends on axioms: [propext, Classical.choice, Quot.sound]
'Verif.C97_none_found' depends on axioms: [propext, Classical.choice, Quot.sound]
'Verif.C97_one_owner' depends on axioms: [propext, Classical.choice, Quot.sound]
'Verif.C97_get_spe' depends on axioms: [propext, Classical.choice, Quot.sound]
'Verif.C97_example' depends on axioms: [propext, Classical.choice, Quot.sound]
'Verif.C98_get_ne_in_sg' depends on axioms: [propext, Classical.choice, Quot.sound]
'Verif.C98_get_ne' depends on axioms: [propext, Classical.choice, Quot.sound]
'Verif.C98_decided' depends on axioms: [propext, Classical.choice, Quot.sound]
'Verif.C98_get_spe_decided' depends on axioms: [propext, Classical.choice, Quot.sound]
'Verif.C98_get_spe' depends on axioms: [propext, Classical.choice, Quot.sound]
'Verif.C98_get_spe_finds' depends on axioms: [propext, Classical.choice, Quot.sound]
'Verif.C98_example' depends on axioms: [propext, Classical.choice, Quot.sound]
'Verif.C98_decided_example' depends on axioms: [propext, Classical.choice, Quot.sound]
'Verif.C98_order_counterexample' depends on axioms: [propext, Classical.choice, Quot.sound]
'Verif.C99_add_edge' depends on axioms: [propext, Classical.choice, Quot.sound]
'Verif.C99_remove_edge' depends on axioms: [propext, Classical.choice, Quot.sound]
'Verif.C99_add_edge_stale' depends on axioms: [propext, Classical.choice, Quot.sound]
'Verif.C99_remove_edge_stale' depends on axioms: [propext, Classical.choice, Quot.sound]
'Verif.C99_repair' depends on axioms: [propext, Classical.choice, Quot.sound]
'Verif.C99_refused' depends on axioms: [propext, Classical.choice, Quot.sound]
'Verif.C99_example' depends on axioms: [propext, Classical.choice, Quot.sound]
'Verif.C100_impute_optimal_policy' depends on axioms: [propext, Classical.choice, Quot.sound]
'Verif.C100_solve' depends on axioms: [propext, Classical.choice, Quot.sound]
'Verif.C100_without_recall' depends on axioms: [propext, Classical.choice, Quot.sound]
'Verif.C100_quantitative_voi' depends on axioms: [propext, Classical.choice, Quot.sound]
'Verif.C100_quantitative_voc' depends on axioms: [propext, Classical.choice, Quot.sound]
'Verif.C100_example' depends on axioms: [propext, Classical.choice, Quot.sound]
'Verif.C100_measures_example' depends on axioms: [propext, Classical.choice, Quot.sound]
'Verif.C101_build' depends on axioms: [propext, Classical.choice, Quot.sound]
'Verif.C101_query_answered_iff' depends on axioms: [propext, Classical.choice, Quot.sound]
'Verif.C101_query_rejected' depends on axioms: [propext, Classical.choice, Quot.sound]
'Verif.C101_query_exact' depends on axioms: [propext, Classical.choice, Quot.sound]
'Verif.C101_context_rejected' depends on axioms: [propext, Classical.choice, Quot.sound]
'Verif.C101_query_effect' depends on axioms: [propext, Classical.choice, Quot.sound]
'Verif.C101_expected_value' depends on axioms: [propext, Classical.choice, Quot.sound]
'Verif.C101_expected_value_impossible' depends on axioms: [propext, Classical.choice, Quot.sound]
'Verif.C101_copy' depends on axioms: [propext, Classical.choice, Quot.sound]
'Verif.C101_intervene' depends on axioms: [propext, Classical.choice, Quot.sound]
'Verif.C101_list_rejected' depends on axioms: [propext, Classical.choice, Quot.sound]
'Verif.C101_list_blocks_copy' depends on axioms: [propext, Classical.choice, Quot.sound]
'Verif.C101_list_lingers' depends on axioms: [propext, Classical.choice, Quot.sound]
'Verif.C102_lambda' depends on axioms: [propext, Classical.choice, Quot.sound]
'Verif.C102_others' depends on axioms: [propext, Classical.choice, Quot.sound]
'Verif.C102_not_function' depends on axioms: [propext, Classical.choice, Quot.sound]
'Verif.C102_other_line' depends on axioms: [propext, Classical.choice, Quot.sound]
'Verif.C102_example' depends on axioms: [propext, Classical.choice, Quot.sound]
'Verif.C102_wrong_labels' depends on axioms: [propext, Classical.choice, Quot.sound]
'Verif.C103_repr' depends on axioms: [propext, Classical.choice, Quot.sound]
'Verif.C103_not_ready' depends on axioms: [propext, Quot.sound]
'Verif.C103_example' depends on axioms: [propext, Classical.choice, Quot.sound]
'Verif.C104_own' depends on axioms: [propext, Classical.choice, Quot.sound]
'Verif.C104_free' depends on axioms: [propext, Classical.choice, Quot.sound]
'Verif.C104_alike' depends on axioms: [propext, Classical.choice, Quot.sound]
'Verif.C104_copies' depends on axioms: [propext, Classical.choice, Quot.sound]
'Verif.C104_original_changed' depends on axioms: [propext, Classical.choice, Quot.sound]
'Verif.C104_example' depends on axioms: [propext, Classical.choice, Quot.sound]
'Verif.C105_type_error' depends on axioms: [propext, Classical.choice, Quot.sound]
'Verif.C105_unnoticed' depends on axioms: [propext, Classical.choice, Quot.sound]
'Verif.C105_match' depends on axioms: [propext, Classical.choice, Quot.sound]
'Verif.C105_blames_parent' depends on axioms: [propext, Classical.choice, Quot.sound]
'Verif.C105_example' depends on axioms: [propext, Classical.choice, Quot.sound]
'Verif.C106_sync' depends on axioms: [propext]
'Verif.C106_by_position' depends on axioms: [propext, Classical.choice, Quot.sound]
'Verif.C106_agreeing_names' depends on axioms: [propext, Classical.choice, Quot.sound]
'Verif.C106_other_order' depends on axioms: [propext, Classical.choice, Quot.sound]
'Verif.C106_example' depends on axioms: [propext, Classical.choice, Quot.sound]
'Verif.C107_role_without_node' depends on axioms: [propext, Classical.choice, Quot.sound]
'Verif.C107_constructor' depends on axioms: [propext, Classical.choice, Quot.sound]
'Verif.C107_remove' depends on axioms: [propext, Classical.choice, Quot.sound]
'Verif.C107_not_a_node' depends on axioms: [propext, Classical.choice, Quot.sound]
'Verif.C107_leaf' depends on axioms: [propext, Classical.choice, Quot.sound]
'Verif.C107_dangling_role' depends on axioms: [propext, Classical.choice, Quot.sound]
'Verif.C107_function_of_removed' depends on axioms: [propext, Classical.choice, Quot.sound]
'Verif.C107_example' depends on axioms: [propext, Classical.choice, Quot.sound]
'Verif.C107_relationships' depends on axioms: [propext, Classical.choice, Quot.sound]
'Verif.C107_incomplete' depends on axioms: [propext, Classical.choice, Quot.sound]
'Verif.C107_stale_child' depends on axioms: [propext, Classical.choice, Quot.sound]
'Verif.C107_more_examples' depends on axioms: [propext, Classical.choice, Quot.sound]
'Verif.C108_no_negative' depends on axioms: [propext, Classical.choice, Quot.sound]
'Verif.C108_rounded_columns' depends on axioms: [propext, Classical.choice, Quot.sound]
'Verif.C108_rounding_spreads' depends on axioms: [propext, Classical.choice, Quot.sound]
'Verif.C108_negative_table' depends on axioms: [propext, Classical.choice, Quot.sound]
'Verif.C109_returns' depends on axioms: [propext, Classical.choice, Quot.sound]
'Verif.C109_raises' depends on axioms: [propext, Classical.choice, Quot.sound]
'Verif.C109_killed' depends on axioms: [propext, Classical.choice, Quot.sound]
'Verif.C109_killed_counterexample' depends on axioms: [propext, Classical.choice, Quot.sound]
'Verif.C109_example' depends on axioms: [propext, Classical.choice, Quot.sound]
'Verif.C109_player_without_utility' depends on axioms: [propext, Classical.choice, Quot.sound]
'Verif.C110_order' depends on axioms: [propext, Classical.choice, Quot.sound]
'Verif.C110_product_rule' depends on axioms: [propext, Classical.choice, Quot.sound]
'Verif.C110_sum_rule' depends on axioms: [propext, Classical.choice, Quot.sound]
'Verif.C110_irrelevant_observations' depends on axioms: [propext, Classical.choice, Quot.sound]
'Verif.C110_irrelevant_intervention' depends on axioms: [propext, Classical.choice, Quot.sound]
'Verif.C110_example' depends on axioms: [propext, Classical.choice, Quot.sound]
'Verif.C111_collections' depends on axioms: [propext, Classical.choice, Quot.sound]
'Verif.C111_constructor' depends on axioms: [propext]
'Verif.C111_query' depends on axioms: [propext, Classical.choice, Quot.sound]
'Verif.C111_nodes' depends on axioms: [propext, Classical.choice, Quot.sound]
'Verif.C111_relevance' depends on axioms: [propext, Classical.choice, Quot.sound]
'Verif.C111_subgame' depends on axioms: [propext, Classical.choice, Quot.sound]
'Verif.C111_payoffs' depends on axioms: [propext, Classical.choice, Quot.sound]
'Verif.C111_example' depends on axioms: [propext, Classical.choice, Quot.sound]
'Verif.C112_shape' depends on axioms: [propext, Classical.choice, Quot.sound]
'Verif.C112_cid_color' depends on axioms: [propext, Classical.choice, Quot.sound]
'Verif.C112_macid_color' depends on axioms: [propext, Classical.choice, Quot.sound]
'Verif.C112_player_without_utility' depends on axioms: [propext, Classical.choice, Quot.sound]
'Verif.C112_draw' depends on axioms: [propext, Classical.choice, Quot.sound]
'Verif.C112_draw_property' depends on axioms: [propext]
'Verif.C112_label' depends on axioms: [propext]
'Verif.C112_cbn' depends on axioms: [propext, Classical.choice, Quot.sound]
'Verif.C112_draw_sccs' depends on axioms: [propext, Classical.choice, Quot.sound]
'Verif.C112_example' depends on axioms: [propext, Classical.choice, Quot.sound]
'Verif.C113_assignable' depends on axioms: [propext, Classical.choice, Quot.sound]
'Verif.C113_any_part' depends on axioms: [propext, Classical.choice, Quot.sound]
'Verif.C113_plain_function' depends on axioms: [propext, Classical.choice, Quot.sound]
'Verif.C113_needs_total' depends on axioms: [propext, Classical.choice, Quot.sound]
'Verif.C114_tables' depends on axioms: [propext, Classical.choice, Quot.sound]
'Verif.C114_equilibria' depends on axioms: [propext, Classical.choice, Quot.sound]
'Verif.C114_all_strategies' depends on axioms: [propext, Classical.choice, Quot.sound]
'Verif.C114_prisoners_dilemma' depends on axioms: [propext, Classical.choice, Quot.sound]
'Verif.C114_matching_pennies' depends on axioms: [propext, Classical.choice, Quot.sound]
'Verif.C114_battle_of_the_sexes' depends on axioms: [propext, Classical.choice, Quot.sound]
'Verif.C114_subgame_perfect' depends on axioms: [propext, Classical.choice, Quot.sound]
'Verif.C114_taxi_competition' depends on axioms: [propext, Classical.choice, Quot.sound]
'Verif.C114_modified_taxi_competition' depends on axioms: [propext, Classical.choice, Quot.sound]
'Verif.C114_diagrams' depends on axioms: [propext, Classical.choice, Quot.sound]
'Verif.C115_requisite_graph' depends on axioms: [propext, Classical.choice, Quot.sound]
'Verif.C115_same_answers' depends on axioms: [propext, Classical.choice, Quot.sound]
'Verif.C115_voc' depends on axioms: [propext, Classical.choice, Quot.sound]
'Verif.C115_ici' depends on axioms: [propext, Classical.choice, Quot.sound]
'Verif.C115_ri_voi' depends on axioms: [propext, Classical.choice, Quot.sound]
'Verif.C115_apart' depends on axioms: [propext, Classical.choice, Quot.sound]
'Verif.C115_neither' depends on axioms: [propext, Classical.choice, Quot.sound]
'Verif.C115_example' depends on axioms: [propext, Classical.choice, Quot.sound]
'Verif.C116_mechanism_graph' depends on axioms: [propext, Classical.choice, Quot.sound]
'Verif.C116_independent' depends on axioms: [propext, Classical.choice, Quot.sound]
'Verif.C116_same_answer' depends on axioms: [propext, Classical.choice, Quot.sound]
'Verif.C116_dependent' depends on axioms: [propext, Classical.choice, Quot.sound]
'Verif.C116_iff' depends on axioms: [propext, Classical.choice, Quot.sound]
'Verif.C116_refused' depends on axioms: [propext, Classical.choice, Quot.sound]
'Verif.C116_example' depends on axioms: [propext, Classical.choice, Quot.sound]
'Verif.C117_rule1' depends on axioms: [propext, Classical.choice, Quot.sound]
'Verif.C117_rule2' depends on axioms: [propext, Classical.choice, Quot.sound]
'Verif.C117_rule3' depends on axioms: [propext, Classical.choice, Quot.sound]
'Verif.C117_rule3_graph' depends on axioms: [propext, Classical.choice, Quot.sound]
'Verif.C117_query' depends on axioms: [propext, Classical.choice, Quot.sound]
'Verif.C117_order' depends on axioms: [propext, Classical.choice, Quot.sound]
'Verif.C117_example' depends on axioms: [propext, Classical.choice, Quot.sound]
'Verif.C117_rule2_set' depends on axioms: [propext, Classical.choice, Quot.sound]
'Verif.C117_rule3_set' depends on axioms: [propext, Classical.choice, Quot.sound]
'Verif.C117_query_sets' depends on axioms: [propext, Classical.choice, Quot.sound]
'Verif.C117_example_sets' depends on axioms: [propext, Classical.choice, Quot.sound]
'Verif.C118_weak_union' depends on axioms: [propext, Classical.choice, Quot.sound]
'Verif.C118_contraction' depends on axioms: [propext, Classical.choice, Quot.sound]
'Verif.C118_intersection' depends on axioms: [propext, Classical.choice, Quot.sound]
'Verif.C118_weak_transitivity' depends on axioms: [propext, Classical.choice, Quot.sound]
'Verif.C118_local_markov' depends on axioms: [propext, Classical.choice, Quot.sound]
'Verif.C118_blanket' depends on axioms: [propext, Classical.choice, Quot.sound]
'Verif.C118_adjacent' depends on axioms: [propext, Classical.choice, Quot.sound]
'Verif.C118_moral' depends on axioms: [propext, Classical.choice, Quot.sound]
'Verif.C118_more_edges' depends on axioms: [propext, Classical.choice, Quot.sound]
'Verif.C118_example' depends on axioms: [propext, Classical.choice, Quot.sound]
'Verif.C119_prediction' depends on axioms: [propext, Classical.choice, Quot.sound]
'Verif.C119_no_introduced_effect' depends on axioms: [propext, Classical.choice, Quot.sound]
'Verif.C119_root' depends on axioms: [propext, Classical.choice, Quot.sound]
'Verif.C119_example' depends on axioms: [propext, Classical.choice, Quot.sound]
'Verif.C120_one_agent' depends on axioms: [propext, Classical.choice, Quot.sound]
'Verif.C120_zero_sum' depends on axioms: [propext, Classical.choice, Quot.sound]
'Verif.C120_security' depends on axioms: [propext, Classical.choice, Quot.sound]
'Verif.C120_get_ne' depends on axioms: [propext, Classical.choice, Quot.sound]
'Verif.C120_agrees_with_optimal' depends on axioms: [propext, Classical.choice, Quot.sound]
'Verif.C120_example' depends on axioms: [propext, Classical.choice, Quot.sound]
'Verif.C121_expected_utility' depends on axioms: [propext, Classical.choice, Quot.sound]
'Verif.C121_max' depends on axioms: [propext, Classical.choice, Quot.sound]
'Verif.C121_equilibria' depends on axioms: [propext, Classical.choice, Quot.sound]
'Verif.C121_voi' depends on axioms: [propext, Classical.choice, Quot.sound]
'Verif.C121_voc' depends on axioms: [propext, Classical.choice, Quot.sound]
'Verif.C121_example' depends on axioms: [propext, Classical.choice, Quot.sound]
'Verif.C122_front_door' depends on axioms: [propext, Classical.choice, Quot.sound]
'Verif.C122_answers' depends on axioms: [propext, Classical.choice, Quot.sound]
'Verif.C122_identified' depends on axioms: [propext, Classical.choice, Quot.sound]
'Verif.C122_total_effect' depends on axioms: [propext, Classical.choice, Quot.sound]
'Verif.C122_example' depends on axioms: [propext, Classical.choice, Quot.sound]
'Verif.C123_more' depends on axioms: [propext, Classical.choice, Quot.sound]
'Verif.C123_better' depends on axioms: [propext, Classical.choice, Quot.sound]
'Verif.C123_zero' depends on axioms: [propext, Classical.choice, Quot.sound]
'Verif.C123_compare' depends on axioms: [propext, Classical.choice, Quot.sound]
'Verif.C123_chain' depends on axioms: [propext, Classical.choice, Quot.sound]
'Verif.C123_example' depends on axioms: [propext, Classical.choice, Quot.sound]
'Verif.C124_zero_sum' depends on axioms: [propext, Classical.choice, Quot.sound]
'Verif.C124_get_ne' depends on axioms: [propext, Classical.choice, Quot.sound]
'Verif.C124_leader' depends on axioms: [propext, Classical.choice, Quot.sound]
'Verif.C124_hurts' depends on axioms: [propext, Classical.choice, Quot.sound]
'Verif.C124_example' depends on axioms: [propext, Classical.choice, Quot.sound]
'Verif.C125_one_pne' depends on axioms: [propext, Classical.choice, Quot.sound]
'Verif.C125_two_pne' depends on axioms: [propext, Classical.choice, Quot.sound]
'Verif.C125_no_pne' depends on axioms: [propext, Classical.choice, Quot.sound]
'Verif.C125_tie_break' depends on axioms: [propext, Classical.choice, Quot.sound]
'Verif.C125_three_actions' depends on axioms: [propext, Classical.choice, Quot.sound]
'Verif.C125_different_cardinality' depends on axioms: [propext, Classical.choice, Quot.sound]
'Verif.C125_tables' depends on axioms: [propext, Classical.choice, Quot.sound]
'Verif.C126_subgame_mixed_spe' depends on axioms: [propext, Classical.choice, Quot.sound]
'Verif.C126_payoffs' depends on axioms: [propext, Classical.choice, Quot.sound]
'Verif.C127_insufficient_recall' depends on axioms: [propext, Classical.choice, Quot.sound]
'Verif.C127_sequential' depends on axioms: [propext, Classical.choice, Quot.sound]
'Verif.C127_sequential_solved' depends on axioms: [propext, Classical.choice, Quot.sound]
'Verif.C127_insufficient_solved' depends on axioms: [propext, Classical.choice, Quot.sound]
'Verif.C128_introduced_bias' depends on axioms: [propext, Classical.choice, Quot.sound]
'Verif.C128_predictor_bias' depends on axioms: [propext, Classical.choice, Quot.sound]
'Verif.C128_solved' depends on axioms: [propext, Classical.choice, Quot.sound]
'Verif.C128_example' depends on axioms: [propext, Classical.choice, Quot.sound]
'Verif.C129_stories' depends on axioms: [propext, Classical.choice, Quot.sound]
'Verif.C129_grade_predictor' depends on axioms: [propext, Classical.choice, Quot.sound]
'Verif.C129_content_recommender' depends on axioms: [propext, Classical.choice, Quot.sound]
'Verif.C130_requisite_rules' depends on axioms: [propext, Classical.choice, Quot.sound]
'Verif.C130_trim_example' depends on axioms: [propext, Classical.choice, Quot.sound]
'Verif.C131_multi_agent_examples' depends on axioms: [propext, Classical.choice, Quot.sound]
'Verif.C132_small_examples' depends on axioms: [propext, Classical.choice, Quot.sound]
'Verif.C132_value_of_information' depends on axioms: [propext, Classical.choice, Quot.sound]
'Verif.C132_observations' depends on axioms: [propext, Classical.choice, Quot.sound]
'Verif.C133_seeing_and_doing' depends on axioms: [propext, Classical.choice, Quot.sound]
'Verif.C133_common_effect' depends on axioms: [propext, Classical.choice, Quot.sound]
'Verif.C134_repeated_interventions' depends on axioms: [propext, Classical.choice, Quot.sound]
'Verif.C134_repeated_interventions_cbn' depends on axioms: [propext, Classical.choice, Quot.sound]
'Verif.C134_minimal_cbn' depends on axioms: [propext, Classical.choice, Quot.sound]

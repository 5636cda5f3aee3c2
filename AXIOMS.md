# Axioms of the theorems named in MANIFEST.json

Generated by `tools/axioms.py` with `#print axioms`. `propext`, `Classical.choice` and `Quot.sound` are the standard axioms of Lean; no other axiom occurs.

## no axioms (2 theorems)

`Seldon.C38_plain`, `Seldon.C38_throws`

## propext (13 theorems)

`Seldon.C01_constructors`, `Seldon.C06_nEdges_value`, `Seldon.C06_overflow`, `Seldon.C07_set_weights`, `Seldon.C07_set_neighbours`, `Seldon.C07_set_const_push`, `Seldon.C07_out_of_range`, `Seldon.C43_weights`, `Seldon.C56_kind`, `Seldon.C56_compatible`, `Seldon.C56_incompatible`, `Seldon.C74_plain_connected`, `Seldon.C74_network_connected`

## Quot.sound, propext (25 theorems)

`Seldon.C06_nEdges_partial`, `Seldon.C11_fully_connected`, `Seldon.C22_edge_cases`, `Seldon.C41_inverted`, `Seldon.C51_exactly`, `Seldon.C42_activity`, `Seldon.C42_inertial`, `Seldon.C44_none`, `Seldon.C44_all`, `Seldon.C45_reuse`, `Seldon.C48_step`, `Seldon.C48_activity`, `Seldon.C48_inertial`, `Seldon.C53_validate`, `Seldon.C53_mismatch`, `Seldon.C55_matching`, `Seldon.C55_no_model`, `Seldon.C55_total`, `Seldon.C56_network_file`, `Seldon.C77_same_network`, `Seldon.C78_same_network`, `Seldon.C84_accepted`, `Seldon.C101_network`, `Seldon.C101_inertial`, `Seldon.C101_models`

## Classical.choice, Quot.sound, propext (392 theorems)

`Seldon.C01_step`, `Seldon.C01_history`, `Seldon.C02_toggle_preserves_graph`, `Seldon.C03_transpose_switch`, `Seldon.C03_toggle_transpose_is_switch`, `Seldon.C04_toggle_twice`, `Seldon.C04_toggle_periodic`, `Seldon.C05_merge`, `Seldon.C05_unique_idempotent`, `Seldon.C08_scc_partition`, `Seldon.C09_component_strongly_connected`, `Seldon.C09_single_component`, `Seldon.C10_exact_partial`, `Seldon.C10_symmetric_partial`, `Seldon.C10_acyclic_partial`, `Seldon.C10_warning_partial`, `Seldon.C10_split`, `Seldon.C10_false_warning`, `Seldon.C12_fully_connected_random`, `Seldon.C12_n_connections`, `Seldon.C13_n_connections_partial`, `Seldon.C13_too_many`, `Seldon.C14_lattice`, `Seldon.C21_draw_unique`, `Seldon.C21_available`, `Seldon.C21_draw_unique_covers`, `Seldon.C21_too_many`, `Seldon.C22_reservoir`, `Seldon.C23_no_self`, `Seldon.C24_hamming`, `Seldon.C15_network_round_trip`, `Seldon.C16_simple`, `Seldon.C16_activity`, `Seldon.C16_inertial`, `Seldon.C16_vector_partial`, `Seldon.C16_vector_empty`, `Seldon.C17_comment`, `Seldon.C17_blank`, `Seldon.C18_calls_partial`, `Seldon.C18_number_callbacks`, `Seldon.C18_counterexample`, `Seldon.C19_inertial`, `Seldon.C19_activity_partial`, `Seldon.C19_activity_single_column`, `Seldon.C20_dot_partial`, `Seldon.C20_no_neighbours`, `Seldon.C29_iteration`, `Seldon.C29_exact`, `Seldon.C29_constructor`, `Seldon.C29_any_number`, `Seldon.C30_hull`, `Seldon.C30_consensus`, `Seldon.C30_affine`, `Seldon.C31_stop`, `Seldon.C31_exists`, `Seldon.C31_limit`, `Seldon.C32_terminates`, `Seldon.C32_strongly_connected`, `Seldon.C32_periodic`, `Seldon.C52_files`, `Seldon.C52_total`, `Seldon.C52_no_duplicates`, `Seldon.C52_zero_interval`, `Seldon.C33_sum`, `Seldon.C33_interaction`, `Seldon.C34_hull`, `Seldon.C34_default`, `Seldon.C35_interaction`, `Seldon.C35_squares`, `Seldon.C35_variance`, `Seldon.C36_clusters`, `Seldon.C37_pair`, `Seldon.C37_every_pair`, `Seldon.C37_schedule`, `Seldon.C37_total`, `Seldon.C38_square`, `Seldon.C39_binary`, `Seldon.C39_total`, `Seldon.C40_interaction`, `Seldon.C40_agreement`, `Seldon.C40_consensus`, `Seldon.C41_unchanged_partial`, `Seldon.C41_false`, `Seldon.C51_reaches`, `Seldon.C51_never`, `Seldon.C51_deffuant`, `Seldon.C51_deffuant_vector`, `Seldon.C51_activity`, `Seldon.C51_inertial`, `Seldon.C43_activity`, `Seldon.C43_inertial`, `Seldon.C43_total`, `Seldon.C43_total_inertial`, `Seldon.C45_contacts_partial`, `Seldon.C45_nobody`, `Seldon.C45_not_exact`, `Seldon.C46_step`, `Seldon.C46_bounded`, `Seldon.C46_real`, `Seldon.C47_rk4`, `Seldon.C47_history`, `Seldon.C50_verlet`, `Seldon.C50_rest`, `Seldon.C49_activity`, `Seldon.C49_inertial`, `Seldon.C49_total`, `Seldon.C49_total_inertial`, `Seldon.C49_bounds_partial`, `Seldon.C49_one_contact`, `Seldon.C49_weight_range`, `Seldon.C49_activity_ignored`, `Seldon.C49_two_agents`, `Seldon.C25_density`, `Seldon.C25_inverse`, `Seldon.C25_law_partial`, `Seldon.C25_draw`, `Seldon.C25_pdf_false`, `Seldon.C25_mean_false`, `Seldon.C25_mean_example`, `Seldon.C26_range`, `Seldon.C26_draw`, `Seldon.C26_law`, `Seldon.C27_special`, `Seldon.C27_inside`, `Seldon.C28_moments`, `Seldon.C28_normal`, `Seldon.C28_copula`, `Seldon.C60_deffuant`, `Seldon.C60_deffuant_vector`, `Seldon.C60_activity`, `Seldon.C60_inertial`, `Seldon.C60_degroot_partial`, `Seldon.C60_degroot_stuck`, `Seldon.C61_initial`, `Seldon.C61_too_many_bots`, `Seldon.C55_keys_partial`, `Seldon.C55_other_keys`, `Seldon.C55_convergence_default`, `Seldon.C55_bot_activity_default`, `Seldon.C56_agents_file`, `Seldon.C54_safe_partial`, `Seldon.C54_zero_interval`, `Seldon.C54_too_many_bots`, `Seldon.C54_too_many_contacts`, `Seldon.C57_scalar`, `Seldon.C57_not_square`, `Seldon.C57_endless`, `Seldon.C57_vector`, `Seldon.C57_endless_vector`, `Seldon.C58_run`, `Seldon.C58_safe`, `Seldon.C59_activity`, `Seldon.C59_inertial`, `Seldon.C59_endless_activity`, `Seldon.C59_endless_inertial`, `Seldon.C62_uniform`, `Seldon.C62_fairTapes`, `Seldon.C62_law`, `Seldon.C63_spread`, `Seldon.C63_consensus`, `Seldon.C63_invariant`, `Seldon.C63_mean`, `Seldon.C63_trajectory_exists`, `Seldon.C64_converges`, `Seldon.C64_clusters`, `Seldon.C64_limit_hull`, `Seldon.C64_trajectory_exists`, `Seldon.C64_mu_one`, `Seldon.C65_safe`, `Seldon.C65_rejected`, `Seldon.C65_too_many_agents`, `Seldon.C66_restart`, `Seldon.C66_continue`, `Seldon.C67_fresh`, `Seldon.C67_weighted`, `Seldon.C67_single`, `Seldon.C67_almost_surely`, `Seldon.C68_accuracy`, `Seldon.C68_draws`, `Seldon.C69_initial_law`, `Seldon.C70_integers`, `Seldon.C70_network`, `Seldon.C70_agents`, `Seldon.C71_contacts`, `Seldon.C71_contacts_inertial`, `Seldon.C71_network`, `Seldon.C71_independent`, `Seldon.C71_agent`, `Seldon.C71_activated`, `Seldon.C71_single`, `Seldon.C71_no_self`, `Seldon.C72_unit`, `Seldon.C72_hull`, `Seldon.C72_clusters`, `Seldon.C72_program`, `Seldon.C72_mu_one`, `Seldon.C73_weights`, `Seldon.C73_step`, `Seldon.C73_nonneg`, `Seldon.C73_track`, `Seldon.C73_hull`, `Seldon.C73_stops`, `Seldon.C73_program`, `Seldon.C74_pair`, `Seldon.C74_neighbour`, `Seldon.C74_meet_again`, `Seldon.C74_clusters`, `Seldon.C74_consensus`, `Seldon.C74_lattice`, `Seldon.C75_step`, `Seldon.C75_decay`, `Seldon.C75_neutral`, `Seldon.C75_run_exists`, `Seldon.C76_step`, `Seldon.C76_onesided`, `Seldon.C76_real`, `Seldon.tanh_squashing`, `Seldon.C77_accuracy`, `Seldon.C77_bots`, `Seldon.C77_bots_sharp`, `Seldon.C77_bots_example`, `Seldon.C77_solution_exists`, `Seldon.C77_exists`, `Seldon.C78_accuracy`, `Seldon.C78_solution_exists`, `Seldon.C78_exists`, `Seldon.C79_refines`, `Seldon.C79_history`, `Seldon.C79_kill`, `Seldon.C79_disk`, `Seldon.C79_rejected`, `Seldon.C79_silent`, `Seldon.C79_monotone`, `Seldon.C79_exit`, `Seldon.C79_restart`, `Seldon.C79_inside`, `Seldon.C80_transcript`, `Seldon.C80_shows`, `Seldon.C80_seed`, `Seldon.C80_reproduce`, `Seldon.C80_log`, `Seldon.C81_unused`, `Seldon.C81_log`, `Seldon.C82_bounded`, `Seldon.C82_program`, `Seldon.C83_bounded`, `Seldon.C83_energy`, `Seldon.C83_unstable`, `Seldon.C83_persistent`, `Seldon.C84_bounded`, `Seldon.C84_unstable`, `Seldon.C84_threshold`, `Seldon.C85_rest`, `Seldon.C85_rate`, `Seldon.C85_consensus`, `Seldon.C85_created`, `Seldon.C86_degroot_step`, `Seldon.C86_degroot`, `Seldon.C86_degroot_run`, `Seldon.C86_deffuant`, `Seldon.C87_relabel_partial`, `Seldon.C87_bias`, `Seldon.C87_lower_first`, `Seldon.C87_first`, `Seldon.C87_two`, `Seldon.C87_refuted`, `Seldon.C88_activity`, `Seldon.C88_activity_history`, `Seldon.C88_inertial`, `Seldon.C88_inertial_history`, `Seldon.C89_rate`, `Seldon.C89_iterations`, `Seldon.C89_created`, `Seldon.C89_complete`, `Seldon.C89_limit`, `Seldon.C90_difference`, `Seldon.C90_box`, `Seldon.C90_nonexpansive`, `Seldon.C90_monotone`, `Seldon.C91_clusters`, `Seldon.C91_created`, `Seldon.C92_step`, `Seldon.C92_units`, `Seldon.C92_answers_step`, `Seldon.C92_answers`, `Seldon.C93_step`, `Seldon.C93_iterations`, `Seldon.C93_terminates`, `Seldon.C93_created`, `Seldon.C93_program`, `Seldon.C93_converges`, `Seldon.C94_expected`, `Seldon.C94_likely`, `Seldon.C94_network`, `Seldon.C94_created`, `Seldon.C94_lattice`, `Seldon.C95_network`, `Seldon.C95_neighbours`, `Seldon.C95_weights`, `Seldon.C95_listeners`, `Seldon.C95_edge`, `Seldon.C95_audience`, `Seldon.C95_complete`, `Seldon.C95_program`, `Seldon.C96_expected`, `Seldon.C96_share`, `Seldon.C96_order`, `Seldon.C96_first`, `Seldon.C96_weights`, `Seldon.C96_lattice`, `Seldon.C97_initial`, `Seldon.C97_symmetric`, `Seldon.C97_uniform`, `Seldon.C97_created`, `Seldon.C98_tail`, `Seldon.C98_ends`, `Seldon.C99_survivors`, `Seldon.C99_created`, `Seldon.C100_convex`, `Seldon.C100_disagreement`, `Seldon.C100_extremes`, `Seldon.C100_movement`, `Seldon.C100_eventful`, `Seldon.C100_created`, `Seldon.C101_forget`, `Seldon.C101_limit`, `Seldon.C101_program`, `Seldon.C102_weights`, `Seldon.C102_bounded`, `Seldon.C102_decay`, `Seldon.C102_neutral`, `Seldon.C102_onesided`, `Seldon.C102_stable`, `Seldon.C102_forget`, `Seldon.C102_fixed`, `Seldon.C102_inertial`, `Seldon.C102_created`, `Seldon.C103_decay`, `Seldon.C103_forget`, `Seldon.C103_limit`, `Seldon.C104_bounded`, `Seldon.C104_program`, `Seldon.C105_step`, `Seldon.C105_activity`, `Seldon.C105_inertial`, `Seldon.C105_law`, `Seldon.C106_step`, `Seldon.C106_alike`, `Seldon.C106_threshold`, `Seldon.C106_one_contact`, `Seldon.C107_persist`, `Seldon.C107_persist_uniform`, `Seldon.C107_radical`, `Seldon.C107_radical_uniform`, `Seldon.C107_decay`, `Seldon.C108_entry`, `Seldon.C108_entry_inertial`, `Seldon.C108_contacts`, `Seldon.C108_mean_field`, `Seldon.C108_mean_field_two`, `Seldon.C109_bounded`, `Seldon.C109_vanishing`, `Seldon.C109_overflowing`, `Seldon.Overflow.exact_powers`, `Seldon.Overflow.lone_nan`, `Seldon.Overflow.agreed_nan`, `Seldon.C110_simple`, `Seldon.C110_activity`, `Seldon.C110_inertial`, `Seldon.C110_vector`, `Seldon.C110_network`, `Seldon.C111_bounded`, `Seldon.C111_vanishing`, `Seldon.C111_overflowing`, `Seldon.C112_complete`, `Seldon.C113_convergence`, `Seldon.C113_convergence_general`, `Seldon.C113_bots`, `Seldon.C113_bots_general`, `Seldon.C113_exists`, `Seldon.C114_convergence`, `Seldon.C114_convergence_general`, `Seldon.C114_exists`, `Seldon.C115_degroot`, `Seldon.C115_degroot_group`, `Seldon.C115_degroot_strict`, `Seldon.C115_activity`, `Seldon.C115_activity_history`, `Seldon.C115_activity_run`, `Seldon.C115_inertial`, `Seldon.C115_inertial_run`, `Seldon.C115_deffuant`

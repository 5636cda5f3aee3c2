{
 "claims": [
  {
   "property": "C01",
   "status": "proved",
   "theorems": [
    "Seldon.C01_step",
    "Seldon.C01_history",
    "Seldon.C01_constructors"
   ],
   "note": "invariant over all operation histories"
  },
  {
   "property": "C02",
   "status": "proved",
   "theorems": [
    "Seldon.C02_toggle_preserves_graph"
   ],
   "note": ""
  },
  {
   "property": "C03",
   "status": "proved",
   "theorems": [
    "Seldon.C03_transpose_switch",
    "Seldon.C03_toggle_transpose_is_switch"
   ],
   "note": ""
  },
  {
   "property": "C04",
   "status": "proved",
   "theorems": [
    "Seldon.C04_toggle_twice",
    "Seldon.C04_toggle_periodic"
   ],
   "note": ""
  },
  {
   "property": "C05",
   "status": "proved",
   "theorems": [
    "Seldon.C05_merge",
    "Seldon.C05_unique_idempotent"
   ],
   "note": "for every admissible std::sort; weights in any commutative monoid (exact sums)"
  },
  {
   "property": "C06",
   "status": "partial",
   "theorems": [
    "Seldon.C06_nEdges_value",
    "Seldon.C06_nEdges_partial",
    "Seldon.C06_overflow"
   ],
   "note": "false for >= 2^31 edges (int accumulator): counterexample C06_overflow"
  },
  {
   "property": "C07",
   "status": "proved",
   "theorems": [
    "Seldon.C07_set_weights",
    "Seldon.C07_set_neighbours",
    "Seldon.C07_set_const_push",
    "Seldon.C07_out_of_range"
   ],
   "note": ""
  },
  {
   "property": "C08",
   "status": "proved",
   "theorems": [
    "Seldon.C08_scc_partition"
   ],
   "note": "total correctness incl. termination of the fuelled recursion"
  },
  {
   "property": "C09",
   "status": "proved",
   "theorems": [
    "Seldon.C09_component_strongly_connected",
    "Seldon.C09_single_component"
   ],
   "note": ""
  },
  {
   "property": "C10",
   "status": "partial",
   "theorems": [
    "Seldon.C10_exact_partial",
    "Seldon.C10_symmetric_partial",
    "Seldon.C10_acyclic_partial",
    "Seldon.C10_warning_partial",
    "Seldon.C10_split",
    "Seldon.C10_false_warning"
   ],
   "note": "exactness proved for networks in which edges inside a strongly connected component go both ways (symmetric, acyclic and mixed networks); false in general: counterexample C10_split"
  },
  {
   "property": "C11",
   "status": "proved",
   "theorems": [
    "Seldon.C11_fully_connected",
    "Seldon.C12_fully_connected_random"
   ],
   "note": ""
  },
  {
   "property": "C12",
   "status": "proved",
   "theorems": [
    "Seldon.C12_fully_connected_random",
    "Seldon.C12_n_connections"
   ],
   "note": "exact arithmetic, any linearly ordered field"
  },
  {
   "property": "C13",
   "status": "partial",
   "theorems": [
    "Seldon.C13_n_connections_partial",
    "Seldon.C13_too_many"
   ],
   "note": "holds for n_connections < n_agents; otherwise false (C13_too_many: agent 0 is repeated)"
  },
  {
   "property": "C14",
   "status": "proved",
   "theorems": [
    "Seldon.C14_lattice"
   ],
   "note": ""
  },
  {
   "property": "C21",
   "status": "proved",
   "theorems": [
    "Seldon.C21_draw_unique",
    "Seldon.C21_available",
    "Seldon.C21_draw_unique_covers",
    "Seldon.C21_too_many"
   ],
   "note": "incl. what happens when too many are requested"
  },
  {
   "property": "C22",
   "status": "proved",
   "theorems": [
    "Seldon.C22_reservoir",
    "Seldon.C22_edge_cases"
   ],
   "note": ""
  },
  {
   "property": "C23",
   "status": "proved",
   "theorems": [
    "Seldon.C23_no_self"
   ],
   "note": "over extended reals with IEEE conventions"
  },
  {
   "property": "C24",
   "status": "proved",
   "theorems": [
    "Seldon.C24_hamming"
   ],
   "note": ""
  },
  {
   "property": "C15",
   "status": "proved",
   "theorems": [
    "Seldon.C15_network_round_trip"
   ],
   "note": "indices/row lengths below 2^31 (std::stoi), files shorter than 2^64-1; double formatting abstract (round-trip hypothesis)"
  },
  {
   "property": "C16",
   "status": "partial",
   "theorems": [
    "Seldon.C16_simple",
    "Seldon.C16_activity",
    "Seldon.C16_inertial",
    "Seldon.C16_vector_partial",
    "Seldon.C16_vector_empty"
   ],
   "note": "false for an empty discrete opinion vector (reader throws)"
  },
  {
   "property": "C17",
   "status": "proved",
   "theorems": [
    "Seldon.C17_comment",
    "Seldon.C17_blank"
   ],
   "note": ""
  },
  {
   "property": "C18",
   "status": "partial",
   "theorems": [
    "Seldon.C18_calls_partial",
    "Seldon.C18_number_callbacks",
    "Seldon.C18_counterexample"
   ],
   "note": "inner entries are passed with trailing text; harmless for stoi/stod callbacks"
  },
  {
   "property": "C19",
   "status": "partial",
   "theorems": [
    "Seldon.C19_inertial",
    "Seldon.C19_activity_partial",
    "Seldon.C19_activity_single_column"
   ],
   "note": "ActivityAgent with one column gets activity = opinion"
  },
  {
   "property": "C20",
   "status": "partial",
   "theorems": [
    "Seldon.C20_dot_partial",
    "Seldon.C20_no_neighbours"
   ],
   "note": "undefined behaviour when an agent has no neighbours"
  },
  {
   "property": "C29",
   "status": "proved",
   "theorems": [
    "Seldon.C29_iteration",
    "Seldon.C29_exact",
    "Seldon.C29_constructor",
    "Seldon.C29_any_number"
   ],
   "note": "C29_iteration for arbitrary (rounded) arithmetic in evaluation order; C29_exact for exact sums"
  },
  {
   "property": "C30",
   "status": "proved",
   "theorems": [
    "Seldon.C30_hull",
    "Seldon.C30_consensus",
    "Seldon.C30_affine"
   ],
   "note": "exact arithmetic in any linearly ordered field"
  },
  {
   "property": "C31",
   "status": "proved",
   "theorems": [
    "Seldon.C31_stop",
    "Seldon.C31_exists",
    "Seldon.C31_limit"
   ],
   "note": ""
  },
  {
   "property": "C32",
   "status": "proved",
   "theorems": [
    "Seldon.C32_terminates",
    "Seldon.C32_strongly_connected",
    "Seldon.C32_periodic"
   ],
   "note": ""
  },
  {
   "property": "C52",
   "status": "proved",
   "theorems": [
    "Seldon.C52_files",
    "Seldon.C52_total",
    "Seldon.C52_no_duplicates",
    "Seldon.C52_zero_interval"
   ],
   "note": "for every implementation of the Model interface"
  },
  {
   "property": "C33",
   "status": "proved",
   "theorems": [
    "Seldon.C33_sum",
    "Seldon.C33_interaction"
   ],
   "note": "exact arithmetic"
  },
  {
   "property": "C34",
   "status": "proved",
   "theorems": [
    "Seldon.C34_hull",
    "Seldon.C34_default"
   ],
   "note": "exact arithmetic"
  },
  {
   "property": "C35",
   "status": "proved",
   "theorems": [
    "Seldon.C35_interaction",
    "Seldon.C35_squares",
    "Seldon.C35_variance"
   ],
   "note": ""
  },
  {
   "property": "C36",
   "status": "proved",
   "theorems": [
    "Seldon.C36_clusters"
   ],
   "note": ""
  },
  {
   "property": "C37",
   "status": "proved",
   "theorems": [
    "Seldon.C37_pair",
    "Seldon.C37_every_pair",
    "Seldon.C37_schedule",
    "Seldon.C37_total"
   ],
   "note": ""
  },
  {
   "property": "C38",
   "status": "proved",
   "theorems": [
    "Seldon.C38_plain",
    "Seldon.C38_throws",
    "Seldon.C38_square"
   ],
   "note": "std::sqrt abstract: only size_t(sqrt(L^2)) = L is assumed"
  },
  {
   "property": "C39",
   "status": "proved",
   "theorems": [
    "Seldon.C39_binary",
    "Seldon.C39_total"
   ],
   "note": ""
  },
  {
   "property": "C40",
   "status": "proved",
   "theorems": [
    "Seldon.C40_interaction",
    "Seldon.C40_agreement",
    "Seldon.C40_consensus"
   ],
   "note": ""
  },
  {
   "property": "C41",
   "status": "partial",
   "theorems": [
    "Seldon.C41_unchanged_partial",
    "Seldon.C41_false",
    "Seldon.C41_inverted"
   ],
   "note": "false in the code: agents within the threshold become equal for every mu; mu acts in the inverted direction"
  },
  {
   "property": "C51",
   "status": "proved",
   "theorems": [
    "Seldon.C51_exactly",
    "Seldon.C51_reaches",
    "Seldon.C51_never",
    "Seldon.C51_deffuant",
    "Seldon.C51_deffuant_vector",
    "Seldon.C51_activity",
    "Seldon.C51_inertial"
   ],
   "note": "generic in the model"
  },
  {
   "property": "C42",
   "status": "proved",
   "theorems": [
    "Seldon.C42_activity",
    "Seldon.C42_inertial"
   ],
   "note": "from the success of the iterations alone, no well-formedness assumed"
  },
  {
   "property": "C43",
   "status": "proved",
   "theorems": [
    "Seldon.C43_activity",
    "Seldon.C43_inertial",
    "Seldon.C43_total",
    "Seldon.C43_total_inertial",
    "Seldon.C43_weights"
   ],
   "note": ""
  },
  {
   "property": "C44",
   "status": "proved",
   "theorems": [
    "Seldon.C44_none",
    "Seldon.C44_all"
   ],
   "note": ""
  },
  {
   "property": "C45",
   "status": "partial",
   "theorems": [
    "Seldon.C45_contacts_partial",
    "Seldon.C45_nobody",
    "Seldon.C45_reuse",
    "Seldon.C45_not_exact"
   ],
   "note": "holds for every agent with at least one contact to make (and if nobody has any); false otherwise: C45_reuse, C45_not_exact"
  },
  {
   "property": "C46",
   "status": "proved",
   "theorems": [
    "Seldon.C46_step",
    "Seldon.C46_bounded",
    "Seldon.C46_real"
   ],
   "note": "0 <= dt <= 1; C46_real instantiates tanh with the real function"
  },
  {
   "property": "C47",
   "status": "proved",
   "theorems": [
    "Seldon.C47_rk4",
    "Seldon.C47_history"
   ],
   "note": ""
  },
  {
   "property": "C50",
   "status": "proved",
   "theorems": [
    "Seldon.C50_verlet",
    "Seldon.C50_rest"
   ],
   "note": ""
  },
  {
   "property": "C49",
   "status": "partial",
   "theorems": [
    "Seldon.C49_activity",
    "Seldon.C49_inertial",
    "Seldon.C49_total",
    "Seldon.C49_total_inertial",
    "Seldon.C49_bounds_partial",
    "Seldon.C49_one_contact",
    "Seldon.C49_weight_range",
    "Seldon.C49_activity_ignored",
    "Seldon.C49_two_agents"
   ],
   "note": "the formula for the weights is proved; that they are probabilities only for one contact per agent; false in general (C49_two_agents); the activity has no effect (C49_activity_ignored)"
  },
  {
   "property": "C48",
   "status": "proved",
   "theorems": [
    "Seldon.C48_step",
    "Seldon.C48_activity",
    "Seldon.C48_inertial"
   ],
   "note": "for every arithmetic satisfying MirrorArith (ordered fields, symmetric rounding)"
  },
  {
   "property": "C25",
   "status": "partial",
   "theorems": [
    "Seldon.C25_density",
    "Seldon.C25_inverse",
    "Seldon.C25_law_partial",
    "Seldon.C25_draw",
    "Seldon.C25_pdf_false",
    "Seldon.C25_mean_false",
    "Seldon.C25_mean_example"
   ],
   "note": "the draw has the documented law; the pdf() and mean() members of the class are wrong (refuted)"
  },
  {
   "property": "C26",
   "status": "proved",
   "theorems": [
    "Seldon.C26_range",
    "Seldon.C26_draw",
    "Seldon.C26_law"
   ],
   "note": "real erf and its exact inverse; the quality of the rational approximation is C27"
  },
  {
   "property": "C27",
   "status": "proved",
   "theorems": [
    "Seldon.C27_special",
    "Seldon.C27_inside"
   ],
   "note": ""
  },
  {
   "property": "C28",
   "status": "proved",
   "theorems": [
    "Seldon.C28_moments",
    "Seldon.C28_normal",
    "Seldon.C28_copula"
   ],
   "note": "C28_normal and C28_copula go beyond the moments: both outputs are standard normal for independent standard normal draws, and the copula keeps the two documented marginal laws"
  },
  {
   "property": "C60",
   "status": "partial",
   "theorems": [
    "Seldon.C60_deffuant",
    "Seldon.C60_deffuant_vector",
    "Seldon.C60_activity",
    "Seldon.C60_inertial",
    "Seldon.C60_degroot_partial",
    "Seldon.C60_degroot_stuck"
   ],
   "note": "holds for all models that only count; false for DeGroot after convergence: initialize_iterations does not reset max_opinion_diff"
  },
  {
   "property": "C61",
   "status": "proved",
   "theorems": [
    "Seldon.C61_initial",
    "Seldon.C61_too_many_bots"
   ],
   "note": "exact real arithmetic, real erf and its inverse"
  },
  {
   "property": "C53",
   "status": "proved",
   "theorems": [
    "Seldon.C53_validate",
    "Seldon.C53_mismatch"
   ],
   "note": ""
  },
  {
   "property": "C55",
   "status": "partial",
   "theorems": [
    "Seldon.C55_keys_partial",
    "Seldon.C55_matching",
    "Seldon.C55_no_model",
    "Seldon.C55_total",
    "Seldon.C55_other_keys",
    "Seldon.C55_convergence_default",
    "Seldon.C55_bot_activity_default"
   ],
   "note": "every key and default is proved as the code has it; the documented defaults of DeGroot convergence and bot_activity are refuted"
  },
  {
   "property": "C56",
   "status": "proved",
   "theorems": [
    "Seldon.C56_kind",
    "Seldon.C56_compatible",
    "Seldon.C56_incompatible",
    "Seldon.C56_network_file",
    "Seldon.C56_agents_file"
   ],
   "note": ""
  },
  {
   "property": "C54",
   "status": "partial",
   "theorems": [
    "Seldon.C54_safe_partial",
    "Seldon.C54_zero_interval",
    "Seldon.C54_too_many_bots",
    "Seldon.C54_too_many_contacts"
   ],
   "note": "holds if output intervals are non-zero and (activity-driven) m, n_bots, bot_m fit the number of agents; refuted otherwise: each of these conditions is needed and none is checked by validate_settings; safety is for arbitrary floating-point arithmetic (any carrier with any operations), not only exact reals"
  },
  {
   "property": "C57",
   "status": "proved",
   "theorems": [
    "Seldon.C57_scalar",
    "Seldon.C57_not_square",
    "Seldon.C57_endless",
    "Seldon.C57_vector",
    "Seldon.C57_endless_vector"
   ],
   "note": "opinion range and mean in exact real arithmetic; completion and exceptions for arbitrary floating-point arithmetic"
  },
  {
   "property": "C58",
   "status": "proved",
   "theorems": [
    "Seldon.C58_run",
    "Seldon.C58_safe"
   ],
   "note": "C58_safe for arbitrary floating-point arithmetic, C58_run (opinion range) in exact real arithmetic"
  },
  {
   "property": "C59",
   "status": "proved",
   "theorems": [
    "Seldon.C59_activity",
    "Seldon.C59_inertial",
    "Seldon.C59_endless_activity",
    "Seldon.C59_endless_inertial"
   ],
   "note": "for arbitrary floating-point arithmetic"
  },
  {
   "property": "C62",
   "status": "proved",
   "theorems": [
    "Seldon.C62_uniform",
    "Seldon.C62_fairTapes",
    "Seldon.C62_law"
   ],
   "note": "C62_law: as a probability; C62_uniform counts answer sequences; that mt19937 and uniform_int_distribution are uniform is not modelled"
  },
  {
   "property": "C63",
   "status": "proved",
   "theorems": [
    "Seldon.C63_spread",
    "Seldon.C63_consensus",
    "Seldon.C63_invariant",
    "Seldon.C63_mean",
    "Seldon.C63_trajectory_exists"
   ],
   "note": ""
  },
  {
   "property": "C64",
   "status": "proved",
   "theorems": [
    "Seldon.C64_converges",
    "Seldon.C64_clusters",
    "Seldon.C64_limit_hull",
    "Seldon.C64_trajectory_exists",
    "Seldon.C64_mu_one"
   ],
   "note": ""
  },
  {
   "property": "C65",
   "status": "proved",
   "theorems": [
    "Seldon.C65_safe",
    "Seldon.C65_rejected",
    "Seldon.C65_too_many_agents"
   ],
   "note": "for arbitrary floating-point arithmetic"
  },
  {
   "property": "C66",
   "status": "proved",
   "theorems": [
    "Seldon.C66_restart",
    "Seldon.C66_continue"
   ],
   "note": "for arbitrary floating-point arithmetic; KeepsEdges = DeGroot, Deffuant without use_network, activity models with mean_weights off"
  },
  {
   "property": "C67",
   "status": "proved",
   "theorems": [
    "Seldon.C67_fresh",
    "Seldon.C67_weighted",
    "Seldon.C67_single",
    "Seldon.C67_almost_surely"
   ],
   "note": "exact real arithmetic with infinities (weight 0 gives key 0); any tie-breaking of the priority queue; that mt19937 and uniform_real_distribution are uniform is not modelled"
  },
  {
   "property": "C68",
   "status": "proved",
   "theorems": [
    "Seldon.C68_accuracy",
    "Seldon.C68_draws"
   ],
   "note": "polynomials and square root / logarithm in exact real arithmetic with infinities; rounding of the C++ evaluation is not modelled"
  },
  {
   "property": "C69",
   "status": "proved",
   "theorems": [
    "Seldon.C69_initial_law"
   ],
   "note": "exact real arithmetic with the exact inverse error function (C68 bounds the error of the rational one); that mt19937 and the standard distributions have these laws is not modelled"
  },
  {
   "property": "C70",
   "status": "proved",
   "theorems": [
    "Seldon.C70_integers",
    "Seldon.C70_network",
    "Seldon.C70_agents"
   ],
   "note": "std::stod abstract; std::stoi modelled; agent_from_string per type is C19"
  },
  {
   "property": "C71",
   "status": "proved",
   "theorems": [
    "Seldon.C71_contacts",
    "Seldon.C71_contacts_inertial",
    "Seldon.C71_network",
    "Seldon.C71_independent",
    "Seldon.C71_agent",
    "Seldon.C71_activated",
    "Seldon.C71_single",
    "Seldon.C71_no_self"
   ],
   "note": "exact real arithmetic with infinities; any tie-breaking of the priority queue; that mt19937 and uniform_real_distribution draw independent uniform numbers is the hypothesis DrawsUniform"
  },
  {
   "property": "C72",
   "status": "proved",
   "theorems": [
    "Seldon.C72_unit",
    "Seldon.C72_hull",
    "Seldon.C72_clusters",
    "Seldon.C72_program",
    "Seldon.C72_mu_one"
   ],
   "note": "finite doubles with gradual underflow, no overflow (all values stay in [0,2]); division by zero does not occur"
  },
  {
   "property": "C73",
   "status": "proved",
   "theorems": [
    "Seldon.C73_weights",
    "Seldon.C73_step",
    "Seldon.C73_nonneg",
    "Seldon.C73_track",
    "Seldon.C73_hull",
    "Seldon.C73_stops",
    "Seldon.C73_program"
   ],
   "note": "finite doubles with gradual underflow; overflow does not occur in the range covered; the row condition excludes 0/0 (all draws of a row zero)"
  },
  {
   "property": "C74",
   "status": "proved",
   "theorems": [
    "Seldon.C74_pair",
    "Seldon.C74_neighbour",
    "Seldon.C74_meet_again",
    "Seldon.C74_clusters",
    "Seldon.C74_consensus",
    "Seldon.C74_plain_connected",
    "Seldon.C74_network_connected",
    "Seldon.C74_lattice"
   ],
   "note": "exact real arithmetic; the law of the generator is the hypothesis FairIntegers (met by a concrete generator, fairRng)"
  },
  {
   "property": "C75",
   "status": "proved",
   "theorems": [
    "Seldon.C75_step",
    "Seldon.C75_decay",
    "Seldon.C75_neutral",
    "Seldon.C75_run_exists"
   ],
   "note": "exact arithmetic; the limit with the real hyperbolic tangent"
  },
  {
   "property": "C76",
   "status": "proved",
   "theorems": [
    "Seldon.C76_step",
    "Seldon.C76_onesided",
    "Seldon.C76_real",
    "Seldon.tanh_squashing"
   ],
   "note": "exact arithmetic"
  },
  {
   "property": "C77",
   "status": "proved",
   "theorems": [
    "Seldon.C77_same_network",
    "Seldon.C77_accuracy",
    "Seldon.C77_bots",
    "Seldon.C77_bots_sharp",
    "Seldon.C77_bots_example",
    "Seldon.C77_solution_exists",
    "Seldon.C77_exists"
   ],
   "note": "exact real arithmetic and the real hyperbolic tangent; with bots the fifth order fails (C77_bots_sharp, C77_bots_example)"
  },
  {
   "property": "C78",
   "status": "proved",
   "theorems": [
    "Seldon.C78_same_network",
    "Seldon.C78_accuracy",
    "Seldon.C78_solution_exists",
    "Seldon.C78_exists"
   ],
   "note": "exact real arithmetic and the real hyperbolic tangent; no bots"
  },
  {
   "property": "C79",
   "status": "proved",
   "theorems": [
    "Seldon.C79_refines",
    "Seldon.C79_history",
    "Seldon.C79_kill",
    "Seldon.C79_disk",
    "Seldon.C79_rejected",
    "Seldon.C79_silent",
    "Seldon.C79_monotone",
    "Seldon.C79_exit",
    "Seldon.C79_restart",
    "Seldon.C79_inside"
   ],
   "note": "a kill leaves a prefix of the contents of the file being written (no write-back caching by the operating system); the output directory resolves different names to different files (GoodDirectory); argparse is a parameter"
  },
  {
   "property": "C80",
   "status": "proved",
   "theorems": [
    "Seldon.C80_transcript",
    "Seldon.C80_shows",
    "Seldon.C80_seed",
    "Seldon.C80_reproduce",
    "Seldon.C80_log"
   ],
   "note": "printed durations are a parameter; formatting of doubles abstract (round-trip on the numbers printed)"
  },
  {
   "property": "C81",
   "status": "proved",
   "theorems": [
    "Seldon.C81_unused",
    "Seldon.C81_log"
   ],
   "note": "formatting of doubles abstract (C81_log: round-trip on the numbers printed)"
  },
  {
   "property": "C82",
   "status": "proved",
   "theorems": [
    "Seldon.C82_bounded",
    "Seldon.C82_program"
   ],
   "note": "IEEE double precision with overflow, infinities and NaN (Spec/Ieee.lean: a single zero, ties broken in any way); C82_bounded for any ready state with reluctances, C82_program for the whole program without reluctances. The examples run the program with its default parameters and five agents."
  },
  {
   "property": "C83",
   "status": "proved",
   "theorems": [
    "Seldon.C83_bounded",
    "Seldon.C83_energy",
    "Seldon.C83_unstable",
    "Seldon.C83_persistent"
   ],
   "note": "exact real arithmetic; instability shown without interaction (K = 0) for an agent starting at rest"
  },
  {
   "property": "C84",
   "status": "proved",
   "theorems": [
    "Seldon.C84_bounded",
    "Seldon.C84_unstable",
    "Seldon.C84_threshold",
    "Seldon.C84_accepted"
   ],
   "note": "exact arithmetic in any ordered field"
  },
  {
   "property": "C85",
   "status": "proved",
   "theorems": [
    "Seldon.C85_rest",
    "Seldon.C85_rate",
    "Seldon.C85_consensus",
    "Seldon.C85_created"
   ],
   "note": "units drawn uniformly from (0,1) and fair integers; being neighbours is assumed mutual in C85_rest and proved for what the constructor builds in C85_created"
  },
  {
   "property": "C86",
   "status": "proved",
   "theorems": [
    "Seldon.C86_degroot_step",
    "Seldon.C86_degroot",
    "Seldon.C86_degroot_run",
    "Seldon.C86_deffuant"
   ],
   "note": "DeGroot in any arithmetic (run length in an ordered ring); Deffuant over any ordered ring with fair independent integers"
  },
  {
   "property": "C87",
   "status": "partial",
   "theorems": [
    "Seldon.C87_relabel_partial",
    "Seldon.C87_bias",
    "Seldon.C87_lower_first",
    "Seldon.C87_first",
    "Seldon.C87_two",
    "Seldon.C87_refuted"
   ],
   "note": "true with use_network and for mu <= 0 (C87_relabel_partial); false without network for mu > 0: the lower-numbered agent of each pair prevails with probability (1+mu)/2 (C87_bias, C87_two, C87_refuted), and with mu >= 1 agent 0 never changes (C87_first)"
  },
  {
   "property": "C88",
   "status": "proved",
   "theorems": [
    "Seldon.C88_activity",
    "Seldon.C88_activity_history",
    "Seldon.C88_inertial",
    "Seldon.C88_inertial_history"
   ],
   "note": "exact arithmetic on the reals with infinities and NaN (XR); 0 < m < n contacts per activated agent; finite parameters, nonzero reluctances; tanh of a finite number is assumed finite"
  },
  {
   "property": "C89",
   "status": "proved",
   "theorems": [
    "Seldon.C89_rate",
    "Seldon.C89_iterations",
    "Seldon.C89_created",
    "Seldon.C89_complete",
    "Seldon.C89_limit"
   ],
   "note": "exact arithmetic in any ordered field (C89_limit: reals)"
  },
  {
   "property": "C90",
   "status": "proved",
   "theorems": [
    "Seldon.C90_difference",
    "Seldon.C90_box",
    "Seldon.C90_nonexpansive",
    "Seldon.C90_monotone"
   ],
   "note": "exact arithmetic in any ordered field"
  },
  {
   "property": "C91",
   "status": "proved",
   "theorems": [
    "Seldon.C91_clusters",
    "Seldon.C91_created"
   ],
   "note": "exact real arithmetic; the law of the generator is the hypothesis FairIntegers (met by a concrete generator, fairRng)"
  },
  {
   "property": "C92",
   "status": "proved",
   "theorems": [
    "Seldon.C92_step",
    "Seldon.C92_units",
    "Seldon.C92_answers_step",
    "Seldon.C92_answers"
   ],
   "note": "scalar model in exact arithmetic of any ordered field; vector model in any arithmetic"
  },
  {
   "property": "C93",
   "status": "proved",
   "theorems": [
    "Seldon.C93_step",
    "Seldon.C93_iterations",
    "Seldon.C93_terminates",
    "Seldon.C93_created",
    "Seldon.C93_program",
    "Seldon.C93_converges"
   ],
   "note": "exact arithmetic in any (Archimedean) ordered field; C93_converges: reals"
  },
  {
   "property": "C94",
   "status": "proved",
   "theorems": [
    "Seldon.C94_expected",
    "Seldon.C94_likely",
    "Seldon.C94_network",
    "Seldon.C94_created",
    "Seldon.C94_lattice"
   ],
   "note": "exact real arithmetic; the law of the generator is the hypothesis FairIntegers (met by fairRng)"
  },
  {
   "property": "C95",
   "status": "proved",
   "theorems": [
    "Seldon.C95_network",
    "Seldon.C95_neighbours",
    "Seldon.C95_weights",
    "Seldon.C95_listeners",
    "Seldon.C95_edge",
    "Seldon.C95_audience",
    "Seldon.C95_complete",
    "Seldon.C95_program"
   ],
   "note": "C95_network gives the joint law of all rows (neighbours and weights) and of the generator state left; C95_listeners and C95_audience the law of the audience of an agent."
  },
  {
   "property": "C96",
   "status": "proved",
   "theorems": [
    "Seldon.C96_expected",
    "Seldon.C96_share",
    "Seldon.C96_order",
    "Seldon.C96_first",
    "Seldon.C96_weights",
    "Seldon.C96_lattice"
   ],
   "note": "The weights solve the linear recursion that makes the weighted number of holders a martingale (Lemmas/Fixation: lead_step, drift_order); the winning probability follows by dominated convergence with the almost sure consensus of C85. Draws are assumed independent and uniform (the specification of the generator), real arithmetic."
  },
  {
   "property": "C97",
   "status": "proved",
   "theorems": [
    "Seldon.C97_initial",
    "Seldon.C97_symmetric",
    "Seldon.C97_uniform",
    "Seldon.C97_created"
   ],
   "note": "Assumes exact real numbers and a generator whose integer draws are uniform and independent (FairIntegers) and whose unit draws are uniform."
  },
  {
   "property": "C98",
   "status": "proved",
   "theorems": [
    "Seldon.C98_tail",
    "Seldon.C98_ends"
   ],
   "note": "Real arithmetic, ideal generator. The event is stated about the whole program `main`, with the seed replaced by a random initial state of the generator. Combines the law of the generated network (C95) with the bound on the number of iterations (C93)."
  },
  {
   "property": "C99",
   "status": "proved",
   "theorems": [
    "Seldon.C99_survivors",
    "Seldon.C99_created"
   ],
   "note": "Rest (C85) makes the surviving opinions a binary code with minimum distance at least the threshold; the two bounds are the Singleton and the Plotkin bound of coding theory, proved here. With a network, the agents must be able to meet in both directions (which the constructor ensures)."
  },
  {
   "property": "C100",
   "status": "proved",
   "theorems": [
    "Seldon.C100_convex",
    "Seldon.C100_disagreement",
    "Seldon.C100_extremes",
    "Seldon.C100_movement",
    "Seldon.C100_eventful",
    "Seldon.C100_created"
   ],
   "note": "Exact arithmetic over an ordered field; generalises C33 (sum), C34 (interval) and C35 (variance). Pathwise: no assumption on the generator."
  },
  {
   "property": "C101",
   "status": "proved",
   "theorems": [
    "Seldon.C101_network",
    "Seldon.C101_inertial",
    "Seldon.C101_models",
    "Seldon.C101_forget",
    "Seldon.C101_limit",
    "Seldon.C101_program"
   ],
   "note": "Spec.Indifferent, Spec.SameContacts and Spec.SameStart spell out what the two runs share. C101_program is about the files written by main. An example shows that with homophily 1 the networks do differ."
  },
  {
   "property": "C102",
   "status": "proved",
   "theorems": [
    "Seldon.C102_weights",
    "Seldon.C102_bounded",
    "Seldon.C102_decay",
    "Seldon.C102_neutral",
    "Seldon.C102_onesided",
    "Seldon.C102_stable",
    "Seldon.C102_forget",
    "Seldon.C102_fixed",
    "Seldon.C102_inertial",
    "Seldon.C102_created"
   ],
   "note": "extends C46, C75, C76, C83, C84 and C101 to mean_weights. The bound c^2 is crude: the code's contact probabilities need not be probabilities (C49), so negative weights occur for c > 1."
  },
  {
   "property": "C103",
   "status": "proved",
   "theorems": [
    "Seldon.C103_decay",
    "Seldon.C103_forget",
    "Seldon.C103_limit"
   ],
   "note": "extends C83 (consensus in the activity driven model), C84 (stability of the inertial model) and C101/C102 (forgetting). kappa exists but is not given explicitly in the statement; the opinions of bots in this model are not modelled by a recurrence, so bots are excluded."
  },
  {
   "property": "C104",
   "status": "proved",
   "theorems": [
    "Seldon.C104_bounded",
    "Seldon.C104_program"
   ],
   "note": "the analogue of C82. The Verlet step with rounding errors is a disturbed linear contraction, for which Lemmas/Lyapunov gives an explicit quadratic Lyapunov function. mean_weights mode is not covered."
  },
  {
   "property": "C105",
   "status": "proved",
   "theorems": [
    "Seldon.C105_step",
    "Seldon.C105_activity",
    "Seldon.C105_inertial",
    "Seldon.C105_law"
   ],
   "note": "the analogue of C92 for the models with activities. The law (C105_law) is for one iteration of the activity-driven model in probabilistic mode."
  },
  {
   "property": "C106",
   "status": "proved",
   "theorems": [
    "Seldon.C106_step",
    "Seldon.C106_alike",
    "Seldon.C106_threshold",
    "Seldon.C106_one_contact"
   ],
   "note": "The Runge-Kutta iteration itself is proved to converge, not only the differential equation. For populations that are not alike see C102 (bounds, one-sidedness, forgetting)."
  },
  {
   "property": "C107",
   "status": "proved",
   "theorems": [
    "Seldon.C107_persist",
    "Seldon.C107_persist_uniform",
    "Seldon.C107_radical",
    "Seldon.C107_radical_uniform",
    "Seldon.C107_decay"
   ],
   "note": "The factor lag(dt) is within 5.1e-7 of 1 for dt = 0.01; it accounts for the second and third stage of the Runge-Kutta step, which may undershoot when opinions differ."
  },
  {
   "property": "C108",
   "status": "proved",
   "theorems": [
    "Seldon.C108_entry",
    "Seldon.C108_entry_inertial",
    "Seldon.C108_contacts",
    "Seldon.C108_mean_field",
    "Seldon.C108_mean_field_two"
   ],
   "note": "The inclusion probability is defined by recursion over the draws (Spec.chosen). Spec.MeanTwin is a real-valued mean-field state with the same opinions, homophilies, reciprocity and contacts. The mean-field weight ignores activities below 1 (C49), which is why it is only an upper bound for m = 1."
  },
  {
   "property": "C109",
   "status": "proved",
   "theorems": [
    "Seldon.C109_bounded",
    "Seldon.C109_vanishing",
    "Seldon.C109_overflowing",
    "Seldon.Overflow.exact_powers",
    "Seldon.Overflow.lone_nan",
    "Seldon.Overflow.agreed_nan"
   ],
   "note": "Spec.Ieee is the double format with overflow, infinities and NaN; the additions are kept in the order of the code (Lemmas/MeanOrder). exact_powers shows that the hypothesis on pow is met by the correctly rounded function; lone_nan and agreed_nan are complete one-iteration runs that end in NaN. One zero only (no -0); the sign of a NaN is not modelled."
  },
  {
   "property": "C110",
   "status": "proved",
   "theorems": [
    "Seldon.C110_simple",
    "Seldon.C110_activity",
    "Seldon.C110_inertial",
    "Seldon.C110_vector",
    "Seldon.C110_network"
   ],
   "note": "Spec/Table.lean defines lines, cells and numerals without reference to the code (numerals by Nat.toDigits). The format of floating-point numbers itself (fmt) is a parameter."
  },
  {
   "property": "C111",
   "status": "proved",
   "theorems": [
    "Seldon.C111_bounded",
    "Seldon.C111_vanishing",
    "Seldon.C111_overflowing"
   ],
   "note": "MeanReasonable lists the bounds; startInertialMean meets them for every rounding mode with correctly rounded functions."
  },
  {
   "property": "C112",
   "status": "proved",
   "theorems": [
    "Seldon.C112_complete"
   ],
   "note": "Composition of C110 (layout), C52 (which files) and the invariants of C65 for all models; examples: a run of the activity-driven model with bots that writes four files, and a run with network and agents files. The rows of the network table need fewer than 2^64 - 1 neighbours per agent."
  },
  {
   "property": "C113",
   "status": "proved",
   "theorems": [
    "Seldon.C113_convergence",
    "Seldon.C113_convergence_general",
    "Seldon.C113_bots",
    "Seldon.C113_bots_general",
    "Seldon.C113_exists"
   ],
   "note": "Over the real numbers (the same idealisation as C77); the rounded arithmetic is the subject of C95-C109. The constants depend on the bounds only. Examples: two agents moving towards each other, and an agent with a bot, for all time steps."
  },
  {
   "property": "C114",
   "status": "proved",
   "theorems": [
    "Seldon.C114_convergence",
    "Seldon.C114_convergence_general",
    "Seldon.C114_exists"
   ],
   "note": "Over the real numbers (the same idealisation as C77 and C113). The constant depends on the bounds only. Example: two agents moving towards each other with friction 2, for all time steps up to 1/6. Runs with bots are not covered."
  },
  {
   "property": "C115",
   "status": "proved",
   "theorems": [
    "Seldon.C115_degroot",
    "Seldon.C115_degroot_group",
    "Seldon.C115_degroot_strict",
    "Seldon.C115_activity",
    "Seldon.C115_activity_history",
    "Seldon.C115_activity_run",
    "Seldon.C115_inertial",
    "Seldon.C115_inertial_run",
    "Seldon.C115_deffuant"
   ],
   "note": "In the activity-driven and the inertial model the opinions also affect who contacts whom (homophily); the theorems take the networks of the two runs as given, and only ask that the relevant rows agree; without homophily (all 0) C115_activity_run and C115_inertial_run need no such hypothesis (C101). Examples: a line of three agents, where agent 0 knows only the opinion of agent 2 after two iterations; an iteration with a bot in which an agent without incoming edges is unaffected by the opinion of another, with and without homophily; the same for the inertial model; two separate pairs of agents in the Deffuant model. The Deffuant model with binary vectors is not covered: its generator is used inside the update rule, so the random numbers themselves depend on all opinions."
  }
 ]
}
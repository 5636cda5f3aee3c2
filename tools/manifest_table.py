c("C01","proved","C01_step C01_history C01_constructors","invariant over all operation histories")
c("C02","proved","C02_toggle_preserves_graph","")
c("C03","proved","C03_transpose_switch C03_toggle_transpose_is_switch","")
c("C04","proved","C04_toggle_twice C04_toggle_periodic","")
c("C05","proved","C05_merge C05_unique_idempotent","for every admissible std::sort; weights in any commutative monoid (exact sums)")
c("C06","partial","C06_nEdges_value C06_nEdges_partial C06_overflow","false for >= 2^31 edges (int accumulator): counterexample C06_overflow")
c("C07","proved","C07_set_weights C07_set_neighbours C07_set_const_push C07_out_of_range","")
c("C08","proved","C08_scc_partition","total correctness incl. termination of the fuelled recursion")
c("C09","proved","C09_component_strongly_connected C09_single_component","")
c("C10","partial","C10_exact_partial C10_symmetric_partial C10_acyclic_partial C10_warning_partial C10_split C10_false_warning","exactness proved for networks in which edges inside a strongly connected component go both ways (symmetric, acyclic and mixed networks); false in general: counterexample C10_split")
c("C11","proved","C11_fully_connected C12_fully_connected_random","")
c("C12","proved","C12_fully_connected_random C12_n_connections","exact arithmetic, any linearly ordered field")
c("C13","partial","C13_n_connections_partial C13_too_many","holds for n_connections < n_agents; otherwise false (C13_too_many: agent 0 is repeated)")
c("C14","proved","C14_lattice","")
c("C21","proved","C21_draw_unique C21_available C21_draw_unique_covers C21_too_many","incl. what happens when too many are requested")
c("C22","proved","C22_reservoir C22_edge_cases","")
c("C23","proved","C23_no_self","over extended reals with IEEE conventions")
c("C24","proved","C24_hamming","")
c("C15","proved","C15_network_round_trip","indices/row lengths below 2^31 (std::stoi), files shorter than 2^64-1; double formatting abstract (round-trip hypothesis)")
c("C16","partial","C16_simple C16_activity C16_inertial C16_vector_partial C16_vector_empty","false for an empty discrete opinion vector (reader throws)")
c("C17","proved","C17_comment C17_blank","")
c("C18","partial","C18_calls_partial C18_number_callbacks C18_counterexample","inner entries are passed with trailing text; harmless for stoi/stod callbacks")
c("C19","partial","C19_inertial C19_activity_partial C19_activity_single_column","ActivityAgent with one column gets activity = opinion")
c("C20","partial","C20_dot_partial C20_no_neighbours","undefined behaviour when an agent has no neighbours")
c("C29","proved","C29_iteration C29_exact C29_constructor C29_any_number","C29_iteration for arbitrary (rounded) arithmetic in evaluation order; C29_exact for exact sums")
c("C30","proved","C30_hull C30_consensus C30_affine","exact arithmetic in any linearly ordered field")
c("C31","proved","C31_stop C31_exists C31_limit","")
c("C32","proved","C32_terminates C32_strongly_connected C32_periodic","")
c("C52","proved","C52_files C52_total C52_no_duplicates C52_zero_interval","for every implementation of the Model interface")
c("C33","proved","C33_sum C33_interaction","exact arithmetic")
c("C34","proved","C34_hull C34_default","exact arithmetic")
c("C35","proved","C35_interaction C35_squares C35_variance","")
c("C36","proved","C36_clusters","")
c("C37","proved","C37_pair C37_every_pair C37_schedule C37_total","")
c("C38","proved","C38_plain C38_throws C38_square","std::sqrt abstract: only size_t(sqrt(L^2)) = L is assumed")
c("C39","proved","C39_binary C39_total","")
c("C40","proved","C40_interaction C40_agreement C40_consensus","")
c("C41","partial","C41_unchanged_partial C41_false C41_inverted","false in the code: agents within the threshold become equal for every mu; mu acts in the inverted direction")
c("C51","proved","C51_exactly C51_reaches C51_never C51_deffuant C51_deffuant_vector C51_activity C51_inertial","generic in the model")
c("C42","proved","C42_activity C42_inertial","from the success of the iterations alone, no well-formedness assumed")
c("C43","proved","C43_activity C43_inertial C43_total C43_total_inertial C43_weights","")
c("C44","proved","C44_none C44_all","")
c("C45","partial","C45_contacts_partial C45_nobody C45_reuse C45_not_exact","holds for every agent with at least one contact to make (and if nobody has any); false otherwise: C45_reuse, C45_not_exact")
c("C46","proved","C46_step C46_bounded C46_real","0 <= dt <= 1; C46_real instantiates tanh with the real function")
c("C47","proved","C47_rk4 C47_history","")
c("C50","proved","C50_verlet C50_rest","")
c("C49","partial","C49_activity C49_inertial C49_total C49_total_inertial C49_bounds_partial C49_one_contact C49_weight_range C49_activity_ignored C49_two_agents","the formula for the weights is proved; that they are probabilities only for one contact per agent; false in general (C49_two_agents); the activity has no effect (C49_activity_ignored)")
c("C48","proved","C48_step C48_activity C48_inertial","for every arithmetic satisfying MirrorArith (ordered fields, symmetric rounding)")
c("C25","partial","C25_density C25_inverse C25_law_partial C25_draw C25_pdf_false C25_mean_false C25_mean_example","the draw has the documented law; the pdf() and mean() members of the class are wrong (refuted)")
c("C26","proved","C26_range C26_draw C26_law","real erf and its exact inverse; the quality of the rational approximation is C27")
c("C27","proved","C27_special C27_inside","")
c("C28","proved","C28_moments C28_normal C28_copula","C28_normal and C28_copula go beyond the moments: both outputs are standard normal for independent standard normal draws, and the copula keeps the two documented marginal laws")
c("C60","partial","C60_deffuant C60_deffuant_vector C60_activity C60_inertial C60_degroot_partial C60_degroot_stuck","holds for all models that only count; false for DeGroot after convergence: initialize_iterations does not reset max_opinion_diff")
c("C61","proved","C61_initial C61_too_many_bots","exact real arithmetic, real erf and its inverse")
c("C53","proved","C53_validate C53_mismatch","")
c("C55","partial","C55_keys_partial C55_matching C55_no_model C55_total C55_other_keys C55_convergence_default C55_bot_activity_default","every key and default is proved as the code has it; the documented defaults of DeGroot convergence and bot_activity are refuted")
c("C56","proved","C56_kind C56_compatible C56_incompatible C56_network_file C56_agents_file","")
c("C54","partial","C54_safe_partial C54_zero_interval C54_too_many_bots C54_too_many_contacts","holds if output intervals are non-zero and (activity-driven) m, n_bots, bot_m fit the number of agents; refuted otherwise: each of these conditions is needed and none is checked by validate_settings; safety is for arbitrary floating-point arithmetic (any carrier with any operations), not only exact reals")
c("C57","proved","C57_scalar C57_not_square C57_endless C57_vector C57_endless_vector","opinion range and mean in exact real arithmetic; completion and exceptions for arbitrary floating-point arithmetic")
c("C58","proved","C58_run C58_safe","C58_safe for arbitrary floating-point arithmetic, C58_run (opinion range) in exact real arithmetic")
c("C59","proved","C59_activity C59_inertial C59_endless_activity C59_endless_inertial","for arbitrary floating-point arithmetic")
c("C62","proved","C62_uniform C62_fairTapes C62_law","C62_law: as a probability; C62_uniform counts answer sequences; that mt19937 and uniform_int_distribution are uniform is not modelled")
c("C63","proved","C63_spread C63_consensus C63_invariant C63_mean C63_trajectory_exists","")
c("C64","proved","C64_converges C64_clusters C64_limit_hull C64_trajectory_exists C64_mu_one","")
c("C65","proved","C65_safe C65_rejected C65_too_many_agents","for arbitrary floating-point arithmetic")
c("C66","proved","C66_restart C66_continue","for arbitrary floating-point arithmetic; KeepsEdges = DeGroot, Deffuant without use_network, activity models with mean_weights off")
c("C67","proved","C67_fresh C67_weighted C67_single C67_almost_surely","exact real arithmetic with infinities (weight 0 gives key 0); any tie-breaking of the priority queue; that mt19937 and uniform_real_distribution are uniform is not modelled")
c("C68","proved","C68_accuracy C68_draws","polynomials and square root / logarithm in exact real arithmetic with infinities; rounding of the C++ evaluation is not modelled")
c("C69","proved","C69_initial_law","exact real arithmetic with the exact inverse error function (C68 bounds the error of the rational one); that mt19937 and the standard distributions have these laws is not modelled")
c("C70","proved","C70_integers C70_network C70_agents","std::stod abstract; std::stoi modelled; agent_from_string per type is C19")
c("C71","proved","C71_contacts C71_contacts_inertial C71_network C71_independent C71_agent C71_activated C71_single C71_no_self","exact real arithmetic with infinities; any tie-breaking of the priority queue; that mt19937 and uniform_real_distribution draw independent uniform numbers is the hypothesis DrawsUniform")
c("C72","proved","C72_unit C72_hull C72_clusters C72_program C72_mu_one","finite doubles with gradual underflow, no overflow (all values stay in [0,2]); division by zero does not occur")
c("C73","proved","C73_weights C73_step C73_nonneg C73_track C73_hull C73_stops C73_program","finite doubles with gradual underflow; overflow does not occur in the range covered; the row condition excludes 0/0 (all draws of a row zero)")
c("C74","proved","C74_pair C74_neighbour C74_meet_again C74_clusters C74_consensus C74_plain_connected C74_network_connected C74_lattice","exact real arithmetic; the law of the generator is the hypothesis FairIntegers (met by a concrete generator, fairRng)")
c("C75","proved","C75_step C75_decay C75_neutral C75_run_exists","exact arithmetic; the limit with the real hyperbolic tangent")
c("C76","proved","C76_step C76_onesided C76_real tanh_squashing","exact arithmetic")
c("C77","proved","C77_same_network C77_accuracy C77_bots C77_bots_sharp C77_bots_example C77_solution_exists C77_exists","exact real arithmetic and the real hyperbolic tangent; with bots the fifth order fails (C77_bots_sharp, C77_bots_example)")
c("C78","proved","C78_same_network C78_accuracy C78_solution_exists C78_exists","exact real arithmetic and the real hyperbolic tangent; no bots")
c("C79","proved","C79_refines C79_history C79_kill C79_disk C79_rejected C79_silent C79_monotone C79_exit C79_restart C79_inside","a kill leaves a prefix of the contents of the file being written (no write-back caching by the operating system); the output directory resolves different names to different files (GoodDirectory); argparse is a parameter")
c("C80","proved","C80_transcript C80_shows C80_seed C80_reproduce C80_log","printed durations are a parameter; formatting of doubles abstract (round-trip on the numbers printed)")
c("C81","proved","C81_unused C81_log","formatting of doubles abstract (C81_log: round-trip on the numbers printed)")
c("C82","proved","C82_bounded C82_program","IEEE double precision with overflow, infinities and NaN (Spec/Ieee.lean: a single zero, ties broken in any way); C82_bounded for any ready state with reluctances, C82_program for the whole program without reluctances. The examples run the program with its default parameters and five agents.")
c("C83","proved","C83_bounded C83_energy C83_unstable C83_persistent","exact real arithmetic; instability shown without interaction (K = 0) for an agent starting at rest")
c("C84","proved","C84_bounded C84_unstable C84_threshold C84_accepted","exact arithmetic in any ordered field")
c("C85","proved","C85_rest C85_rate C85_consensus C85_created","units drawn uniformly from (0,1) and fair integers; being neighbours is assumed mutual in C85_rest and proved for what the constructor builds in C85_created")
c("C86","proved","C86_degroot_step C86_degroot C86_degroot_run C86_deffuant","DeGroot in any arithmetic (run length in an ordered ring); Deffuant over any ordered ring with fair independent integers")
c("C87","partial","C87_relabel_partial C87_bias C87_lower_first C87_first C87_two C87_refuted","true with use_network and for mu <= 0 (C87_relabel_partial); false without network for mu > 0: the lower-numbered agent of each pair prevails with probability (1+mu)/2 (C87_bias, C87_two, C87_refuted), and with mu >= 1 agent 0 never changes (C87_first)")
c("C88","proved","C88_activity C88_activity_history C88_inertial C88_inertial_history","exact arithmetic on the reals with infinities and NaN (XR); 0 < m < n contacts per activated agent; finite parameters, nonzero reluctances; tanh of a finite number is assumed finite")
c("C89","proved","C89_rate C89_iterations C89_created C89_complete C89_limit","exact arithmetic in any ordered field (C89_limit: reals)")
c("C90","proved","C90_difference C90_box C90_nonexpansive C90_monotone","exact arithmetic in any ordered field")
c("C91","proved","C91_clusters C91_created","exact real arithmetic; the law of the generator is the hypothesis FairIntegers (met by a concrete generator, fairRng)")
c("C92","proved","C92_step C92_units C92_answers_step C92_answers","scalar model in exact arithmetic of any ordered field; vector model in any arithmetic")
c("C93","proved","C93_step C93_iterations C93_terminates C93_created C93_program C93_converges","exact arithmetic in any (Archimedean) ordered field; C93_converges: reals")
c("C94","proved","C94_expected C94_likely C94_network C94_created C94_lattice","exact real arithmetic; the law of the generator is the hypothesis FairIntegers (met by fairRng)")
c("C95","proved","C95_network C95_neighbours C95_weights C95_listeners C95_edge C95_audience C95_complete C95_program","C95_network gives the joint law of all rows (neighbours and weights) and of the generator state left; C95_listeners and C95_audience the law of the audience of an agent.")
c("C96","proved","C96_expected C96_share C96_order C96_first C96_weights C96_lattice","The weights solve the linear recursion that makes the weighted number of holders a martingale (Lemmas/Fixation: lead_step, drift_order); the winning probability follows by dominated convergence with the almost sure consensus of C85. Draws are assumed independent and uniform (the specification of the generator), real arithmetic.")
c("C97","proved","C97_initial C97_symmetric C97_uniform C97_created","Assumes exact real numbers and a generator whose integer draws are uniform and independent (FairIntegers) and whose unit draws are uniform.")
c("C98","proved","C98_tail C98_ends","Real arithmetic, ideal generator. The event is stated about the whole program `main`, with the seed replaced by a random initial state of the generator. Combines the law of the generated network (C95) with the bound on the number of iterations (C93).")
c("C99","proved","C99_survivors C99_created","Rest (C85) makes the surviving opinions a binary code with minimum distance at least the threshold; the two bounds are the Singleton and the Plotkin bound of coding theory, proved here. With a network, the agents must be able to meet in both directions (which the constructor ensures).")
c("C100","proved","C100_convex C100_disagreement C100_extremes C100_movement C100_eventful C100_created","Exact arithmetic over an ordered field; generalises C33 (sum), C34 (interval) and C35 (variance). Pathwise: no assumption on the generator.")
c("C101","proved","C101_network C101_inertial C101_models C101_forget C101_limit C101_program","Spec.Indifferent, Spec.SameContacts and Spec.SameStart spell out what the two runs share. C101_program is about the files written by main. An example shows that with homophily 1 the networks do differ.")
c("C102","proved","C102_weights C102_bounded C102_decay C102_neutral C102_onesided C102_stable C102_forget C102_fixed C102_inertial C102_created","extends C46, C75, C76, C83, C84 and C101 to mean_weights. The bound c^2 is crude: the code's contact probabilities need not be probabilities (C49), so negative weights occur for c > 1.")
c("C103","proved","C103_decay C103_forget C103_limit","extends C83 (consensus in the activity driven model), C84 (stability of the inertial model) and C101/C102 (forgetting). kappa exists but is not given explicitly in the statement; the opinions of bots in this model are not modelled by a recurrence, so bots are excluded.")
c("C104","proved","C104_bounded C104_program","the analogue of C82. The Verlet step with rounding errors is a disturbed linear contraction, for which Lemmas/Lyapunov gives an explicit quadratic Lyapunov function. mean_weights mode is not covered.")
c("C105","proved","C105_step C105_activity C105_inertial C105_law","the analogue of C92 for the models with activities. The law (C105_law) is for one iteration of the activity-driven model in probabilistic mode.")
c("C106","proved","C106_step C106_alike C106_threshold C106_one_contact","The Runge-Kutta iteration itself is proved to converge, not only the differential equation. For populations that are not alike see C102 (bounds, one-sidedness, forgetting).")
c("C107","proved","C107_persist C107_persist_uniform C107_radical C107_radical_uniform C107_decay","The factor lag(dt) is within 5.1e-7 of 1 for dt = 0.01; it accounts for the second and third stage of the Runge-Kutta step, which may undershoot when opinions differ.")
c("C108","proved","C108_entry C108_entry_inertial C108_contacts C108_mean_field C108_mean_field_two","The inclusion probability is defined by recursion over the draws (Spec.chosen). Spec.MeanTwin is a real-valued mean-field state with the same opinions, homophilies, reciprocity and contacts. The mean-field weight ignores activities below 1 (C49), which is why it is only an upper bound for m = 1.")
c("C109","proved","C109_bounded C109_vanishing C109_overflowing Overflow.exact_powers Overflow.lone_nan Overflow.agreed_nan","Spec.Ieee is the double format with overflow, infinities and NaN; the additions are kept in the order of the code (Lemmas/MeanOrder). exact_powers shows that the hypothesis on pow is met by the correctly rounded function; lone_nan and agreed_nan are complete one-iteration runs that end in NaN. One zero only (no -0); the sign of a NaN is not modelled.")
c("C110","proved","C110_simple C110_activity C110_inertial C110_vector C110_network","Spec/Table.lean defines lines, cells and numerals without reference to the code (numerals by Nat.toDigits). The format of floating-point numbers itself (fmt) is a parameter.")
c("C111","proved","C111_bounded C111_vanishing C111_overflowing","MeanReasonable lists the bounds; startInertialMean meets them for every rounding mode with correctly rounded functions.")
c("C112","proved","C112_complete","Composition of C110 (layout), C52 (which files) and the invariants of C65 for all models; examples: a run of the activity-driven model with bots that writes four files, and a run with network and agents files. The rows of the network table need fewer than 2^64 - 1 neighbours per agent.")
c("C113","proved","C113_convergence C113_convergence_general C113_bots C113_bots_general C113_exists","Over the real numbers (the same idealisation as C77); the rounded arithmetic is the subject of C95-C109. The constants depend on the bounds only. Examples: two agents moving towards each other, and an agent with a bot, for all time steps.")
c("C114","proved","C114_convergence C114_convergence_general C114_exists","Over the real numbers (the same idealisation as C77 and C113). The constant depends on the bounds only. Example: two agents moving towards each other with friction 2, for all time steps up to 1/6. Runs with bots are not covered.")
c("C115","proved","C115_degroot C115_degroot_group C115_degroot_strict C115_activity C115_activity_history C115_activity_run C115_inertial C115_inertial_run C115_deffuant","In the activity-driven and the inertial model the opinions also affect who contacts whom (homophily); the theorems take the networks of the two runs as given, and only ask that the relevant rows agree; without homophily (all 0) C115_activity_run and C115_inertial_run need no such hypothesis (C101). Examples: a line of three agents, where agent 0 knows only the opinion of agent 2 after two iterations; an iteration with a bot in which an agent without incoming edges is unaffected by the opinion of another, with and without homophily; the same for the inertial model; two separate pairs of agents in the Deffuant model. The Deffuant model with binary vectors is not covered: its generator is used inside the update rule, so the random numbers themselves depend on all opinions.")

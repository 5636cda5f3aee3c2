#!/usr/bin/env python3
"""Writes /verif/properties.jsonl (single source for the property list)."""
import json, os
P = []
def p(id, title, statement, quantifier, why, anchors):
    P.append(dict(id=id, title=title, statement=statement, quantifier=quantifier, why_tests_cant=why, anchors=anchors))

NET="include/network.hpp"; CON="include/connectivity.hpp"; GEN="include/network_generation.hpp"
p("C01","Network stays well-formed and memory-safe under every operation history",
  "Starting from any well-formed network, any sequence of public mutators (set_weights, both set_neighbours_and_weights, push_back_neighbour_and_weight, transpose, toggle_incoming_outgoing, switch_direction_flag, remove_double_counting, clear, writes through the mutable spans) called with agent indices < n_agents() never performs an out-of-bounds access, and leaves a network with one neighbour row and one weight row per agent, as many weights as neighbours in each row, and every neighbour index < n_agents(); an operation that throws leaves the network as it was.",
  "all networks, all finite sequences of operations, all arguments with in-range indices",
  "a test runs a handful of op sequences; the invariant must hold after every history",
  [NET+":Network", NET+":set_weights", NET+":set_neighbours_and_weights", NET+":push_back_neighbour_and_weight", NET+":clear"])
p("C02","toggle_incoming_outgoing preserves the directed weighted graph",
  "For a well-formed network, toggle_incoming_outgoing flips direction() and leaves the multiset of directed weighted edges (source, target, weight) unchanged, where a stored pair (i,j,w) means j->i when direction()==Incoming and i->j when Outgoing.",
  "all well-formed networks of every size", "the unit test checks one random 20-agent network, with a set (not multiset) of edges",
  [NET+":toggle_incoming_outgoing", NET+":direction"])
p("C03","transpose / switch_direction_flag reverse every edge; the representation table holds",
  "transpose() keeps direction() and reverses every edge; switch_direction_flag() flips direction() and reverses every edge without touching the rows; every entry of the N/N^T x inc/out table in network.hpp holds, and toggle followed by transpose is the same as switch up to the order inside each row.",
  "all well-formed networks", "tests sample one network", [NET+":transpose", NET+":switch_direction_flag", NET+":toggle_incoming_outgoing"])
p("C04","toggling twice returns the same adjacency lists up to row order",
  "toggle_incoming_outgoing() applied twice restores direction(), and every agent's (neighbour, weight) row is a permutation of the original, namely the original row stably sorted by neighbour index; so toggling four times equals toggling twice exactly.",
  "all well-formed networks", "needs all sizes and all duplicate patterns", [NET+":toggle_incoming_outgoing"])
p("C05","remove_double_counting merges duplicates and preserves total weight",
  "After remove_double_counting every row lists its neighbours in strictly increasing order, contains exactly the neighbours that were there before, and the weight for each neighbour is the sum of the weights it had before, whatever order std::sort leaves equal keys in; calling it a second time changes nothing; total weight per row is preserved.",
  "all well-formed networks and all results std::sort may return", "std::sort is unstable and its result is unspecified among equal keys; a test sees one implementation", [NET+":remove_double_counting"])
p("C06","n_edges() counts all edges",
  "n_edges() equals the sum over all agents i of n_edges(i).",
  "all networks", "the accumulator is an int: the failure needs more than 2^31-1 edges, which no unit test allocates", [NET+":n_edges"])
p("C07","setters touch only their row and reject wrong sizes without side effects",
  "set_weights(i, w) throws and changes nothing when w.size() differs from n_edges(i), and otherwise makes get_weights(i)==w; set_neighbours_and_weights(i, ns, ws) throws and changes nothing when the sizes differ, and otherwise makes get_neighbours(i)==ns and get_weights(i)==ws; in all cases the rows of every other agent, the agents and the direction are unchanged.",
  "all networks, indices, buffers", "frame conditions range over all other rows", [NET+":set_weights", NET+":set_neighbours_and_weights"])
p("C08","strongly_connected_components terminates, is memory-safe and partitions the agents",
  "For every network whose neighbour indices are in range, strongly_connected_components() terminates, performs no out-of-bounds access or pop of an empty stack, and returns non-empty lists in which every agent index occurs exactly once.",
  "all adjacency lists with in-range indices", "recursion over arbitrary graphs", [CON+":TarjanConnectivityAlgo", CON+":depth_first_search", CON+":run"])
p("C09","every reported component is strongly connected",
  "Any two agents in one list returned by strongly_connected_components() can reach each other along stored edges; hence a result with exactly one list means the network is strongly connected, i.e. the DeGroot constructor never omits its warning on a network that is not strongly connected.",
  "all adjacency lists with in-range indices", "graph reachability over all graphs", [CON+":TarjanConnectivityAlgo","src/models/DeGroot.cpp:DeGrootModel::DeGrootModel"])
p("C10","reported components are exactly the strongly connected components",
  "Two agents are in the same list returned by strongly_connected_components() iff each can reach the other along stored edges.",
  "all adjacency lists with in-range indices", "the single 10-node example in the test suite does not exercise a cross edge to a finished vertex of an unfinished component", [CON+":depth_first_search"])
p("C11","generate_fully_connected builds the complete network",
  "generate_fully_connected(n, w) yields n agents, direction Incoming, and for each agent exactly the neighbours 0..n-1 in order, each with weight w.",
  "all n and w", "every size", [GEN+":generate_fully_connected"])
p("C12","random weights are non-negative and every non-empty row sums to one",
  "In the networks made by generate_fully_connected(n, gen) and generate_n_connections(n, k, self, gen), whenever a row's drawn weights are not all zero the stored weights of that row are non-negative and sum to exactly 1 (exact arithmetic), and each is at most 1.",
  "all n, k, self_interaction, and all random draws in [0,1)", "all RNG outcomes", [GEN+":generate_n_connections", GEN+":generate_fully_connected"])
p("C13","generate_n_connections gives each agent n_connections distinct other neighbours",
  "generate_n_connections(n, k, self, gen): every agent gets k pairwise distinct incoming neighbours different from itself, all < n, in increasing order, followed by itself last iff self_interaction; the network has one row per agent and direction Incoming.",
  "all n, k, self_interaction, all RNG outcomes", "all RNG outcomes; the boundary k >= n is not tested", [GEN+":generate_n_connections","include/util/math.hpp:draw_unique_k_from_n"])
p("C14","square lattice: four neighbours with periodic wrap, symmetric, connected",
  "generate_square_lattice(L, w) has L*L agents, each with exactly the four neighbours obtained by +-1 in either coordinate modulo L and weight w; all indices are in range; the number of times j occurs in row i equals the number of times i occurs in row j; for L >= 3 the four neighbours are distinct and different from the agent; any agent reaches any other.",
  "all L and w", "every L", [GEN+":generate_square_lattice"])
p("C15","network_to_file followed by generate_from_file restores the network",
  "For every well-formed network whose weights survive text formatting, reading the file written by network_to_file gives the same neighbour lists and weights in the same order, one row per agent, with direction Incoming.",
  "all well-formed networks of every size (indices and row lengths representable as int)", "byte-level round trip for all sizes and all rows, including empty rows and an empty last row", ["include/network_io.hpp:network_to_file", GEN+":generate_from_file"])
p("C16","agents_to_file followed by agents_from_file restores the agents",
  "For each agent type (SimpleAgent, ActivityAgent, InertialAgent, DiscreteVectorAgent), reading the file written by agents_to_file gives back the same agents in the same order, for every list of agents whose numbers survive text formatting.",
  "all agent lists of each of the four types", "byte-level round trip for all inputs, including an empty opinion vector", ["include/agent_io.hpp:agents_to_file","include/agent_io.hpp:agents_from_file","include/agents/*.hpp:agent_from_string"])
p("C17","comment lines are ignored and a blank line ends the file",
  "In network and agent files, inserting a line starting with '#' between lines never changes the result, and everything after the first empty line is ignored.",
  "all file contents", "all file contents", [GEN+":generate_from_file","include/agent_io.hpp:agents_from_file"])
p("C18","parse_comma_separated_list passes each entry to the callback",
  "parse_comma_separated_list(str, cb) calls cb(i, s_i) once per comma-separated entry in order with s_i exactly the i-th entry (as in its documentation: \"a_d, b, 1\" gives \"a_d\", \" b\", \" 1\").",
  "all strings", "the test only looks at the numeric prefix of each entry through stoi/stod", ["include/util/misc.hpp:parse_comma_separated_list"])
p("C19","agent_from_string uses the documented columns and keeps defaults for missing ones",
  "For ActivityAgent the columns are opinion, activity, reluctance and for InertialAgent opinion, velocity, activity, reluctance; a missing trailing column leaves the default value (activity 0, reluctance 1, velocity 0).",
  "all strings of one or more numeric columns", "all column counts", ["include/agents/activity_agent.hpp:agent_from_string","include/agents/inertial_agent.hpp:agent_from_string"])
p("C20","network_to_dot_file writes one line per agent",
  "network_to_dot_file writes 'digraph G {', one line per agent listing all its neighbours separated by ', ', and '}', for every network.",
  "all networks", "agents without neighbours are not tested", ["include/network_io.hpp:network_to_dot_file"])
M="include/util/math.hpp"
p("C21","draw_unique_k_from_n draws distinct in-range indices and never the ignored one",
  "draw_unique_k_from_n(ignore, k, n, buffer, gen) with at most as many requested as available returns exactly k strictly increasing indices, all < n and different from ignore, for every generator; and every such set of indices is produced by some sequence of random numbers.",
  "all ignore, k, n with k <= available, all RNG outcomes", "all RNG outcomes; statistical tests sample", [M+":draw_unique_k_from_n"])
p("C22","weighted reservoir sampling returns k distinct in-range indices",
  "reservoir_sampling_A_ExpJ(k, n, weight, buffer, gen) with 0 < k <= n fills buffer with exactly k pairwise distinct indices < n for every weight function and every generator, whichever way ties in the priority queue are broken; with k == 0 it leaves the buffer alone; k > n (not rejected) is undefined behaviour.",
  "all k, n, weights, RNG outcomes", "all RNG outcomes and weights", [M+":reservoir_sampling_A_ExpJ"])
p("C23","an active agent never contacts itself",
  "When exactly the sampling agent itself has weight zero, all others positive, and k <= n-1, reservoir_sampling_A_ExpJ never returns the agent itself (for draws strictly inside (0,1), exact arithmetic with IEEE conventions pow(u,inf)=0, log 0=-inf).",
  "all n, k, positive weights, all draws in (0,1)", "the test samples 10000 runs of one configuration", [M+":reservoir_sampling_A_ExpJ","include/models/ActivityDrivenModel.hpp:homophily_weight"])
p("C24","hamming_distance is a metric and rejects different lengths",
  "hamming_distance throws iff the lengths differ; otherwise it is the number of differing positions, symmetric, zero iff equal, at most the length, and satisfies the triangle inequality.",
  "all vectors", "all lengths", [M+":hamming_distance"])
p("C25","activities drawn from the power law lie in [eps, 1] and follow the documented law",
  "For 0 < eps < 1 and gamma > 1, power_law_distribution::inverse_cdf is strictly increasing from eps at 0 to 1 at 1 and inverts the CDF of density (1-gamma)/(1-eps^(1-gamma)) x^(-gamma) on [eps,1]; pdf(x) returns that density and mean() its mean.",
  "all eps, gamma, arguments", "real-analysis statement over all parameters", [M+":power_law_distribution"])
p("C26","truncated normal draws are never below eps",
  "truncated_normal_distribution(mean, sigma, eps) with sigma > 0 returns values >= eps, monotone in the uniform draw (given an exact erf/erfinv pair).",
  "all mean, sigma > 0, eps, draws in [0,1)", "all draws and parameters", [M+":truncated_normal_distribution"])
p("C27","erfinv is odd, sign-preserving and total",
  "erfinv(x) is NaN outside [-1,1], +-infinity at +-1, and on (-1,1) never divides by zero, satisfies erfinv(-x) = -erfinv(x), and has the sign of x.",
  "all real x", "all x", ["include/util/erfinv.hpp:erfinv"])
p("C28","bivariate normal has unit variances and the requested covariance",
  "If the two normal draws are uncorrelated with mean 0 and variance 1 then the two outputs of bivariate_normal_distribution(c), |c| <= 1, have mean 0, variance 1 and covariance c.",
  "all |c| <= 1 and all probability spaces", "statistical", [M+":bivariate_normal_distribution"])
DG="src/models/DeGroot.cpp"
p("C29","DeGroot iteration is the synchronous weighted average",
  "One DeGrootModel::iteration() on a well-formed network replaces all opinions simultaneously by x_i' = sum_j w_ij x_j over i's stored neighbours (old opinions on the right), changes no edge, and never accesses out of bounds.",
  "all well-formed networks and opinions", "all sizes and duplicate edges", [DG+":iteration"])
p("C30","DeGroot opinions never leave the initial opinion interval",
  "If all weights are non-negative and each row sums to 1, then after any number of iterations every opinion lies between the minimum and maximum of the starting opinions; a consensus state is unchanged; the map commutes with affine rescaling of opinions.",
  "all row-stochastic networks, all opinions, any number of iterations (exact arithmetic)", "all histories", [DG+":iteration"])
p("C31","DeGroot stops exactly at max_iterations or at the first converged step",
  "A DeGroot run stops after the first iteration whose largest opinion change is below convergence_tol, or after max_iterations, whichever comes first, and never earlier.",
  "all networks, opinions, tolerances, iteration limits", "all histories", [DG+":finished","include/model.hpp:finished","include/simulation.hpp:run"])
p("C32","DeGroot with positive tolerance terminates without an iteration limit",
  "With convergence_tol > 0 and no max_iterations a DeGroot run terminates on every row-stochastic strongly connected network whose agents all listen to themselves (positive self weight), as produced by the simulation's own network generator; it need not terminate on a periodic network.",
  "all such networks, opinions and tolerances", "liveness over unbounded runs", [DG+":iteration",DG+":finished"])
DF="src/models/DeffuantModel.cpp"
p("C33","Deffuant conserves the mean opinion",
  "The sum of all opinions is the same after any number of Deffuant iterations, whichever pairs are drawn (exact arithmetic), including pairs consisting of one agent twice.",
  "all agent counts, opinions, mu, thresholds, RNG outcomes, numbers of iterations", "all schedules of random pairs", [DF+":update_rule","include/models/DeffuantModel.hpp:iteration"])
p("C34","Deffuant opinions never leave the initial interval",
  "For 0 <= mu <= 1 every opinion stays within the minimum and maximum of the starting opinions forever; for the default initialisation all opinions stay in [0,1).",
  "all opinions, thresholds, RNG outcomes, numbers of iterations", "all schedules", [DF+":update_rule"])
p("C35","Deffuant interaction: locality and contraction",
  "An interaction changes at most the two chosen agents; it changes nothing if they differ by at least the threshold; otherwise their difference is multiplied by 1-2mu; for 0<=mu<=1 the sum of squared opinions (hence the variance) never increases.",
  "all states and pairs, all histories", "all schedules", [DF+":update_rule"])
p("C36","separated Deffuant clusters never mix",
  "If the agents split into two groups whose opinion ranges are at least homophily_threshold apart, then for every schedule each group stays inside its own initial range and keeps its own mean forever (0<=mu<=1).",
  "all states, partitions, schedules, numbers of iterations", "the lattice test runs one seed", [DF+":update_rule"])
p("C37","Deffuant picks two distinct agents, or an agent and one of its lattice neighbours",
  "select_interacting_agent_pair returns two in-range indices; without network they are distinct as soon as there are two agents; with network the second is a lattice neighbour of the first; no iteration accesses out of bounds.",
  "all n, RNG outcomes", "all RNG outcomes", ["include/models/DeffuantModel.hpp:select_interacting_agent_pair"])
p("C38","use_network requires a square number of agents",
  "Constructing a Deffuant model with use_network throws iff the number of agents is not a perfect square; otherwise the network becomes the square lattice with the same number of agents.",
  "all agent counts", "all sizes", ["include/models/DeffuantModel.hpp:DeffuantModelAbstract"])
DV="src/models/DeffuantModelVector.cpp"
p("C39","vector Deffuant keeps dimension and binary values",
  "After initialisation with dimension dim and any number of iterations each agent's opinion has exactly dim entries, all 0 or 1, no out-of-bounds access or size-mismatch exception occurs.",
  "all n, dim, RNG outcomes, numbers of iterations", "all schedules", [DV+":initialize_agents",DV+":update_rule"])
p("C40","vector Deffuant interaction outcome",
  "If the Hamming distance is below the threshold the two agents end up with identical opinions and each entry comes from one of the two; otherwise neither changes; entries on which all agents agree never change, so consensus is absorbing.",
  "all states, RNG outcomes, histories", "all schedules", [DV+":update_rule"])
p("C41","mu is the probability of being convinced in the vector model",
  "In the vector Deffuant model with mu = 0 (never convinced) an interaction leaves both opinions unchanged.",
  "all states and RNG outcomes", "the two-agent test only checks that the opinions become equal", [DV+":update_rule"])
AD="include/models/ActivityDrivenModel.hpp"
p("C42","bot opinions are fixed",
  "After every iteration of the activity-driven and inertial models the first n_bots agents have exactly the configured bot_opinion, for every history; no iteration changes any agent's activity or reluctance.",
  "all states, RNG outcomes, numbers of iterations", "all histories", ["src/models/ActivityDrivenModel.cpp:iteration","src/models/InertialModel.cpp:iteration",AD+":get_agents_from_power_law"])
p("C43","probabilistic network update: edges are exactly contacts and reciprocations",
  "After the probabilistic update the network is well-formed with direction Incoming, all weights are 1, no duplicate edges; j listens to i iff i was activated and contacted j, or j was activated and contacted i, i did not contact j and the reciprocation draw succeeded; agents that were not activated contact nobody; no out-of-bounds access (including iterator invalidation) occurs when every m is at most n_agents.",
  "all states, RNG outcomes", "all RNG outcomes", [AD+":update_network_probabilistic"])
p("C44","reciprocity 0 and 1 are the extreme cases",
  "With reciprocity 0 the edges are exactly the contacts; with reciprocity >= 1 the network is symmetric: j listens to i iff i listens to j.",
  "all states, RNG outcomes", "all RNG outcomes", [AD+":update_network_probabilistic"])
p("C45","an activated agent contacts exactly m distinct agents",
  "In the probabilistic model each activated non-bot agent contacts exactly m distinct agents (bots: bot_m), for every 0 <= m <= n_agents accepted by validation.",
  "all states, RNG outcomes, m, bot_m", "m = 0 for some agents and positive for others is not tested", [AD+":update_network_probabilistic", M+":reservoir_sampling_A_ExpJ"])
p("C46","activity-driven opinions stay bounded",
  "For 0 < dt <= 1 and positive reluctance each RK4 step keeps |x_i| <= max(|x_i|, |K|/m_i * sum_j |w_ij|), for the actual tanh; hence over any number of iterations of the probabilistic model opinions are bounded by max(|x_i(0)|, |bot opinion|, |K| n / min reluctance).",
  "all networks, opinions, parameters, RNG outcomes, numbers of iterations (exact arithmetic)", "all histories", ["src/models/ActivityDrivenModel.cpp:iteration",AD+":get_euler_slopes"])
p("C47","one iteration is a classical RK4 step of the opinion ODE",
  "With the network fixed, an activity-driven iteration changes the non-bot opinions exactly by one classical 4th-order Runge-Kutta step of dx_i/dt = -x_i + (K/m_i) sum_j w_ij tanh(alpha x_j), all agents simultaneously.",
  "all networks, opinions, parameters", "all sizes", ["src/models/ActivityDrivenModel.cpp:iteration",AD+":get_euler_slopes"])
p("C48","mirror symmetry",
  "Negating all opinions and bot opinions (and velocities) negates the whole trajectory of the activity-driven and inertial models under the same random numbers, and leaves the networks the same.",
  "all states, RNG streams, numbers of iterations", "relational property over pairs of runs", [AD+":homophily_weight",AD+":update_network","src/models/InertialModel.cpp:iteration"])
p("C49","mean-field weights",
  "In mean_weights mode the weight with which j listens to i is P_ij + (1-P_ij) r P_ji where P_ij is the probability that i contacts j; these are probabilities: P in [0,1], weights in [0,1], and P scales with agent i's activity.",
  "all states and parameters", "all parameters", [AD+":update_network_mean"])
p("C50","inertial step is velocity Verlet with friction",
  "One inertial iteration (network fixed) is x' = x + v dt + a dt^2/2 with a = D(x) - friction v, and v' the solution of v' = v + dt/2 (D(x) - friction v + D(x') - friction v'), all agents simultaneously, for friction*dt > -2; the rest state (all zero) is a fixed point.",
  "all networks, states and parameters", "all sizes", ["src/models/InertialModel.cpp:calc_position","src/models/InertialModel.cpp:calc_velocity"])
S="include/simulation.hpp"
p("C51","a run performs exactly max_iterations iterations",
  "Simulation::run with max_iterations = N performs exactly N iterations (none if N = 0) for the Deffuant and activity models; without max_iterations it never stops; calling run again starts counting from 0.",
  "all N and all models' step functions", "all N; non-termination cannot be observed by a test", [S+":run","include/model.hpp:Model"])
p("C52","exactly the requested output files are written, none twice",
  "run writes network_s.txt and opinions_s.txt for s = start_numbering_from first iff output_initial, and after iteration k writes opinions_(k+s).txt iff n_output_agents is set, k >= start_output and n_output_agents divides k, likewise network files with n_output_network; each file holds the state right after iteration k; no file name is written twice in one run; n_output_* = 0 (accepted by validation) is undefined behaviour.",
  "all output settings, run lengths and models", "all settings combinations", [S+":run","include/config_parser.hpp:OutputSettings"])
p("C53","validate_settings accepts exactly the documented ranges",
  "validate_settings throws iff one of its documented conditions fails for the selected model, and in particular accepted settings have bot vectors of length >= n_bots, 0<=mu<=1, dim = 1 unless binary vectors are used.",
  "all settings", "all settings", ["src/config_parser.cpp:validate_settings"])
p("C54","accepted settings cannot crash the simulation",
  "A configuration accepted by validate_settings (with the generated network, no input files) never leads to undefined behaviour during the run.",
  "all accepted settings, RNG outcomes", "all settings and RNG outcomes", ["src/config_parser.cpp:validate_settings",S+":run"])
p("C55","configuration parsing: documented defaults and key mapping",
  "parse_config_file takes each setting from its documented key and otherwise uses the documented default (e.g. DeGroot convergence 1e-6, bot_activity 0 as in the example files); an unknown or missing model string throws.",
  "all TOML tables", "all tables", ["src/config_parser.cpp:parse_config_file","include/config_parser.hpp"])
p("C56","model factory and main agree on agent types",
  "Creating the simulation through main never hits the 'Incompatible agent and model type' error, and any other agent type always does; a network file given on the command line takes precedence and an agents file replaces all agents after model construction.",
  "all options and agent types", "all combinations", ["include/model_factory.hpp","src/main.cpp",S+":create_network",S+":create_model"])
p("C57","end-to-end Deffuant run",
  "For every accepted Deffuant configuration with non-zero output intervals, the whole program (network generation, model construction, run) completes without exception or undefined behaviour for every random outcome (with use_network: iff n_agents is a square), and every written opinions file holds opinions in [0,1) with the initial mean.",
  "all configurations, RNG outcomes", "end-to-end over all random outcomes", ["src/main.cpp",S+":run",DF])
p("C58","end-to-end DeGroot run",
  "For every accepted DeGroot configuration with max_iterations and non-zero output intervals the whole program completes without undefined behaviour for every random outcome, and (whenever no row of random weights is all zero) every written opinions file holds opinions in [0,1).",
  "all configurations, RNG outcomes", "end-to-end over all random outcomes", ["src/main.cpp",S+":run",DG])
p("C59","end-to-end activity-driven run",
  "For every accepted activity-driven or inertial configuration with m <= n_agents (and 0 <= bot_m <= n_agents, n_bots <= n_agents), max_iterations and non-zero output intervals, the whole program completes without undefined behaviour for every random outcome.",
  "all configurations, RNG outcomes", "end-to-end over all random outcomes", ["src/main.cpp",S+":run",AD])
p("C60","a second run of a simulation behaves like a fresh run",
  "Calling run() a second time on the same simulation performs iterations again from the current state until max_iterations or convergence.",
  "all models and states", "sequence of API calls", [S+":run","include/model.hpp:initialize_iterations",DG+":finished"])
p("C61","initial agents of the activity-driven models",
  "For every random outcome and every accepted setting with eps < 1 and n_bots <= n_agents, constructing an activity-driven or inertial model succeeds and gives the bots their configured opinions and activities and every other agent an opinion in [-1,1), an activity in [eps,1] (the mean activity with mean_activities) and a reluctance >= reluctance_eps (the default 1 without reluctances); with more bots than agents the construction is undefined behaviour.",
  "all settings, networks and random outcomes", "all random outcomes", [AD+":get_agents_from_power_law","include/util/math.hpp:bivariate_gaussian_copula"])
p("C62","draw_unique_k_from_n is unbiased",
  "If the integers drawn from the generator are independent and uniform, every set of k allowed indices is returned by draw_unique_k_from_n with the same probability 1/binomial(m, k), m the number of allowed indices, whatever the buffer held before.",
  "all n, k, ignored indices, buffers; all answer sequences of the generator", "a distribution over all generator answers; a test sees samples", ["include/util/math.hpp:draw_unique_k_from_n"])
p("C63","DeGroot reaches consensus",
  "On a row-stochastic network whose agents all listen to themselves and in which some agent is heard (directly or indirectly) by everybody, all opinions converge to one common value; it lies within the range of the starting opinions and is their average with respect to any stationary distribution of the weights (their plain mean if the weights are doubly stochastic).",
  "all such networks, starting opinions, infinitely many iterations", "limit of an infinite execution", [DG+":iteration"])
p("C64","Deffuant opinions converge to separated clusters",
  "For 0 <= mu < 1 every agent's opinion converges, whatever pairs are drawn; for 0 < mu < 1 two agents that are drawn as a pair in infinitely many iterations end up with the same opinion or at least homophily_threshold apart; the limits keep the mean and the range of the start. For mu = 1 (accepted by validate_settings) opinions need not converge.",
  "all networks, thresholds, starting opinions, infinite schedules", "limit of an infinite execution over all schedules", [DF+":update_rule",DF+":iteration"])
p("C65","safety of runs started from files",
  "Whatever network and agents files are named on the command line: if the files that can be read describe the same number n of agents with indices below n, the output intervals are non-zero and (activity-driven) the contact and bot numbers fit n, the whole program has no undefined behaviour for every random outcome and every floating-point arithmetic: it returns, goes on, or ends with an exception. Settings that are not valid end it with an exception. An agents file with more agents than the network is not rejected and is undefined behaviour.",
  "all configurations, files, RNG outcomes, arithmetics, run lengths", "all file contents and random outcomes", ["src/main.cpp",S+":create_network",S+":create_model",S+":run","include/network_io.hpp","include/agent_io.hpp"])
p("C66","restart from saved files",
  "Started with the network file and the agents file that a simulation wrote, the program begins with exactly the saved network (same agents, edges, weights), for every model that keeps its edges; for DeGroot the restarted run passes through exactly the states the first run passed through after the moment of saving.",
  "all networks whose numbers survive formatting, all runs, all moments of saving", "all states and all histories", ["include/network_io.hpp","include/agent_io.hpp",S+":create_network",S+":create_model",DG])
p("C67","reservoir sampling follows the weights",
  "If the numbers drawn from the generator are independent and uniform, reservoir sampling of k out of n items with weights w (non-negative, at least k of them positive, the contact weights of the activity model) returns each ordered sample with exactly the probability of drawing k items one after the other without replacement, each in proportion to its weight among those left; a single item is chosen with probability w_i / sum w; items of weight 0 are almost surely never chosen.",
  "all n, k, weights, buffers; all outcomes of the generator (a probability measure)", "a distribution over all generator answers; a test sees samples", ["include/util/math.hpp:reservoir_sampling_A_ExpJ"])
p("C68","erfinv is accurate",
  "For every argument with |x| <= 1 - 2^-53 the inverse error function returns a finite y with |erf(y) - x| at most 1e-9 |x| and at most 1e-9 (1 - |x|), and y agrees with the exact inverse to nine digits; so a number drawn from the truncated normal distribution with the random number u has probability mass u below it up to 1e-9 (1 - u).",
  "all real arguments up to the last representable number below 1 (the polynomials evaluated exactly)", "a continuum of arguments; tests sample a few points", ["include/util/erfinv.hpp:erfinv","include/util/math.hpp:truncated_normal_distribution"])
p("C69","initial agents are independent with the documented laws",
  "If the generator draws independent uniform and standard normal numbers, the initial agents other than bots are independent of each other and identically distributed: the opinion is uniform on [-1, 1] and independent of activity and reluctance, the activity has the power law with exponent gamma above eps, the reluctance the truncated normal law; with covariance factor 0 activity and reluctance are independent of each other.",
  "all settings, numbers of agents, events; all outcomes of the generator (a probability measure)", "a joint distribution over all generator answers", [AD+":get_agents_from_power_law","include/util/math.hpp:bivariate_normal_distribution","include/util/math.hpp:bivariate_gaussian_copula"])
p("C70","meaning of network and agent files",
  "For every file content the network reader returns exactly the network whose i-th agent has the neighbours and weights written in the i-th data line (first column ignored, second the number n of neighbours, n integers, the remaining columns as weights), and the agent reader one agent per data line; an integer field is the decimal number it begins with if that fits into an int, otherwise reading ends with an exception (invalid_argument, out_of_range); no other file content is rejected: lines cut short and negative indices are accepted.",
  "all file contents (below 2^63 - 1 characters)", "all file contents", ["include/network_generation.hpp:generate_from_file","include/agent_io.hpp:agents_from_file"])
p("C71","law of the activity-driven network",
  "With a random number generator that draws independent uniform numbers, in one iteration of the activity-driven or inertial model (m and bot_m between 1 and n-1) each agent is activated with probability activity (cut off at 0 and 1); an activated agent contacts a weighted random sample without replacement of m agents, the weight of j for i being max(|x_i-x_j|,1e-10)^(-homophily) and 0 for itself; every contact that is not mutual is reciprocated with probability reciprocity; all of this independently between agents and between pairs, and the generator is left in a fresh state so that iterations are independent given the opinions. Hence the probability of every network is the sum over the contacts and reciprocations that produce it.",
  "all numbers of agents, opinions, activities, homophilies, numbers of contacts, outcomes; all outcomes of the generator (a probability measure)", "a joint distribution over all generator answers", [AD+":update_network_probabilistic",AD+":homophily_weight","include/util/math.hpp:reservoir_sampling_A_ExpJ"])
p("C72","Deffuant opinions in double precision",
  "In IEEE double arithmetic (rounding to nearest, any tie rule): for every accepted mu in [0,1], opinions that start in [0,1] (in particular the default i/n) stay in [0,1] forever, and the mean opinion moves by at most 2^-53 per iteration; for mu <= 1 - 2^-52 opinions never leave the interval spanned by the initial opinions, and groups at least the threshold apart never mix; for mu = 1 rounding can move an opinion outside the initial interval.",
  "all doubles, rounding modes to nearest, schedules, numbers of iterations and agents, accepted configurations", "all inputs and schedules; floating-point rounding", ["src/models/DeffuantModel.cpp:update_rule","include/models/DeffuantModel.hpp:iteration"])
p("C73","DeGroot and random weights in double precision",
  "In IEEE double arithmetic (rounding to nearest): randomly generated weights are in [0,1] and differ from the exactly normalised ones by at most (m+1) 2^-52 per row of m weights (unless all draws of the row are zero); opinions stay non-negative; after k iterations every opinion is within (k (m+1) + 1) 2^-49 of the opinion the same program computes in exact arithmetic from the same draws, so opinions leave [0,1) by at most that much; and the run stops at the latest when the exact change falls below the tolerance by a corresponding margin.",
  "all doubles, rounding modes to nearest, draws, networks, numbers of iterations and agents with k (m+1) < 2^49, accepted configurations", "all inputs and random outcomes; floating-point rounding", ["include/network_generation.hpp:generate_n_connections","src/models/DeGroot.cpp:iteration","src/models/DeGroot.cpp:finished"])
p("C74","Deffuant opinions reach separated clusters almost surely",
  "If the integers drawn from the generator are independent and uniform, then without network each pair of agents meets with probability 1/binomial(n,2), with network an agent is drawn uniformly and then one of the entries of its neighbour list, independently of all other draws; for 0 < mu < 1, with probability one every opinion converges and any two agents that can meet end up with the same opinion or at least homophily_threshold apart; if the initial opinions lie within less than the threshold and the agents are connected (no network, or the square lattice), with probability one all opinions converge to the mean of the initial opinions.",
  "all numbers of agents, networks, thresholds, starting opinions; infinitely many iterations; all outcomes of the generator (a probability measure)", "an event of an infinite execution under a probability measure", [DF+":select_interacting_agent_pair",DF+":iteration",DF+":update_rule","include/util/math.hpp:draw_unique_k_from_n"])
ADC="src/models/ActivityDrivenModel.cpp"; IN="src/models/InertialModel.cpp"
p("C75","Weak interaction leads to neutral consensus",
  "In the probabilistic activity-driven model without bots, with 0 < dt <= 1, positive reluctances and |K alpha| n <= L m_i for all agents i, where L (2+dt) <= 2-dt: after k iterations every opinion is at most (d + (1-d) L)^k times the largest initial one, where d = 1 - dt + dt^2/2 - dt^3/6 + dt^4/24; so every opinion tends to 0, whatever the random draws.",
  "all numbers of agents, activities, homophilies, draws of the generator, starting opinions; any number of iterations and the limit", "a contraction over all histories and a limit", [ADC+":iteration",AD+":get_euler_slopes"])
p("C76","One-sided opinions stay one-sided",
  "In the probabilistic activity-driven model with K, alpha >= 0, positive reluctances and 0 <= dt <= 2/3: if all opinions and all bot opinions are >= 0 (or all <= 0), they stay so, and after k iterations the opinion of an agent that is not a bot is at least d^k times as far from 0 as at the start, with d = 1 - dt + dt^2/2 - dt^3/6 + dt^4/24 (an agent without contacts decays exactly at this rate).",
  "all numbers of agents, parameters, draws, starting opinions, any number of iterations", "an invariant of all histories", [ADC+":iteration",AD+":get_euler_slopes"])
p("C77","An iteration follows the differential equation to fourth order",
  "The contacts of an iteration do not depend on dt. For the network of these contacts, let g(h) be the exact solution at time h of dx_i/dt = -x_i + (K/m_i) sum_j w_ij tanh(alpha x_j) from the current opinions. Without bots, an iteration with time step h yields g(h) up to O(h^5). With bots, held fixed in the exact solution, the error is (drift of the bots) h^2/2 + O(h^3): the bots move during the stages of a step and are put back only afterwards.",
  "all states, networks, parameters; all small enough time steps (asymptotically)", "an asymptotic statement about a differential equation", [ADC+":iteration",AD+":get_euler_slopes"])
p("C78","An iteration of the inertial model follows the differential equation to second order",
  "For the network of the contacts of an iteration (which do not depend on dt), let (g(h), v(h)) be the exact solution at time h of x_i'' = -x_i + (K/m_i) sum_j w_ij tanh(alpha x_j) - friction x_i' from the current opinions and velocities. Without bots, an iteration with time step h yields opinions g(h) + O(h^3) and velocities v(h) + O(h^3).",
  "all states, networks, parameters; all small enough time steps (asymptotically)", "an asymptotic statement about a differential equation", [IN+":iteration",IN+":calc_position",IN+":calc_velocity"])
p("C79","What a run leaves on disk, also when it fails or is killed",
  "The program reads its input files, as they are at its start, before it writes anything. Whenever the process stops - normally, by an exception, or because it is killed between or during two operations - the disk differs from the one at its start only by a prefix of the files wanted for the iterations made so far (in the order network/opinions initially, then opinions/network per iteration), each complete and with the contents of the state it is numbered by, except possibly the last, which may be cut off; if the configuration or an input file is rejected no file changes. A run that is continued does what it did before and more. Files that cannot be opened are lost silently. From a complete pair of files the program can be started again with exactly this network and these agents. The exit code is 1 for wrong arguments, 0 exactly for a completed run.",
  "all inputs, disks, kill points, numbers of iterations, models, generators", "all crash points and histories", ["src/main.cpp:main","include/simulation.hpp:run","include/agent_io.hpp:agents_to_file","include/network_io.hpp:network_to_file"])
p("C80","The console output documents and reproduces the run",
  "Standard output is: input file and output directory, the settings (seed first), the input files given on the command line, the warning about strongly connected components where it applies, a header, a progress line per iteration if asked for, and at the end (only then) the number of iterations; nothing else. The printed seed is the seed used: a configuration without seed, run again with the printed seed put in as rng_seed, makes the program do exactly the same. Two configurations whose settings are printed alike have the same seed, model, size of network, output settings and model settings (as far as they are used).",
  "all configurations, disks, models, generators, numbers of iterations; all doubles that survive formatting", "all inputs; injectivity over all pairs of configurations", ["src/config_parser.cpp:print_settings","src/main.cpp:main","include/simulation.hpp:run","src/models/DeGroot.cpp:DeGrootModel"])
p("C81","What is printed determines what is done; unused settings have no influence",
  "Settings that the chosen model does not use — those of bots if there are no bots, those of reluctances if these are switched off, whatever was left at a default in other model's sections — have no influence whatever on the process. Two processes with the same command line and input files whose configurations print the same settings do exactly the same: the same console output, the same files with the same contents in the same order, the same exit.",
  "all pairs of configurations, disks, models, random-device outcomes, numbers of iterations", "a hyperproperty over all pairs of configurations and all executions", ["src/config_parser.cpp:print_settings","include/models/ActivityDrivenModel.hpp:ActivityDrivenModelAbstract","src/main.cpp:main","include/simulation.hpp:run"])
p("C82","The activity-driven model never produces NaN or infinities",
"In IEEE double precision, with overflow, infinities and NaN, with any rounding to nearest and any tanh with values in [-1,1]: over any number of iterations of the probabilistic activity-driven model with 2^-40 <= dt <= 1 every opinion stays a finite number of size at most M, where M >= 1 is any number (up to 2^1000) that bounds the initial opinions, the bot opinions and 3/2 |K| n / m_i (m_i the reluctances, n agents). In particular a whole program run without reluctances from an accepted configuration completes, and every opinion it writes is finite and at most max(1, bot opinions, 3/2 |K| n).",
"every rounding mode to nearest, every number of iterations, network size up to 2^40, every random outcome, every contact choice, every bot setup, every accepted configuration with finite parameters",
"a NaN or overflow would only show up after very many iterations or for rare combinations of rounding errors; the claim is about all infinitely long runs and all inputs",
["src/models/ActivityDrivenModel.cpp:11-48","include/models/ActivityDrivenModel.hpp:326-349 get_euler_slopes","include/models/ActivityDrivenModel.hpp:124-148"])
p("C83","The inertial model is stable for dt < 2 and positive friction, and only then",
"For 0 < dt < 2 and positive friction there are constants C and q < 1, depending on these two settings only, such that after k iterations of the inertial model (probabilistic network) every agent that is not a bot has |opinion| and |velocity| at most C (q^k (|opinion(0)| + |velocity(0)|) + |K| n / m_i): everything stays bounded and the initial state is forgotten exponentially fast; the velocity of a bot satisfies the same with its opinion added. Without interaction the energy (1 - dt^2/4) x^2 + (1 + friction dt/2)^2 v^2 decreases by exactly 2 friction dt v^2 per iteration (so it is conserved without friction), and for dt >= 2 an agent starting at rest never again comes closer to 0 than it was at the start, however large the friction is; if friction dt <= 2 its opinion grows at least by the factor dt^2/2 - 1 in every iteration.",
"all numbers of agents, parameters, draws of the generator, contact choices, starting states, any number of iterations", "a bound over infinitely many iterations, uniform in all histories, and its sharpness", [IN+":iteration",IN+":calc_position",IN+":calc_velocity"])
p("C84","The activity-driven model is stable for dt < 2.785 and only then",
"If 0 < dt and dt^3 - 4 dt^2 + 12 dt < 24 (true for dt <= 2.78, false for dt >= 2.79) there is a constant C depending on dt only such that after k iterations of the activity-driven model (probabilistic network) every agent that is not a bot has |x_i| <= q^k |x_i(0)| + C |K| n / m_i, where q = 1 - dt + dt^2/2 - dt^3/6 + dt^4/24 lies in (0,1). If dt^3 - 4 dt^2 + 12 dt > 24, then q > 1 and |x_i| >= q^k (|x_i(0)| - C |K| n / m_i): a large enough opinion runs away, whatever the random draws. The settings check accepts every positive dt.",
"all numbers of agents, parameters, draws of the generator, contact choices, starting states, any number of iterations", "a bound over infinitely many iterations, uniform in all histories, and its sharpness", [ADC+":iteration",AD+":get_euler_slopes","src/config_parser.cpp:validate_settings"])

p("C85","The binary-vector Deffuant model almost surely comes to rest",
"With fair, independent draws, whatever the number of agents, the dimension, the threshold, mu and use_network: after construction and initialize_agents the opinion vectors almost surely stop changing after finitely many iterations, and from then on any two agents that can meet (any two without network, lattice neighbours with it) hold the same vector or differ in at least as many positions as the homophily threshold. If the threshold exceeds the dimension and the agents are connected by agents that can meet, all agents almost surely end with one common vector. The probability of not resting after m K iterations is at most 2^-m for some K.",
"all numbers of agents, dimensions, thresholds, mu, networks with mutual neighbours, initial vectors, almost all outcomes of the random draws, all times after the resting time", "an almost-sure statement about infinite runs: a run that has not stopped yet refutes nothing, and a run that has stopped shows nothing about others", ["include/models/DeffuantModel.hpp:iteration","include/models/DeffuantModel.hpp:select_interacting_agent_pair","src/models/DeffuantModelVector.cpp:update_rule","src/models/DeffuantModelVector.cpp:initialize_agents"])

p("C86","The numbering of the agents is immaterial (DeGroot, scalar Deffuant)",
"Let a second model be the first one with agent i called sigma(i), sigma a permutation: same opinions, same edges. DeGroot: after any number of iterations the opinions (and the whole network) of the second model are those of the first under the new names, bit for bit in any arithmetic if the rows keep their order, and a run stops after the same number of iterations. Deffuant with scalar opinions and fair independent draws, with or without use_network: after any number of iterations every vector of opinions has, under the new names, exactly the same probability (the rows of neighbours may also be in another order).",
"all numbers of agents, networks, opinions, permutations, numbers of iterations, thresholds, mu", "equality of two probability laws over all outcomes of the generator, for every relabelling; single runs with the same seed differ, so comparing outputs shows nothing", ["src/models/DeGroot.cpp:iteration","include/models/DeffuantModel.hpp:iteration","include/models/DeffuantModel.hpp:select_interacting_agent_pair","src/models/DeffuantModel.cpp:update_rule"])
p("C87","The numbering of the agents is immaterial (Deffuant with binary vectors)",
"For the Deffuant model with binary vectors and fair independent draws, calling agent i by sigma(i) (sigma a permutation) does not change the law of the opinion vectors after any number of iterations: neither of two agents that meet is favoured because of its number.",
"all numbers of agents, dimensions, opinions, permutations, numbers of iterations, thresholds, mu, with and without network", "equality of two probability laws over all outcomes of the generator; the bias towards low numbers only shows in the frequencies over many runs", ["include/models/DeffuantModel.hpp:select_interacting_agent_pair","src/models/DeffuantModelVector.cpp:update_rule"])

p("C88","The numbering of the agents is immaterial (activity-driven and inertial models)",
"For the activity-driven and the inertial model with random network (mean_weights = false), finite settings, independent uniform draws and a number of contacts between 1 and n-1 for each of the n agents, calling agent i by sigma(i) (sigma a permutation under which the bots stay the first agents, with their settings renumbered likewise) does not change the law of the agents after any number of iterations, nor the law of the whole history of agents and networks.",
"all numbers of agents, opinions, activities, reluctances, bots, permutations, numbers of iterations, homophily, reciprocity, K, alpha, dt", "equality of two probability laws over all outcomes of the generator, for every relabelling and every number of iterations; single runs with the same seed differ, so comparing outputs shows nothing", ["include/models/ActivityDrivenModel.hpp:update_network_probabilistic","include/models/ActivityDrivenModel.hpp:homophily_weight","include/util/math.hpp:reservoir_sampling_A_ExpJ","src/models/ActivityDrivenModel.cpp:iteration","src/models/InertialModel.cpp:iteration"])

p("C89","How fast the DeGroot model reaches consensus",
"In a DeGroot run with non-negative weights that sum to one in each row, where every agent listens to itself and some agent is heard (directly or indirectly) by everybody, let delta be a lower bound of the positive weights and n the number of agents. After m*(n-1) iterations, and ever after, all opinions lie in one interval whose length is (1-delta^(n-1))^m times that of the interval of the initial opinions, so each opinion is at most that far from the consensus; the run with a positive tolerance ends after at most m*(n-1)+1 iterations as soon as this length is below the tolerance, and from the constructor's own initial opinions as soon as (1-delta^(n-1))^m is. If everybody gives everybody a weight of at least delta, each single iteration shortens the largest difference of opinions by the factor 1-n*delta.",
"all networks, numbers of agents, weights, initial opinions, tolerances, numbers of iterations", "a bound on the number of iterations for every network and every start; tests see only particular networks and the bound has to hold for the worst one", ["src/models/DeGroot.cpp:iteration","src/models/DeGroot.cpp:finished","src/models/DeGroot.cpp:DeGrootModel"])

p("C90","The DeGroot model is linear, monotone and does not amplify changes",
"Take two DeGroot runs on the same weighted network (rows non-negative with sum one) from different initial opinions. After any number of iterations the difference of the opinions is again the weighted average of the differences one iteration earlier; if the initial opinions differ by at most d, so do all later ones; if no initial opinion is lower in the second run (or each is higher by at least d), the same holds of all later opinions.",
"all networks, all pairs of initial opinions, all numbers of iterations", "relates two runs for every network, every perturbation and every number of iterations", ["src/models/DeGroot.cpp:iteration"])

p("C91","The number of final opinion clusters of the Deffuant model",
"Scalar Deffuant model without network, fair independent draws, 0 < mu < 1, threshold >= 0: almost surely every opinion converges, any two different final opinions are at least homophily_threshold apart, and if the initial opinions lie in [lo, hi] the number c of different final opinions satisfies (c-1)*threshold <= hi-lo; the final opinions, counted with the number of agents holding them, have the sum of the initial opinions. From the constructor and initialize_agents (opinions i/n): (c-1)*threshold < 1, so a threshold of 1 gives consensus and one above 1/2 at most two clusters.",
"all numbers of agents, initial opinions, thresholds, mu, almost all outcomes of the generator", "a limit over infinitely many iterations with probability one", ["include/models/DeffuantModel.hpp:iteration","src/models/DeffuantModel.cpp:update_rule","src/models/DeffuantModel.cpp:initialize_agents"])

p("C92","Units of opinions and names of answers are immaterial in the Deffuant models",
"Scalar model: if all initial opinions x are replaced by a*x+b (a non-zero, possibly negative) and the threshold is multiplied by |a|, then with the same random numbers the same holds of all opinions after every number of iterations, and an iteration fails in one of the two models exactly if it does in the other. Binary-vector model: if in each position the two answers are renamed one-to-one (for instance 0 and 1 exchanged in some positions) in all initial vectors, they are renamed in the same way in all vectors after every number of iterations with the same random numbers.",
"all states, all networks, all generators, all a, b and renamings, all numbers of iterations", "relates two runs for every state, every random outcome and every number of iterations", ["src/models/DeffuantModel.cpp:update_rule","src/models/DeffuantModelVector.cpp:update_rule","include/models/DeffuantModel.hpp:iteration","include/util/math.hpp:hamming_distance"])

p("C93","The DeGroot model comes to rest whenever everybody listens to himself, even without consensus",
"In a DeGroot run with non-negative weights that sum to one in each row, where every agent gives itself a weight of at least delta (0 < delta < 1), on every network, strongly connected or not: the change D of any opinion in iteration k+1 satisfies 4*delta*(k+1)*D^2 <= (1-delta)*(hi-lo)^2, where [lo, hi] holds the initial opinions. Hence a run with positive tolerance tol ends after at most m+1 iterations once (1-delta)*(hi-lo)^2 < 4*delta*(m+1)*tol^2 (from the constructor's opinions: (1-delta) < 4*delta*(m+1)*tol^2), also without max_iterations; the whole program ends for every outcome of the generator in which the self weights are not zero. Every single opinion converges, the limits are a fixed point of the averaging, and the largest distance to the limits never grows.",
"all networks (also disconnected ones), weights, initial opinions, tolerances, numbers of iterations", "termination and a bound on the number of iterations for every network and every start, and a limit over infinitely many iterations", ["src/models/DeGroot.cpp:iteration","src/models/DeGroot.cpp:finished","src/models/DeGroot.cpp:DeGrootModel","include/simulation.hpp:run"])

p("C94","How fast the scalar Deffuant model reaches consensus",
"Scalar Deffuant model with fair independent draws, 0 <= mu <= 1, at least two agents, and initial opinions in an interval shorter than homophily_threshold (so that everybody listens to everybody). Without network the expected sum of squared distances of the opinions from their mean after t iterations is exactly (1 - 4*mu*(1-mu)/(n-1))^(t*n) times the initial one, and the probability that then some agent is at a distance of d or more from the mean of the initial opinions is at most that number divided by d^2. On a network (use_network) where any two agents are connected through agents that can meet and nobody has more than D neighbours the same holds with the factor (1 - 2*mu*(1-mu)/(n^2*(n-1)^2*D))^(t*n) and 'at most'. From the constructor and initialize_agents with a threshold of 1 or more the initial value is (n^2-1)/(12*n), and D = 4 on the square lattice.",
"all numbers of agents, initial opinions, thresholds, mu, numbers of iterations, networks; expectation over all outcomes of the generator", "an expected value and a probability over all outcomes of the generator after any number of iterations", ["include/models/DeffuantModel.hpp:iteration", "include/models/DeffuantModel.hpp:select_interacting_agent_pair", "src/models/DeffuantModel.cpp:update_rule", "src/models/DeffuantModel.cpp:initialize_agents"])

p("C95","The law of the generated networks",
"If the integers and real numbers drawn by the generator are independent and uniform, generate_n_connections(n, k) with k < n produces a random network in which the rows of different agents are independent, the neighbours of an agent are equally likely to be any k of the other agents, and the weights of a row are independent of who the neighbours are and distributed like independent uniform numbers divided by their sum (exchangeable, each with expected value one over the length of the row); later draws are independent of the network. Consequently an agent listens to any given other agent with probability k/(n-1), and the number of agents that listen to a given agent is binomially distributed with n-1 trials of probability k/(n-1). The complete network with random weights has independent rows with the same kind of weights. A program run without a network file uses this generator with self interaction.",
"all numbers of agents n and connections k < n, with or without self interaction, all events about the sets of neighbours and (measurable) events about the weights of all rows, all generators with independent uniform draws", "A distribution is not visible in any single generated network; a statistical test on samples can only reject gross errors and covers a few sizes, and independence of all rows is an exponentially large set of equations.", ["include/network_generation.hpp: generate_n_connections, generate_fully_connected", "include/util/math.hpp: draw_unique_k_from_n", "include/simulation.hpp: create_network"])

p("C96","Which value wins in the binary-vector Deffuant model: conserved expectations and winning probabilities",
"Follow one position of the opinion vectors in the binary-vector Deffuant model, with independent uniform draws. (expected) If mu is 0, with or without use_network, or if the network is balanced (everybody meets everybody else as often as first as second agent of the pair - in particular the square lattice the constructor builds - whatever mu is), the expected number of agents holding a given value at that position is the same after any number of iterations, for every threshold. (share) If moreover the threshold exceeds the dimension and the agents are connected, a value wins - all agents hold it from some iteration on - with probability exactly its initial share among the agents. (order) Without network, for every 0 <= mu <= 1 and a threshold above the dimension, the probability that a value wins is the sum over its initial holders of weights that depend only on mu, the number n of agents and the index i of the holder, w_i = lead(i+1) - lead(i) with lead(i) = (1+mu) i / ((1+mu) i + (1-mu)(n-i)): equal to 1/n for mu = 0, strictly decreasing in the index for 0 < mu < 1, everything for agent 0 if mu = 1. So the result of a run depends on the numbering of the agents in a way that is computed exactly: a value held exactly by the m lowest-numbered agents wins with probability (1+mu) m / ((1+mu) m + (1-mu)(n-m)).",
"every number of agents (at least 2), dimension, position, value, initial vectors, threshold, mu and network as stated, every number of iterations, over the law of the generator's draws", "a probability of an event in the infinite future, over all sequences of random draws and for every size of the population; simulation can only estimate it", ["src/models/DeffuantModelVector.cpp: update_rule", "include/models/DeffuantModel.hpp: iteration, select_interacting_agent_pair", "include/network_generation.hpp: generate_square_lattice"])

p("C97","The binary-vector Deffuant model started at random ends in every vector with the same probability",
"Initialising a DeffuantVector model gives every agent an independent vector of fair coin flips: each list of binary vectors has probability 2^(-dim) per agent, whatever the agents had before, and the random numbers used afterwards are independent of it. After any number of iterations of the initialised model, with any network, threshold and mu, exchanging 0 and 1 at any set of positions in all vectors gives an outcome with the same probability. If the threshold exceeds the dimension (and all agents are connected, as they are without network and on the lattice of the constructor), all agents end up with one common vector, and each of the 2^dim binary vectors is that vector with probability exactly 2^(-dim), whatever mu is.",
"all numbers of agents and dimensions, all networks, thresholds and mu, all numbers of iterations, all sets of exchanged positions, all final vectors; probability over all sequences of random numbers", "a statement about the exact probabilities of infinitely many random histories", ["src/models/DeffuantModelVector.cpp: initialize_agents, update_rule", "include/models/DeffuantModel.hpp: constructor, select_interacting_agent_pair, iteration"])

p("C98","A DeGroot program with a positive tolerance ends with probability one, and the chance that it needs long is bounded",
"Take an accepted DeGroot configuration with n agents, k < n connections per agent, a positive convergence tolerance tol and non-zero output intervals, with or without an iteration limit, and start the program without network and agent files. If the numbers of the generator are independent and uniform, the program ends with probability one, although it may have no iteration limit and the random network need not be connected; the probability that it has not ended normally within m + 1 iterations is at most n (k + 1) / (1 + 4 (m + 1) tol^2), for every m.",
"every accepted configuration, every n, k < n, tolerance and m, every environment (file system, TOML parser, text conversion) and every probability space for the generator", "termination of the whole program is a statement about infinitely many possible runs and about the law of the random weights; a test samples finitely many seeds and has to give up after a finite time", ["src/main.cpp", "include/simulation.hpp: Simulation::run", "include/network_generation.hpp: generate_n_connections", "src/models/DeGroot.cpp: DeGrootModel::iteration, finished"])

p("C99","The number of opinions that survive in the binary-vector Deffuant model is bounded by the dimension and the threshold alone",
"In the binary-vector Deffuant model with opinions of length d (initial entries 0 or 1), run with a fair generator, the opinions almost surely stop changing; from then on the agents of any set in which every two can meet (all agents, without network) have together at most 2^(d + 1 - ceil(threshold)) different opinions, and if 2 threshold > d at most 2 threshold / (2 threshold - d), whatever the number of agents, mu and the initial opinions; in particular a threshold above d leaves a single opinion.",
"every number of agents, dimension, threshold, mu and initial assignment of binary vectors, every set of pairwise connected agents, almost every sequence of random numbers", "the end state is reached after an unbounded random time and the bound is over all initial states and generator outcomes", ["src/models/DeffuantModelVector.cpp: update_rule, initialize_agents", "include/util/math.hpp: hamming_distance", "include/models/DeffuantModel.hpp: iteration"])

p("C100","Polarisation never grows in the scalar Deffuant model, and the opinions move only a bounded amount",
"For 0 <= mu <= 1, whatever is drawn and with or without network: after any number of iterations the sum over the agents of any convex function of the opinion (variance, mean absolute deviation from any value, number-weighted excess over a level, ...) is at most its initial value; so is the sum over all pairs of agents of any convex function of the difference of their opinions; the sum of the q largest opinions never increases and the sum of the q smallest never decreases, for every q. All movements together are bounded: (1 - mu) times the sum over all iterations and agents of the squared change of opinion is at most mu n times the sum of (x_i(0) - c)^2, for every c; so the number of iterations in which some opinion changes by eta or more is at most mu n^2 / (4 (1 - mu) eta^2) when the run starts from the initial opinions i/n, however long it is.",
"every number of agents, network, threshold, 0 <= mu <= 1, every state, number of iterations and sequence of random draws, every convex function", "all schedules, all convex functions and runs of every length", ["include/models/DeffuantModel.hpp: iteration, update_rule", "src/models/DeffuantModel.cpp: update_rule, initialize_agents"])

p("C101","Without homophily opinions do not influence who meets whom, and under weak interaction the initial opinions are forgotten",
"In the activity-driven and the inertial model, if homophily (and every bot_homophily) is 0, then two runs with the same activities, the same m, reciprocity, number and contacts of bots, the same mean-field setting and the same seed build exactly the same network in every iteration and consume the same random numbers, whatever the opinions, velocities, reluctances, K, alpha, dt, friction and bot opinions are in the two runs; even the activity-driven and the inertial model build the same networks. For the program: two agent files that agree in the activities lead to the same network files. Moreover, if the interaction is weak (|K alpha| times the largest possible total weight at most L times each reluctance, L < 1 and dt small), then in two activity-driven runs that differ only in the opinions, the opinions differ after k iterations by at most rho^k times their initial distance with a fixed rho < 1: the initial opinions are forgotten.",
"all agents, all numbers of agents, all settings with homophily 0, all random number generators, all numbers of iterations; network part: every arithmetic with x^(-0)=1, including IEEE double; forgetting: exact arithmetic, every tanh that is 1-Lipschitz, bots allowed", "compares two infinite families of runs, for every initial state and every random sequence; a test compares two particular runs", ["include/models/ActivityDrivenModel.hpp: homophily_weight, update_network_probabilistic, update_network_mean, calculate_slopes", "src/models/ActivityDrivenModel.cpp: iteration", "src/models/InertialModel.cpp: iteration", "include/simulation.hpp: run"])

p("C102","The mean-field mode: weights, bounded opinions, stability, consensus and forgetting",
"In mean_weights mode, with reciprocity in [0,1], activities at most 1 and at most c contacts per agent or bot (m, bot_m <= c): after every iteration each weight is at most c^2 in absolute value, and for c = 1 it lies in [0,1]; the settings and states meant are those that the constructor builds from accepted settings. For 0 <= dt <= 1 all opinions stay within max(initial opinions, bot opinions, |K| n c^2 / m_i); for dt^3 - 4 dt^2 + 12 dt < 24 they stay bounded and the initial opinion of an agent is forgotten like q^k; if |K alpha| n c^2 <= L m_i with L (2+dt) <= 2-dt all opinions tend to 0 without bots; for c = 1, K, alpha >= 0, dt <= 2/3 opinions on one side of 0 stay there. Without homophily the network is the same in every iteration, and under the same weak interaction two runs that differ in the initial opinions approach each other like rho^k, bots included. The inertial model with 0 < dt < 2 and positive friction has bounded opinions and velocities.",
"all numbers of agents, all settings in the stated ranges, all initial opinions, all numbers of iterations; exact arithmetic, any positive power function and any tanh with the stated bounds (the real one for the limits)", "statements about all iterations, all initial states and all settings", ["include/models/ActivityDrivenModel.hpp: update_network_mean, homophily_weight, constructor", "src/models/ActivityDrivenModel.cpp: iteration", "src/models/InertialModel.cpp: iteration"])

p("C103","Weak interaction in the inertial model: everything comes to rest, and initial states are forgotten",
"For every time step 0 < dt < 2 and every positive friction there are kappa > 0, C and q < 1 such that for any number of agents without bots, if |K alpha| n <= kappa m_i for every reluctance m_i (n c^2 instead of n in mean_weights mode with at most c contacts), after k iterations every opinion and every velocity is at most C q^k times the largest |opinion| + |velocity| at the start, so that opinions and velocities tend to 0 however the contacts turn out. Without homophily, two runs with the same random numbers that start from different opinions and velocities approach each other in opinions and velocities like C q^k.",
"all dt in (0,2), all positive frictions, all numbers of agents, networks, random tapes, initial opinions and velocities, both network modes, all numbers of iterations; exact arithmetic, any tanh with Lipschitz constant 1", "a statement about all iterations and an infinity of initial states, with constants that do not depend on the number of agents", ["src/models/InertialModel.cpp: iteration, calc_position, calc_velocity", "include/models/ActivityDrivenModel.hpp: update_network, homophily_weight"])

p("C104","The inertial model never produces NaN or infinities in double precision",
"With IEEE double arithmetic (overflow, infinities, NaN), any rounding to nearest and any tanh with finite values in [-1,1]: over any number of iterations of the probabilistic inertial model with friction f every opinion and every velocity is a finite number of size at most 500 (1+f)^2/f M, where M >= 1 is any number that bounds the initial opinions and velocities, the bot opinions and 3/2 |K| n / m_i. Also for the whole program from any accepted configuration without reluctances (agents start at rest).",
"all roundings to nearest, all numbers of agents up to 2^28, all networks, random tapes, frictions in [2^-8,2^8], time steps in [2^-15,1], M up to 2^940, all numbers of iterations", "rounding errors and velocities accumulate over an unbounded number of iterations; one overflow anywhere poisons everything", ["src/models/InertialModel.cpp: iteration, calc_position, calc_velocity", "include/models/ActivityDrivenModel.hpp: get_euler_slopes, update_network"])

p("C105","Units of opinions and reluctances in the activity-driven and inertial models",
"Only the ratio of K to the reluctances matters: multiplying K and all reluctances by the same non-zero number changes no opinion, velocity, contact or weight in any iteration. Without homophily the unit of opinions is immaterial too: if all opinions, bot opinions and velocities are multiplied by u, K by u and alpha is divided by u, then after any number of iterations the network is the same and all opinions and velocities are multiplied by u. With homophily the law of the random network of an iteration does not change when all opinions are multiplied by u, as long as no two opinions are closer than the cut-off 1e-10 in either unit.",
"all non-zero factors, all states, settings, bots, random tapes, both network modes, all numbers of iterations; exact arithmetic", "a relation between pairs of runs, for all runs", ["include/models/ActivityDrivenModel.hpp: get_euler_slopes, homophily_weight, update_network", "src/models/ActivityDrivenModel.cpp: iteration", "src/models/InertialModel.cpp: iteration, calc_position, calc_velocity"])

p("C106","The radicalisation threshold in mean-field mode",
"In mean-field mode (mean_weights, no bots) a population whose agents start with one common opinion and one common reluctance rho keeps one common opinion for ever, whatever the homophily. Let kappa be K / rho times the sum of the weights with which an agent listens to the others. If kappa * alpha <= 1 the common opinion tends to 0. If kappa * alpha > 1, the equation w = kappa tanh( alpha w ) has exactly one positive solution w, and the common opinion tends to w if it is initially positive, however small, to -w if it is negative, and stays 0 if it is 0. With one contact per agent the threshold is K * alpha * ( 1 + reciprocity * ( n - 2 ) / ( n - 1 ) ) = rho: the opinions tend to 0 if and only if the left-hand side is at most rho.",
"all numbers of agents, initial opinions, activities up to 1, numbers of contacts, homophilies, reciprocities in [0,1], all time steps dt in (0,1], infinite runs; real arithmetic with the real tanh", "a limit of an infinite run and a sharp threshold over a continuum of parameters", ["include/models/ActivityDrivenModel.hpp: update_network_mean, get_euler_slopes", "src/models/ActivityDrivenModel.cpp: iteration"])

p("C107","Strong interaction keeps one-sided populations away from neutrality in mean-field mode",
"Mean-field mode, one contact per agent, K, alpha >= 0, dt <= 2/3, opinions, reluctances, activities and homophily arbitrary. If K * alpha * reciprocity * lag(dt) exceeds every reluctance, where lag(dt) = 1 - dt^3 / ( 2 ( 1 - dt ) ), a population whose opinions and bot opinions are all on one side of 0 stays a fixed positive distance away from 0 for ever. Without homophily it is enough that K * alpha * ( 1 + reciprocity * ( n - 2 ) / ( n - 1 ) ) * lag(dt) exceeds every reluctance, which up to lag(dt) is the threshold of C106; and if |K alpha| times that bracket is at most L times every reluctance with L <= ( 2 - dt ) / ( 2 + dt ), without bots all opinions decay to 0 exponentially, from any side.",
"all numbers of agents and iterations, all positive reluctances, opinions, bots, homophilies, activities up to 1; exact arithmetic", "a lower bound for all times in infinitely many runs, uniform in the parameters", ["include/models/ActivityDrivenModel.hpp: update_network_mean, get_euler_slopes", "src/models/ActivityDrivenModel.cpp: iteration"])

p("C108","The probability that one agent listens to another, and what the mean-field weights are",
"Without mean_weights, after an iteration of the activity-driven or inertial model agent j listens to agent i with probability P_ij + (1 - P_ij) r P_ji, where r is the reciprocity cut off at 0 and 1 and P_ij is the activity of i (cut off at 0 and 1) times the probability that j is among m agents drawn one after the other without replacement with the weights max( |x_i - x_j|, 1e-10 )^(-homophily). The P_ij of an agent i add up to its activity times m. With mean_weights and one contact per agent (and activities at most 1, 0 <= r <= 1) the weight in the same place is at least this probability and equal to it if all agents are always active; with two contacts and all agents always active it is at most the probability.",
"all populations, opinions, activities, homophilies, reciprocities, numbers of contacts between 1 and n - 1, bots, pairs of agents; random numbers independent and uniform", "a probability, and a comparison of two modes for all opinions", ["include/models/ActivityDrivenModel.hpp: update_network_probabilistic, update_network_mean, homophily_weight", "include/util/math.hpp: reservoir_sampling_A_ExpJ", "src/models/ActivityDrivenModel.cpp: iteration", "src/models/InertialModel.cpp: iteration"])

p("C109","Opinions in mean-field mode in IEEE double precision: when they stay finite and when they become NaN",
"In IEEE double precision with overflow, infinities and NaN, in the activity-driven model with mean_weights = true: with at least two agents, a homophily for which |x_i - x_j|^(-h) neither overflows nor vanishes (for correctly rounded functions: any homophily between 0 and 26 with opinions below a million), activities and reciprocity at most 1 and at most c contacts per agent, all opinions of all iterations are finite and at most M in size and all weights are finite and at most c (c + 2), where M is any bound on the initial and bot opinions, on c (c + 2) and on 3/2 |K| n c (c + 2) / m_i. Outside of these bounds opinions are lost: if the weights of one agent all vanish (as for a model with a single agent, 0/0) every opinion but those of the bots is NaN from the first iteration on, and if one weight overflows (two agents that agree to 1e-10, homophily 32) the opinions of both agents are NaN from then on.",
"every rounding mode (ties either way), every tanh with values in [-1, 1], every integer power that keeps [-1, 1], every pow within the bounds, every parameters, state, agents and number of iterations within the bounds; for the NaN parts, every state of the mean-field mode with a vanishing or overflowing weight", "The bounds must hold for all states and numbers of iterations; NaN appears only for special states (one agent, agreement, opinions far apart), which no test visits.", ["include/models/ActivityDrivenModel.hpp: ActivityDrivenModelAbstract::update_network_mean, homophily_weight, get_euler_slopes", "src/models/ActivityDrivenModel.cpp: ActivityDrivenModel::iteration"])

p("C110","Layout of the written files: which column holds which number",
"Every file of agents is a comma-separated table (blanks in front of a cell do not count) whose head line names the columns and which has one row per agent, in the order of the agents: the index of the agent and then opinion (DeGroot, Deffuant); opinion, activity, reluctance (activity-driven); opinion, velocity, activity, reluctance (inertial); all binary opinions (vector Deffuant; one empty cell for an agent without opinions). The file of a network has the columns index, number of incoming neighbours, the neighbours and then the weights, again with one row per agent in order. The cells hold exactly the texts of the numbers; no line is missing, added, empty or broken, with or without a line break at the end.",
"every list of agents of each of the four types and every well-formed network with rows shorter than 2^64 - 1, every formatting of floating-point numbers whose texts contain no blank, comma or line break", "Any number of agents, opinions and neighbours; tests compare a few files, usually by reading them back with the same code, which does not notice swapped or misnamed columns.", ["include/agent_io.hpp: agents_to_file, agent_to_string_column_names", "include/agents/: agent_to_string, agent_to_string_column_names", "include/network_io.hpp: network_to_file"])

p("C111","The inertial model in mean-field mode in IEEE double precision: finite opinions and velocities, and when they become NaN",
"In IEEE double precision with overflow, infinities and NaN, in the inertial model with mean_weights = true: with at least two agents, friction f between 1/256 and 256, dt between 2^-15 and 1, a homophily for which |x_i - x_j|^(-h) neither overflows nor vanishes, activities and reciprocity at most 1 and at most c contacts per agent, all opinions and velocities of all iterations are finite and at most 500 (1 + f)^2 / f M in size and all weights are finite and at most c (c + 2), where M is any bound on the initial opinions and velocities, the bot opinions, c (c + 2) and 3/2 |K| n c (c + 2) / m_i. Outside of these bounds agents are lost: if the weights of one agent all vanish (as for a model with a single agent) opinion and velocity of every agent that is not a bot are NaN from the first iteration on, and if one weight overflows those of both agents are.",
"every rounding mode (ties either way), every tanh with values in [-1, 1], every integer power that keeps [-1, 1], every pow within the bounds, all parameters, states, agents and numbers of iterations within the bounds; for the NaN parts, every state of the mean-field mode with a vanishing or overflowing weight", "The bounds must hold for all states and numbers of iterations; NaN appears only for special states which no test contains.", ["src/models/InertialModel.cpp: InertialModel::iteration, calc_position, calc_velocity", "include/models/ActivityDrivenModel.hpp: update_network_mean, homophily_weight, get_euler_slopes"])

p("C112","Every file a program writes is complete",
"Whenever the program returns, each file that it has written - whatever the model, the random outcomes and the arithmetic, with or without files on the command line, and after whichever iteration - is complete: an opinions file is, as a table, the header with the columns of the model's agent type and one row for each of the n agents, numbered 0, 1, ..., n-1 in order; a network file is the header and one row for each of the n agents, numbered in order, with as many neighbours as it announces, as many weights, and neighbours that are agents. n is the same for all files of the program: the number of agents of the network it was started with.",
"every accepted configuration and every network and agents file that agree on the number of agents, every model, every lawful random generator, every arithmetic, every text format of numbers without blanks, commas and line breaks, every number of iterations", "The files of all runs with all models and all random outcomes cannot be inspected by tests.", ["include/simulation.hpp: run", "include/agent_io.hpp: agents_to_file", "include/network_io.hpp: network_to_file", "src/main.cpp: main"])

p("C113","Whole simulations converge to the differential equation",
"Halving the time step pays off for a whole activity-driven simulation, not only for one step: for every number of agents n and all bounds on |alpha|, on |K| n / m_i (or, in the general form, |K/m_i| times the sum of |w_ij|), on the initial opinions and on the simulated time T there are constants C and eps such that, for every random outcome and every run without bots with dt < eps and at most T/dt iterations, the opinions after k iterations differ by at most C dt^4 from the value at time k dt of the exact solution that starts at the initial opinions and follows, between k dt and (k+1) dt, dx_i/dt = -x_i + (K/m_i) sum_j w_ij tanh(alpha x_j) with the weights of the network of iteration k+1. With bots the same holds with C dt instead of C dt^4 (for all dt <= 1), the exact solution holding the opinions of the bots fixed. The exact solution exists and is unique.",
"every number of agents, every bound, every activity-driven configuration within the bounds, every random outcome and every network it leads to, every time step below eps and every number of iterations up to T/dt", "The order of convergence is a statement about infinitely many time steps and runs of unbounded length, uniformly in the random outcomes.", ["include/models/ActivityDrivenModel.hpp: ActivityDrivenModelAbstract::get_euler_slopes, K", "src/models/ActivityDrivenModel.cpp: ActivityDrivenModel::iteration"])

p("C114","Whole simulations with the inertial model converge to the differential equation",
"Halving the time step pays off for a whole simulation with the inertial model, for the opinions and for the velocities: for every number of agents n and all bounds on |alpha|, on the friction coefficient (which is at least 0), on |K| n / m_i (or, in the general form, |K/m_i| times the sum of |w_ij|), on the initial opinions and velocities and on the simulated time T there is a constant C such that, for every random outcome and every run without bots with dt <= 1 and at most T/dt iterations, the opinions and the velocities after k iterations differ by at most C dt^2 from position and velocity at time k dt of the exact solution that starts at the initial opinions and velocities and follows, between k dt and (k+1) dt, x_i'' = -x_i + (K/m_i) sum_j w_ij tanh(alpha x_j) - friction x_i' with the weights of the network of iteration k+1. The exact solution exists (if (1 + friction) dt <= 1/2) and is unique.",
"every number of agents, every bound, every configuration of the inertial model within the bounds, every random outcome and every network it leads to, every time step up to 1 and every number of iterations up to T/dt", "The order of convergence is a statement about infinitely many time steps and runs of unbounded length, uniformly in the random outcomes.", ["src/models/InertialModel.cpp: InertialModel::iteration, calc_position, calc_velocity", "include/models/ActivityDrivenModel.hpp: ActivityDrivenModelAbstract::get_euler_slopes, K"])

p("C115","Who can influence whom, and how fast",
"Influence travels along the network and no faster than its steps. DeGroot: whatever the arithmetic, the opinion of an agent after k iterations depends only on the initial opinions of the agents at the end of chains of exactly k steps, each from an agent to one in its row; over an ordered field with positive weights it does depend on each of them (raising any of those opinions, and lowering none, raises it); and a group of agents that listens only to itself evolves as if there were nobody else, whatever the numbers of agents and the networks outside the group. Activity-driven model: the new opinion of an agent depends on opinions at most four steps away in the network of that iteration (one per Runge-Kutta stage), and on reluctances and rows at most three steps away; over a whole run this composes along the networks of the iterations. Inertial model: its new opinion depends on opinions at most one step away and on its own velocity, reluctance and row; its new velocity on opinions at most two steps away and velocities, reluctances and rows at most one step away. Without homophily, where the opinions do not affect who contacts whom, this composes over whole runs: with the same random numbers, an agent after k iterations depends only on the initial opinions (and velocities) upstream of it along the networks of the k iterations, at most four (inertial: two) steps in each. Deffuant model with use_network (scalar opinions): with the same random numbers, a group of agents without an edge to or from the others is not affected by what the others think, for any number of iterations. Nothing else, in particular nothing another agent outside that range does, can change the result.",
"every pair of runs that agree on the stated inputs, of the DeGroot, the activity-driven, the inertial and the scalar Deffuant model, every network, number of iterations and agent, whatever the opinions outside the range, the random outcomes, and the arithmetic, rounded or not", "Non-interference compares all pairs of runs that differ anywhere outside the range of influence, for unboundedly many iterations.", ["src/models/DeGroot.cpp: DeGrootModel::iteration", "include/models/ActivityDrivenModel.hpp: ActivityDrivenModelAbstract::get_euler_slopes", "src/models/ActivityDrivenModel.cpp: ActivityDrivenModel::iteration", "src/models/InertialModel.cpp: InertialModel::iteration, calc_position, calc_velocity", "include/models/DeffuantModel.hpp: DeffuantModelAbstract::iteration, select_interacting_agent_pair"])

out=os.path.join(os.path.dirname(os.path.dirname(os.path.abspath(__file__))),"properties.jsonl")
with open(out,"w") as f:
    for x in P: f.write(json.dumps(x)+"\n")
print(len(P))

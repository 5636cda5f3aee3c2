# Formal model of seldon-code/seldon in Lean 4 — design

## 1. Layout

* `lean/Verif/Model/*.lean` — the model: one file per group of C++ files, function by function, every
  definition citing file and lines in `/repo`.
* `lean/Verif/Spec/*.lean` — small independent specifications (edge multisets, reachability, RK4 step, ...).
* `lean/Verif/Lemmas/*.lean` — helper lemmas (no property statements).
* `lean/Verif/Props/*.lean` — the property theorems, each with a concrete `example` that meets its hypotheses.
* `properties.jsonl` (generated by `tools/props.py`), `MANIFEST.json`, `seeded/LOG.jsonl` (mutation log).

## 2. Modelling conventions

* **Outcomes.** `Res α = Except Fault α` with `Fault = ub | exn kind | fuel`.  Every `operator[]`, `.back()`,
  `.top()`, `pop_back`, `% 0` is an explicit checked read that yields `Fault.ub` when C++ has undefined
  behaviour; every `throw` is `Fault.exn`.  Recursive C++ functions take fuel, `Fault.fuel` = "did not terminate
  within the fuel"; it is proved that enough fuel exists and that the result does not depend on it.
* **Numbers.** Model functions over `double` are generic in a type `F` with only the notation classes
  (`Add F`, `Mul F`, `LT F`, ...; no laws).  *Structural* theorems (safety, bookkeeping, which agents change) are
  proved for arbitrary `F` with arbitrary operations, so they hold for IEEE doubles including NaN.  *Numeric*
  theorems are for exact arithmetic: an arbitrary linearly ordered field, or `ℝ` where tanh/pow/log matter.
  Rounding is modelled where stated: C72 and C73 instantiate the same model functions with the finite IEEE doubles
  (`Spec/Double.lean`: reals `m·2^e`, any round-to-nearest function), in C82 also with overflow, infinities and NaN (`Spec/Ieee.lean`); elsewhere numeric theorems ignore rounding.
* **size_t / int.** `Nat`/`Int` unless the property is about wrap-around (`n_edges` accumulator is `int`,
  `npos + 1 = 0`, `size() - 1` on an empty span, negative `int` to `size_t`), where wrap-around is explicit.
* **Randomness.** `std::mt19937` + distributions = an abstract generator state `G` with functions giving the next
  draw; laws (`0 ≤ u < 1`, `a ≤ i ≤ b`) are hypotheses.  A theorem "for every generator" therefore covers every
  sequence of random outcomes.
* **Text.** Strings are `List Char`; `find`/`substr`/`stoi` are modelled concretely with C++ semantics (including
  `npos`); `fmt` of doubles and `stod` are a parameter with an explicit round-trip law (a concrete instance shows
  the law satisfiable).
* **Library functions.** `std::sample` (forward iterator case: Knuth selection sampling), `std::sort` (any sorted
  permutation), `std::priority_queue` (any minimal element is on top), `std::set` (finite set).

## 3. Plan per property

| id | model | proof |
|----|-------|-------|
| C01 | `Model/Network` ops in `Res`, op datatype | invariant by induction over op list |
| C02–C04 | toggle/transpose/switch loops with checked accesses | refinement to edge multiset (`Spec/Graph`), induction over rows |
| C05 | merge loop over *any* sorted index permutation | induction over sorted list; sum by key |
| C06 | `int` accumulator with wrap | equality below 2^31, counterexample above |
| C07 | setters | case analysis + frame |
| C08–C10 | fuelled DFS with explicit arrays and stack | invariants of the DFS; C10 is false of the code: counterexample + `_partial` (edges inside components go both ways) |
| C11–C14 | generators as loops | induction / modular arithmetic |
| C15–C20 | char-level writer and reader | induction over rows; C18, C19, C20 false as documented: counterexample + partial |
| C21–C24 | selection sampling; reservoir with abstract queue | invariants over the loop |
| C25–C28 | real-valued functions | Mathlib analysis; pdf/mean false: counterexamples |
| C29–C32 | DeGroot | fold = weighted sum; hull invariant; contraction of the range |
| C33–C41 | Deffuant (scalar, vector) | invariants over all schedules |
| C42–C50 | activity-driven/inertial | invariants, convex-combination bound for RK4, relational induction |
| C51, C52, C60 | run loop with output trace | induction over iterations |
| C53–C56 | config/validation/factory | decision logic |
| C57–C59, C54 | composition | composition of the above |
| C62 | selection sampling on all answer tapes | counting by recursion over the population |
| C63 | DeGroot trajectories over ℝ | contraction of the range (as C32), stationary average invariant |
| C64 | Deffuant trajectories over ℝ, drawn pairs as a relation | Lyapunov functions `Σ|x-c|` and `Σx²`, no-upcrossing argument |
| C65 | `main` with the files of the environment, any arithmetic | `NoUB` preserved through readers, constructors, steps, output (Props/Files) |
| C66 | writers then readers then `main` | round trip lemmas of C14–C17 + determinism of the DeGroot step |
| C67 | `Reservoir.sample` over `XR`, law of the generator state `Spec.DrawsUniform` | keys u^(1/w): law of their order by integration; the exponential jumps by induction on the remaining items |
| C68 | `Dist.erfinv` over `XR`, exact `erf` | integer-polynomial positivity (kernel computation) for the derivative of the transported error on each branch; Mills-ratio bound in the tail |
| C69 | `Activity.create`, law of the generator state `Spec.FreshDraws` | draws as measure-preserving maps; induction on the agents |
| C70 | `NetworkIO.fromFile`, `AgentIO.fromFile`, `Text.stoi` | index arithmetic of the loops = splitting at separators (induction on the pieces) |
| C71 | `Activity.updateProbabilistic`, `Reservoir.sample` | C67 with a set of final generator states, composed backwards over the agents to lower bounds for every outcome; the bounds add up to 1, so they are exact; pairs by induction |
| C72 | `Deffuant` instantiated with doubles | `Spec/Double`: doubles as reals `m·2^e`, any round-to-nearest function; error bounds; invariants over the schedule of interactions; the whole program by the arithmetic-independent theorems of C57 |
| C73 | `NetworkGen.nConnections`, `DeGroot` instantiated with doubles, next to the same functions over ℝ with the same draws | forward error analysis of left-to-right sums and weighted sums; the exact dynamics is non-expansive |
| C74 | `Deffuant.selectPair`, `Draw.select`, law of the generator state `Spec.FairIntegers` | induction over the population; second Borel–Cantelli lemma by hand; C64 |
| C75 | `Activity.iteration` | contraction of one Runge–Kutta step in the maximum norm; induction over the iterations; limit |
| C76 | `Activity.iteration` | one Runge–Kutta step keeps the sign of one-sided opinions (monotone, sublinear tanh); induction |
| C77 | `Activity.iteration` at variable `dt`, exact solutions `Spec.SolvesNear` (exist by Picard–Lindelöf) | Taylor expansions with remainders of both sides (`Lemmas/Expansion`), coefficients compared |
| C78 | `Inertial.iteration` at variable `dt`, `Spec.SolvesNear2` | the same, second order |
| C79 | `Effects.mainWith`, `Effects.main`: the process as events on a disk; `Spec.AfterKill`: it is killed anywhere | simulation: the process does what `Program.main` computes; induction over the run loop; file names are distinct |
| C80 | `Console.settings`, `Effects.mainWith` | trace of the process, part by part; injectivity of the printed lines |
| C81 | `Effects.mainWith` | simulation relation: the machine commutes with erasing unused settings (`Machine.Copies`), then C80's injectivity |
| C82 | `Activity.iteration` and `Program.main` instantiated with IEEE doubles (`Spec/Ieee`: overflow, infinities, NaN) | rounding error analysis of slopes, stages and the Runge-Kutta combination against the margin by which an exact step moves inwards; invariant over iterations |
| C83 | `Inertial.iteration` over the reals | C50 gives one Verlet step per agent with bounded forcing; a discrete energy decreases by `2 f h v²`, hence strictly over two steps; triangle inequality in the energy norm (a complex number); growth for `dt ≥ 2` from the second-order recurrence; for any friction the energy is then a form that is negative at rest and never increases |
| C84 | `Activity.iteration` in an ordered field, `Config.validateActivity` | C47 gives `x' = q x + influence`; geometric recurrence from above (`q < 1`) and below (`q > 1`) |
| C85 | `Deffuant.create`, `initializeVectors`, `iteration` with `updateVector` and fair draws | each interaction returns its result independently of the generator it leaves (`Fresh`); random walk on finitely many states, maximum principle for the probability never to rest (`walk_absorbed`); from every state a finite sequence of copyings leads to rest (`settle_symm`, `settle_below`) |
| C86 | `DeGroot.iteration`, `Deffuant.iteration` with `updateRule` and fair draws | DeGroot: rows of the renamed network are the renamed rows; Deffuant: a bijection of the states that leaves the law of each step as it is leaves the law of the walk as it is (`walk_invariant`); the chance of a pair is symmetrised over its two orders (`relabel_law`) |
| C87 | `Deffuant.iteration` with `updateVector` and fair draws | same walk argument where the law of a meeting is symmetric; the probability that the first agent of a pair gives in is computed entry by entry (`meetV_entry`, `yields_law`); refutation for two agents |
| C88 | `Activity.iteration`, `Inertial.iteration` with independent uniform draws | one iteration as a stepper (network from C43, agents moved by the closed form of the integration step); the law of C71 is invariant under renumbering of contacts and reciprocations (`netChance_relabel`), the step is equivariant (`rkAgents_relabel`, `verletAgents_relabel`); induction over the iterations with null-measurable events |
| C89 | `DeGroot.iteration`, `create`, the run of `Simulation` | with self-loops the set of agents linked to the root in exactly `t` steps grows until it is everybody, so `n - 1` steps suffice; the pull towards the root (C63) then gives a contraction by `1 - δ^(n-1)`, iterated; C31 turns the bound on the opinions into a bound on the number of iterations |
| C90 | `DeGroot.iteration` | C29 for both runs, induction over the iterations with the box of the differences |
| C91 | `Deffuant.iteration`, `create`, `initializeAgents` | C74 (almost sure convergence to separated limits) and C64 (hull, sum); points of an interval that are pairwise `d` apart number at most `length / d + 1` (induction over the largest point) |
| C92 | `Deffuant.iteration` with both update rules | rescaling (renaming) the state commutes with drawing a pair, with the update rule and hence with the loop (`loop_map`) |
| C93 | `DeGroot.iteration/finished`, `main` | the averaging is δ·identity + (1-δ)·averaging; the difference of consecutive powers is a difference of binomial weights, at most the central one, of order 1/√k (`Lemmas/Lazy`); convergence: a convergent subsequence's limit is a fixed point by the vanishing steps, distances to a fixed point never grow |
| C94 | `Deffuant.iteration/selectPair/updateRule/create/initializeAgents`, `Spec.deviation` | expected values of programs that draw (`Lemmas/Expect`): one interaction multiplies the expected deviation by the factor (sum over all pairs = 2n·deviation; on a network: neighbours differ by at most √(nDQ), a path has fewer than n edges), induction over the steps; Markov's inequality |
| C95 | `nConnections`, `fullyConnectedRandom` over ℝ with a random generator (`FairIntegers`, `Draws r.unit uniform`); specifications `setShare`, `sharesLaw`, `listeners` | each row is one draw of a set (C62_law) and a measure preserving draw of k numbers; induction over the rows; exchangeability by permuting the product measure; counting of sets containing an agent |
| C96 | The binary-vector Deffuant iteration as a random walk on the agents' vectors (C85, C87) | The expectation of a weighted count of the holders of a value is computed for one meeting (expect_meetV), summed over the law of the pair (expect_stepV), shown to vanish for equal weights by exchanging the two agents and for the weights lead(i+1) - lead(i) by a linear recursion (drift_balanced, drift_order), carried through all iterations (final_score) and to the limit by dominated convergence (fixation) |
| C97 | initializeVectors, updateVector, iteration and create of the binary-vector Deffuant model over a generator with a probability measure on its states | law of the draws by induction on the positions and agents; renaming the answers commutes with every run (C92) and preserves the law of the start, so it preserves the law at every time; dominated convergence carries the equality of the probabilities to the almost sure consensus (C85), and exactly one of the 2^dim events happens |
| C98 | `main`, the generated network and its law (C95), DeGroot runs | the self weights are all above ε with probability ≥ 1 - n (k+1) ε (Bernoulli); on this event C93 bounds the number of iterations; ε = 1/(1 + 4 (m+1) tol²) |
| C99 | vector Deffuant trajectories, `CanMeet`, number of different opinions | C85 plus the Singleton and Plotkin bounds for binary codes |
| C100 | scalar Deffuant iterations as sequences of meetings | a meeting replaces two opinions by two convex combinations with the same sum; induction over the schedule; Cauchy-Schwarz for the movements |
| C101 | the network updates, for two states of the same or different models | erasing opinions and reluctances commutes with every step of both network updates when all homophily weights are x^(-0)=1 (Lemmas/Blind); then by induction over the iterations. Forgetting: the difference of two Runge-Kutta steps satisfies the linear bound of C75. Program: the run loops are compared file by file |
| C102 | update_network_mean as in C49 | bounds of the code's weights from C49_bounds_partial (0 <= P <= c), then the step theorems of C46, C75, C76, C84, C83 and C101 with the total weight n c^2 |
| C103 | Inertial.iteration in both modes | a Verlet step is a contraction in the norm of Lemmas/Stability; coupling adds at most a constant times kappa per step (Lemmas/Coupled.lean), then induction over the iterations; for two runs the difference of two Verlet steps is a Verlet step |
| C104 | Inertial.iteration over Ieee R | a quadratic form decreases under the exact Verlet step with the rate f h / (48 (1+f)^2) (Lemmas/Lyapunov); the coupling and the rounding errors of every operation (Lemmas/InertialIeee) are smaller than what the decrease leaves; induction over the iterations |
| C105 | Activity.iteration, Inertial.iteration in both modes | the scaled state is a map of the state that commutes with every part of an iteration (Lemmas/Rescale); for the law, weighted sampling without replacement does not depend on a common factor of the weights (with C71) |
| C106 | Activity.iteration with mean_weights | equal opinions make all contact probabilities equal, so the rate is the same for all agents and the step is a Runge-Kutta step of dx/dt = -x + kappa tanh( alpha x ); between 0 and the fixed point all stages of the step push towards the fixed point without passing it, so the iterates are monotone and bounded; strict concavity of tanh gives existence and uniqueness of the fixed point |
| C107 | Activity.iteration with mean_weights | the listening weights of an agent add up to at least the reciprocity (its own contacts are a probability distribution) and to exactly 1 + r ( n - 2 ) / ( n - 1 ) without homophily; all stages of a Runge-Kutta step stay above lag(dt) y if all opinions are above y; a y that fits exists by the strict concavity of tanh (C106) |
| C108 | Activity.iteration, Inertial.iteration in both modes | the probability of an entry is a sum over all outcomes of C71; summing out the reciprocations (a product over the one-way contacts) and all agents but i and j leaves P_ij + (1 - P_ij) r P_ji; drawing without replacement includes an agent at least as often as drawing with replacement (induction on the draws) |
| C109 | update_network_mean and the RK4 step over Spec.Ieee | closed form of the three loops with every addition in order (no field laws), bounds through the monotonicity of rounding (integers are doubles), then the contraction of C82 with weights; NaN by following the one bad weight |
| C110 | toFile of the four agent formats and of networks, with a specification of a text as a table | the written text is a join of columns; splitting at commas and dropping leading blanks gives the cells back |
| C111 | the Verlet step and update_network_mean over Spec.Ieee | the quadratic form of C104 with weights bounded by C109's closed form in place of ones; NaN by following the one bad weight |
| C112 | main from reading the configuration to the last file written | an invariant (well-formed network with n agents, settings unchanged) is carried along Simulation.run for all five models; every file written is rendered from a network with the invariant; C110 gives the table |
| C113 | the whole history of ActivityDrivenModel.iteration over the reals | Taylor expansion of the Runge-Kutta step and of the exact solution with remainders uniform in weights, opinions and solution (asymptotics along a filter on data x step), a priori bound on the solution, Lipschitz bound of the step, discrete Gronwall; Picard-Lindelof for existence |
| C114 | the whole history of InertialModel.iteration over the reals | residual of the exact solution in the two equations of the velocity Verlet step (C50), bounded by the mean value theorem with Lipschitz bounds of acceleration and jerk; a priori energy bound 1 + y^2 + v^2; stability of the implicit step; discrete Gronwall; Picard-Lindelof in phase space for existence |
| C115 | pairs of runs of DeGroot.iteration, Activity.iteration, Inertial.iteration and Deffuant.iteration, over any ordered arithmetic without laws | induction on the number of iterations, evaluation order kept; closed forms of the Runge-Kutta and the Verlet step, stage by stage |

No property in the list is outside what a model can express.  Fourteen properties are false of the code as it is; for
those the manifest says `partial`, the largest true part is proved under the suffix `_partial`, and the refutation is a
theorem as well (section 6).

## 4. What is modelled, file by file

| file in /repo | model | left out |
|---------------|-------|----------|
| include/network.hpp | `Model/Network` (all members), `clear`, `toggle`, `transpose`, `remove_double_counting`, iterator-free | move/copy cost, `WeightT` other than the generic `F` |
| include/connectivity.hpp | `Model/Tarjan` (whole class) | C++ stack depth (recursion limit) |
| include/network_generation.hpp | `Model/NetworkGen` (three generators), `Model/NetworkIO` (`generate_from_file`) | – |
| include/network_io.hpp | `Model/NetworkIO` (`network_to_file`, `network_to_dot_file`) | opening/closing of file streams: a file is its contents (`Model/Effects`: also a part of them, if the process is killed) |
| include/agent_io.hpp, include/agents/*.hpp, include/agent.hpp | `Model/AgentIO` | as above |
| include/agent_generation.hpp | nothing: it declares an empty namespace | – |
| include/util/math.hpp | `Model/Sampling` (sampling, Hamming distance), `Model/Distributions` (power law, truncated normal, bivariate normal, copula) | `std::mt19937`: abstract generator state |
| include/util/erfinv.hpp | `Model/Erfinv` (all four branches with their literal coefficients) | double rounding inside `erfinv` |
| include/util/misc.hpp | `Model/Text` (`parse_comma_separated_list`), `Model/Program` (file existence check) | byte-level reading of streams |
| include/model.hpp | `Model/Simulation` (`Counter`, `Machine`) | – |
| include/models/DeGroot.hpp, src/models/DeGroot.cpp | `Model/DeGroot` | – (the warning is in `Model/Effects`) |
| include/models/DeffuantModel.hpp, src/models/Deffuant*.cpp | `Model/Deffuant` (scalar and vector) | – |
| include/models/ActivityDrivenModel.hpp, src/models/ActivityDrivenModel.cpp | `Model/Activity` | – |
| include/models/InertialModel.hpp, src/models/InertialModel.cpp | `Model/Activity` (namespace `Inertial`) | – |
| include/config_parser.hpp, src/config_parser.cpp | `Model/Config` (model string, all settings, all validation), `Model/Console` (`print_settings`) | toml++ itself: a document is a finite map of typed nodes, conversions between node types are a parameter |
| include/model_factory.hpp, include/simulation.hpp | `Model/Program`, `Model/Simulation`, `Model/Effects` (order of effects, progress lines) | measured durations (a parameter) |
| src/main.cpp | `Model/Program.main` (result), `Model/Effects.main` (effects in order, exit code) | argparse (a parameter), operating system (`World`: which paths name the same file, what can be created and written) |

`tools/citations.py` checks mechanically that every definition under `lean/Verif/Model` carries a citation and that every
citation names an existing file and line range of /repo.

## 5. Statements

* A property theorem is named `Cnn_...` and lives in `Props/`; its hypotheses mention only model inputs and specification
  predicates (`Spec/`).  `MANIFEST.json` lists the theorems of each property.
* Beside the theorems, `example`s instantiate the hypotheses on concrete non-trivial inputs.
* `seeded/LOG.jsonl` records the wrong programs the theorems were tested against (harness in `seeded/harness`): for each
  mutant of the model the harness rebuilds *every* module that depends on it, also past the first failure, and records
  which property theorems no longer check.

## 6. Findings: where the code does not do what its documentation says

1. `strongly_connected_components` can split a strongly connected component (connectivity.hpp:42-105): `C10_split`,
   `C10_false_warning`.
2. `n_edges()` adds up in `int` and is wrong from 2^31 edges on: `C06_overflow`.
3. `draw_unique_k_from_n` with more wanted than available repeats an index: `C13_too_many`; with one agent, Deffuant
   lets agent 0 interact with itself (C37).
4. `reservoir_sampling_A_ExpJ` with `k = 0` leaves the previous contents of the buffer, so an agent with no contacts to
   make (a bot with `bot_m = 0`) contacts those of the previous agent: `C45_reuse`, `C45_not_exact`; `k > n` is undefined behaviour:
   `C22_edge_cases`.
5. `parse_comma_separated_list` passes inner entries together with trailing text: `C18_counterexample`.
6. An `ActivityAgent` line with one column sets activity to the opinion: `C19_activity_single_column`; an empty opinion
   vector cannot be read back: `C16_vector_empty`.
7. `network_to_dot_file` is undefined for an agent without neighbours: `C20_no_neighbours`.
8. `power_law_distribution::pdf` and `mean` do not belong to the distribution drawn from: `C25_pdf_false`, `C25_mean_false`.
9. Mean-field weights: `std::max( 1.0, activity )` ignores activities below one and probabilities can exceed one, making
   weights negative: `C49_activity_ignored`, `C49_two_agents`.
10. DeGroot: the default tolerance is 0 and not the documented 1e-6, with which the run never converges:
    `C55_convergence_default`; periodic networks oscillate; `initialize_iterations` does not forget the last difference,
    so a second `run` of a converged model does nothing: `C60_degroot_stuck`.
11. `bot_activity` defaults to 1 and not to the documented 0: `C55_bot_activity_default`; the TOML key `network.file` is
    never read.
12. Accepted settings with undefined behaviour: `n_output_agents = 0`/`n_output_network = 0` (`C52_zero_interval`,
    `C54_zero_interval`), `n_bots > n_agents` (`C54_too_many_bots`), `m` or `bot_m` larger than the number of agents or negative
    (`C54_too_many_contacts`).
13. In the vector Deffuant model agents within the threshold become equal for every `mu`, and outside it `mu` acts the
    wrong way round: `C41_false`, `C41_inverted`.
14. An agents file with more agents than the network is undefined behaviour: `C65_too_many_agents`.  It also overwrites
    the bots until the end of the first iteration; the velocities of inertial bots keep drifting.
15. The readers stop at a blank line and accept silently lines with missing weights and negative indices (C70);
    `generate_from_file` always declares the lists to be incoming.
16. `dt > 1` is not rejected; boundedness of the opinions (C46) is proved for `0 ≤ dt ≤ 1`.
17. Deffuant accepts `mu = 1`, with which opinions may be exchanged forever: `C64_mu_one`; in double arithmetic rounding
    may then leave the initial interval: `C72_mu_one`.
18. With the rational approximation of `erfinv`, truncated normal draws may lie below `eps` by a relative 1e-9:
    `C68_draws`.
19. A row of generated weights that are all drawn 0 is normalised by 0/0 = NaN (excluded in C12/C73 by the hypothesis
    that a draw is positive).
20. The comment at the opinion update of `ActivityDrivenModel.cpp` promises `+O(h^5)`. This holds without bots (C77);
    with bots the step is only first-order accurate with respect to the dynamics with fixed bots, because the bots
    take part in the stages of the step and are reset only after it: `C77_bots_sharp`, `C77_bots_example`.
21. Output files that cannot be opened are lost silently: the run goes on, prints the same and exits with 0
    (`C79_silent`).  The output directory is created before the configuration is read, so also for a rejected one.
    Files are not written atomically: after a kill the last one may be cut off (`C79_kill`; everything else is complete).
22. The settings check accepts every positive `dt`, but the integrators are only stable up to `dt = 2.785…` (activity-driven,
    `C84_bounded`, `C84_unstable`, `C84_accepted`) and `dt = 2` (inertial, `C83_bounded`, `C83_unstable`); beyond, opinions grow
    exponentially.
23. The binary-vector Deffuant model without network favours agents with low numbers: the pair is sorted, and the first agent
    of the pair keeps each disputed entry with probability (1 + mu)/2 (`C87_bias`, `C87_lower_first`, `C87_refuted`); with
    `mu >= 1` agent 0 never changes (`C87_first`).

## 7. Trusted base

* Lean 4.33.0's kernel, and Mathlib as installed (its theorems are checked by the same kernel).
* Axioms: only `propext`, `Classical.choice`, `Quot.sound`; the list per theorem is `AXIOMS.md` (generated by
  `tools/axioms.py`).  No axiom is added, `native_decide`/`bv_decide` are not used.
* The reading of /repo as text: that `Model/` says what the C++ does.  The code was not compiled or run.
* The semantics given to library functions (section 2): `std::sample` as selection sampling, `std::priority_queue` as
  "some minimal element is on top" (with a NaN key the C++ comparator is not a strict weak order, which the structural
  theorems cover by allowing any position), `std::set` iteration in increasing order, `std::stoi`/`find`/`substr` concrete, `stod`/`fmt`
  of doubles by a round-trip law, toml++ conversions by `Config.Convert.Lawful`.
* In C72/C73: finite doubles with the unbounded-precision-then-round semantics of IEEE 754 and no fused multiply-add; no overflow is a
  conclusion, not an assumption, where the theorem says that the result is finite.
* Laws of random draws (C62, C67, C69, C71) are hypotheses about the generator: independent uniform draws.

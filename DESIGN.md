# Formal model of BNS-JT in Lean 4

## Conventions of the model

* `K` is the type of variable / component names (strings in the code). Only equality and, for
  sorting, a linear order on names are used, so the model is generic in `K`.
* Probabilities and values are exact rationals (`ℚ`). Floating-point rounding is modelled for `run`
  (`Model/BrcRound.lean`, C102: the operations are a parameter, double precision without overflow is
  an instance) and for inference with CPMs (`Model/CpmRound.lean`, `Model/ElimCondRound.lean`, `Model/CondVERound.lean`, C103, C106-C108: samples are not rounded);
  everywhere else arithmetic is exact.
* numpy event matrices are `List (List ℕ)`, probability vectors `List ℚ`.
* Python sets of basic states are `Finset ℕ`.
* Exceptions are values: `Except Err α`.
* `sorted(.., reverse=True)` / `sorted` are stable; modelled by Mathlib's `List.insertionSort`
  (a stable sort; every stable sort computes the same function).
* `while` loops take an explicit fuel argument that is *proved* sufficient (running out of fuel is
  the value `Err.fuel`, and a theorem shows it never happens), or recurse structurally.
* Mutation is modelled by returning the new value.
* Random numbers are arguments: a theorem for all of them is a theorem for every seed.  Distributions of
  results are stated with exact measures of sets of uniform numbers or as exact expectations.
* Library functions with a non-trivial specification are parameters with a stated contract (below).
  For each contract there is a proof that some function meets it, so that no theorem is vacuous.

## Layout

* `lean/Verif/Spec/…`  — small specification vocabulary, independent of the model
* `lean/Verif/Model/…` — the model, function by function, citing file and lines
* `lean/Verif/Proofs/…` — helper lemmas
* `lean/Verif/Props/…` — the property theorems, with non-vacuity examples beside them

## Properties and methods

| ids | functions | method |
|---|---|---|
| C01–C05 | `Variable` tables, `get_composite_state` | induction on the list fed to `combinations`; the k-subset blocks partition the table |
| C06–C14, C54, C55, C59 | `Cpm` operations, queries, setters | density `dens M x = Σ {p_i : row i matches x}`; loop invariants on rows |
| C15, C57, C70 | `variable_elim`, `variable_elim_cond`, `cal_Msys_by_cond_VE` | sum-product exchange; brute-force marginal as specification |
| C16, C17, C53, C56 | list helpers, `get_prod` over extended reals | induction; Mathlib `Real.exp/log` |
| C18–C34, C60, C61 | `brc.run` and all it calls, `get_csys`, `eval_rules_prob` | boxes partition the vectors, labels sound, probabilities exact; termination by counting |
| C35–C41, C58, C62, C71–C74 | path-based set-up, the branch and bound variants, model files to probabilities | box splitting; the directory of dumps is a map |
| C42–C44, C50–C52, C66–C69 | sampling and estimators | random numbers as arguments; exact expectations |
| C45, C46 | `sys_max_val`, `sys_min_val`, `prod_Msys_and_Mcomps` | partition by the first maximiser |
| C47–C49, C63–C65 | system functions on networks and their reliability by `run` | library contracts; flows and routes |
| C75–C77 | model files, scenario files, tables | round trips; triangle inequality |
| C78 | system state together with component states | `sumOver` of the joint weight over the eliminated components |
| C79–C81 | variables and branches as objects, configuration files | heap of shared lists with an invariant on sequences of operations; dictionaries as lists of items |
| C82 | `run` with `monitor`, `sys_res`, exceptions and its effects on the arguments | simulation of the model used for C22–C34; invariant kept at every point of raising |
| C83 | distance of a point from a road (`demos/pf_map`) | case split at the foot of the perpendicular, over the reals with `Real.sqrt` |
| C84 | ground motion prediction (`demos/pf_map`) | analysis: monotone pieces that meet at 70 and 130 km; the spline is any function that interpolates its data |
| C85 | failure probabilities and covariance of roads (`demos/pf_map`) | Hoare-style over the two loops; the quadratic form as a sum of squares |
| C86 | `max_flow_fun` of `demos/max_flow`, edges of one or two directions | as C47; antisymmetric net flows and the amounts of the components translated into each other |
| C87 | `conn` of `demos/routine` | the graph of the working arcs has unit capacities; connection and flow translated into each other through unit flows along walks and cuts; the shortest walk becomes the rule |
| C88 | samples of `prod_Msys_and_Mcomps` | induction over the product of CPMs that carry only samples: scope, numbers, states, probabilities and weights; then the columns in the order of the result |
| C89 | `get_lins`, `quant_cpms` of the power_house demo | invariant over the dictionaries: the joint density is that of the hazard and the structures times the indicator that every other variable is its function of the damage; deterministic variables summed out; C15 and C45 |
| C90 | property setters of `Cpm` | transition system of assignments; consistency as an invariant of the safe ones; acceptance characterised |
| C91 | `main` of the rbd demo | columns of products sorted by name, an invariant of elimination; cells of the two-column result as queries (C78); C27, C28, C29, C48 |
| C92 | `process_node`, `mcs_unknown`, `main` of the pf_map demo | system function as in C48; C27, C28, C29 (`C29_stops` for the target width); event matrix as in C32; completion order by permutation of the collected dictionary |
| C93 | `cal_prob_dep`, `update_pf1`, `eval_pfs_dep`, `update_pfs` of the pf_map demo | laws of signed coordinates of a multivariate normal vector; reflection argument for two correlated coordinates; loop invariant for the means and covariances collected |
| C94 | `get_pole_conn`, `add_pole_loc`, `plot_result`, `main` of the power_house demo | loop invariant with the variables that survive an iteration; independence of the iteration order of a set |
| C95 | the max_flow demo: `config_custom`, `init_prob`, `main`, `run_all`, `run_MCS` | composition of C81, C86, C27, C28, C29 and C60; induction over the pairs |
| C96 | the pf_map demo: `config_custom`, `main`, `run_MCS`, `run_single`, `batch_comp` | composition of C81, C85, C92 and C68; congruence of the travel time in the stored variables; induction over the calls |
| C97 | the routine, n3e3 and SF demos: `main` | composition of C72, C81, C48, C27-C29, C32 and C78; routes of the graph and reflexive-transitive closure of the working connections translated into each other |
| C98 | the EMA demo: `main` | composition of C81, C74, C27-C30, C32, C60, C61 and C78; the evaluated vectors of the second run are not covered by the rules of the first |
| C99 | names and labels in queries | positions of labels; refinement to the numeric methods; every mixture of labels and numbers by cases |
| C100 | create_model and main of the EMA, SF and road demos | the tables determine the files; the files meet the hypotheses of C74 and C98; comparison of route times |
| C101 | setup/create_model and main of the routine and rbd demos | the written file meets the hypotheses of C97 and C91; reachability in the two networks as Boolean formulas; probability of a Boolean formula |
| C102 | `run` with rounded arithmetic | the operations as a parameter; the structural invariants do not use them; error bounds by induction over products and sums; double precision as exact rounding of rationals |
| C103 | CPM operations with rounded arithmetic | no operation looks at the value of a probability: a relation kept by product and sum is kept by everything; counts of roundings added up along the elimination, bounded by the numbers of rows |
| C104 | rounded `run`, `get_csys`, rounded elimination and `get_prob` | the structure of the run does not depend on the arithmetic (C102), so the event matrix is right; number of rows of the system CPM is the number of branches, which bounds the roundings (C103) |
| C105 | `operation.condition` by names and labels, then `variable_elim` and `get_prob` | `condition` row by row (C08) gives the joint distribution restricted to the observations; the conditioned network meets the requirements of C15; the observations sum out to the likelihood |
| C106 | `operation.condition`, `variable_elim`, `get_prob` and the quotient with rounded arithmetic | `condition` copies probabilities, so the relation between stored and meant tables is kept; rows of all intermediate tables bounded by the product of the numbers of rows; quotient of two numbers with relative errors |
| C107 | `merge` and `variable_elim_cond` with rounded arithmetic | relation between stored and meant tables carried through the rows of the loop; `merge` adds two roundings per row; the number of rows of each merged table is bounded by the product of the numbers of rows |
| C108 | `prod_Msys_and_Mcomps` and `cal_Msys_by_cond_VE` with rounded arithmetic | relation between stored and meant tables carried through joining, elimination, product with the components, sums and `merge`; different keys take different tables out of the dictionary, so rows and columns of all intermediate tables are bounded by those of the network |
| C109 | `get_prob_bnd` with a condition and rounded arithmetic | numerator and denominator with relative and absolute errors; the quotient divides the absolute error of the unknown probability by the probability of the condition |
| C110 | rules and branches of a run with other component probabilities | validity of rules and labels does not mention probabilities; a complete untruncated run leaves every vector covered, so that the loop stops at its first decomposition |
| C111 | rules of a run for another requirement | validity of a survival rule is monotone in the system function, that of a failure rule antitone; vectors evaluated are covered at the end of a run |
| C112 | better components and easier requirements | induction over the components: expectations of antitone functions, summation by parts over the states of one component; then the validity of the bounds |
| C113 | component probabilities that are not quite right | induction over the components: replacing the distribution of one component changes the expectation of a function between 0 and 1 by at most the distance |
| C114 | order of the components, components that do not matter | sums over component vectors are invariant under permutation, and the distribution of a further component sums to one; then the validity of the bounds |
| C115 | a run knows the system only through the vectors it evaluates | induction on the loop: the evaluated vectors of the final state include those of all earlier states; a system function patched with the answers seen; then the validity of the bounds; sharpness by the systems that fail exactly where a failure rule applies, and survive exactly where a survival rule applies |

The exact statements are in `properties.jsonl` and beside the theorems; the status of each is in
`MANIFEST.json`.

## Trusted base

* Lean 4.33.0's kernel and the Mathlib library it checks.
* The axioms `propext`, `Classical.choice`, `Quot.sound`.  `lean/Verif/Audit.lean` prints the axioms of
  every property theorem; `COVERAGE.md` lists them theorem by theorem.  No axiom is added; there is no
  `sorry`, `native_decide` or `bv_decide`.
* The reading of the Python source recorded in the comments of `lean/Verif/Model`.  Nothing was run: no
  statement here was compared with an execution of the code.
* The reading of what numpy, pandas, networkx and scipy do where the model says so: `np.random.choice`
  as a search in cumulative sums, `json.dump` turning keys into texts, `DataFrame.to_json` rounding to
  ten decimals, `G.add_edge` on existing edges, `milp` and path functions as in the contracts.  The
  sources of these libraries were not available.

### Contracts of library functions

| contract | library function | met by |
|---|---|---|
| `PathLibOK` (Spec/Net) | shortest paths of networkx | `enumLib_ok` |
| `SimplePathLibOK` (Spec/Paths) | `networkx.all_simple_paths` | `enumSimple_ok` |
| `FlowLibOK` (Spec/Flow) | `networkx.maximum_flow` | `bestFlowLib_ok` |
| `MilpLibOK` (Spec/Pipes) | `scipy.optimize.milp` | `bestMilpLib_ok` |
| values in [0,1] (C76) | `lognorm.cdf` | example beside the theorem |
| bounded error (C76) | rounding of `DataFrame.to_json` | `Ex.round10_ok` |

## What is modelled

`COVERAGE.md` lists every function of `BNS_JT/*.py` with the definitions that model it.  Simplifications
are in the comment of the definition concerned.  The ones that affect how far a theorem reaches:

* Arithmetic is exact.  A comparison such as `p == 1.0` in the code is exact equality in the model
  (except `np.isclose`, `allclose`, which are modelled).  Square roots (coefficients of variation) are
  kept squared.
* Type assertions and the translation of names given as strings to `Variable` objects are left out,
  where the model takes the resolved values.
* A negative index, which Python counts from the end, is outside the model.
* Division by zero, a warning and `inf`/`nan` in numpy, is an error in the model or excluded.
* A matrix without rows is the empty list.  The code has two: an array of shape (0, k), as after a
  selection, which behaves as in the model, and the one-dimensional array of a `Cpm` built with `C=[]`, for
  which `sort` without sample numbers raises `IndexError` instead of leaving it as it is.
* Confidence intervals that need `norm` or `beta.ppf` are not computed.

## What is not modelled

* Floating point other than in C102-C104 and C106, printing, plotting, timing, dask's scheduling (the order of files in a directory is
  arbitrary), the byte formats of JSON and pickle.
* `networkx_to_graphviz`, `plot_graph`, `plot_graphviz`, `__repr__`; of `display_msg` and `plot_monitoring`
  only when they raise.
* Variables and branches are objects with sharing only in `Model/Objects.lean` (C79, C80); elsewhere they
  are values, variables are compared by name.
* Code inside string literals and commented-out code; the `tests` directory; of the `demos` directory what
  COVERAGE.md lists as not modelled.
* The internals of the libraries.

## Disagreements between code and claims

Each is proved for the model with a concrete witness (or for all inputs, where said).

| # | what happens | theorem |
|---|---|---|
| 1 | `get_state` of the empty set differs between stored and computed tables | `C02_empty_set_disagrees` |
| 2 | `get_composite_state` and users of it raise `TypeError` when the table is not stored | `C05_not_stored_raises`, `C32_not_stored_raises` |
| 3 | the CPM constructor accepts a state one above the last | `C54_accepts_invalid_state` |
| 4 | `merge` raises for a row that only the second table has, and changes `self.p` | `C14_missing_row_raises`, `C14_changes_self` |
| 5 | `sum` over all variables raises | `C09_sum_all_raises` |
| 6 | `Cpm.sort` with `sample_idx` mismatches probabilities; with more rows than sample numbers it drops rows, with fewer it raises | `C13_samples_mismatched`, `C13_rows_lost`, `C13_samples_only` (all inputs) |
| 7 | `product` refuses an empty table | `C06_empty_operand_raises` |
| 8 | `variable_elim` raises for a whole independent part, keeps a variable that is only a parent | `C15_disconnected_raises`, `C15_parent_only_kept` |
| 9 | `get_comp_st(surv_first=False)` raises `UnboundLocalError`, also in a run | `C31_raises`, `C31_run_raises` |
| 10 | `run` reports `complete` though the bounds differ | `C28_complete_not_exact` |
| 11 | `run(active_decomp=False)` evaluates a vector twice | `C29_repeats` |
| 12 | `eval_rules_prob('f')` gives the probability of being strictly below | `C34_failure_wrong` |
| 13 | a path of infinite time hides the state without paths | `C35_not_with_infinite_time` |
| 14 | a branch decided from the start is lost or corrupts the result | `C37_not_decided_start`, `C73_not_decided_start` |
| 15 | dumps of other runs or keys are read back | `C38_not_stale_files`, `C38_not_key_prefix` |
| 16 | event matrices of three-state components match the lowest state only | `C39_not_three_states`, `C41_not_three_states` |
| 17 | `run_bnb` does not end for three-state components | `C40_not_three_states` |
| 18 | `single_sample` and `mcs_product`: state 0, listing order and vectors go wrong | `C44_state_zero_wrong`, `C44_listing_order_wrong`, `C44_vector_mismatched`, `C44_common_child` |
| 19 | `sys_max_val`, `sys_min_val` label states wrongly | `C45_max_wrong`, `C45_min_wrong` |
| 20 | `prod_Msys_and_Mcomps` raises for two conditioning variables | `C46_two_conditions_raise` |
| 21 | `max_flow` drops parallel components | `C47_not_parallel` |
| 22 | travel time in a multigraph ignores states; threshold zero means no threshold; no route raises | `C48_not_multigraph`, `C48_not_zero_threshold`, `C48_no_route_raises` |
| 23 | `sys_fun_pipes` reports deliveries that no route makes | `C49_not_routes` |
| 24 | the estimate over several rounds is a sum of fractions; without stored probabilities it raises | `C50_not_rounds`, `C50_rounds_raise` |
| 25 | simulations that never end or break down before the first failure | `C51_not_terminates`, `C68_not_rare`, `C68_not_terminates` |
| 26 | `get_rat_dist` accepts negative `q` | `C52_negative_q_accepted` |
| 27 | `split` with a negative chunk size loses the list | `C53_split_negative` |
| 28 | `variable_elim_cond` and `cal_Msys_by_cond_VE` depend on the order of rows | `C57_not_row_order`, `C70_not_row_order` |
| 29 | `bnb_sys` returns the wrong path for an unsorted list | `C58_not_unsorted` |
| 30 | two ODs in one configuration share branches; six paths raise | `C62_not_two_ods`, `C62_not_six_paths` |
| 31 | a conditional estimate is refused unless one event implies the other | `C66_not_nested` |
| 32 | unknown branches that run from failure to survival are not sampled | `C67_not_mixed` |
| 33 | `rejection_sampling_sys` never returns a sample (for all inputs) | `C69_not_samples`, `C69_not_returns`, `C69_not_found` |
| 34 | `cal_Msys_by_cond_VE` raises or is wrong without an exception | `C70_not_two_conditions`, `C70_not_shared_parent`, `C70_not_direct_parent`, `C70_not_dependent_components`, `C70_not_joint_with_parent` |
| 35 | a pair without a route, or a multigraph, stops the set-up with `KeyError` | `C71_not_disconnected`, `C71_raises` |
| 36 | `read_model_from_json` drops parallel connections | `C72_not_parallel`, `C75_not_parallel` |
| 37 | `get_branches_by_od`: multigraphs, seven states, intact time zero, one pair without a route | `C74_not_multigraph`, `C74_not_seven_states`, `C74_not_zero_time`, `C74_no_route_raises` |
| 38 | numbers as node names give a graph with separate nodes | `C75_not_int_names` |
| 39 | `dict_to_json` leaves out scenarios and rounds small probabilities to zero | `C76_not_all_scenarios`, `C76_not_small_probability` |
| 40 | `convert_csv_to_json` changes the caller's template | `C77_not_template` |
| 41 | `get_prob` of the system together with a component on the result of `prod_Msys_and_Mcomps` counts open branches as a whole | `C78_not_joint` |
| 42 | setting `values` of a variable leaves the table of the old ones | `C79_stale` |
| 43 | variables constructed without values share one list | `C79_shared_default` |
| 44 | `Branch` compares only the numbers of components | `C80_not_checked` |
| 45 | a missing scenario file gives `NameError`, a missing `SCENARIO_NAME` gives `KeyError` | `C81_not_optional` |
| 46 | `run` edits the rules it gets and sets labels of the branches it gets | `C82_changes_arguments` |
| 47 | `monitor['max_bu']` is always 0 | `C82_max_bu` |
| 48 | `plot_monitoring` raises after a run with `max_sf = 0` | `C82_no_evaluation` |
| 49 | `shortest_distance` divides by zero for a road between nodes at the same place; the whole network then fails | `C83_not_loop`, `C85_loop_raises` |
| 50 | `gmpe_cam03`: the table of deviations is flattened by magnitude, the grid by distance, so they do not belong together | `C84_not_table` |
| 51 | `gmpe_cam03`: below magnitude 7.16 the aleatory deviation does not depend on the magnitude (and jumps by half at 7.16) | `C84_not_std_al` |
| 52 | `max_flow_fun` (demo): parallel components overwrite each other, also in the directed graph | `C86_not_parallel` |
| 53 | `max_flow_fun` (demo): edges given as dictionaries, which `get_max_flow` accepts, raise `KeyError` when the system survives | `C86_dictionaries_raise` |
| 54 | `conn` (demo): with parallel arcs the rule names the first of them, which may have failed | `C87_not_parallel` |
| 55 | `conn` (demo): arcs given as tuples raise `ValueError` when the system survives | `C87_tuples_raise` |
| 56 | `prod_Msys_and_Mcomps`: a parent of the system without component CPM is accepted without samples, `AssertionError` with samples | `C88_missing_component_raises` |
| 57 | `prod_Msys_and_Mcomps`: all samples are dropped without notice when one component has none | `C88_dropped` |
| 58 | `quant_cpms` (power_house): with six or more structures the table of composite states is not stored and the CPM of the closure time is left out; the shipped model raises `AttributeError` | `C89_six_structures`, `C89_shipped_raises` |
| 59 | `quant_cpms` (power_house): the links of house `h1` are called `h10`, `h11`, …; a house of that name silently replaces the link | `C89_name_clash` |
| 60 | `main` (power_house) uses `cpm.cal_Msys_by_cond_VE`, which does not exist; `operation.cal_Msys_by_cond_VE` raises `AssertionError` on the networks of the demo | `C89_conditional_raises` |
| 61 | `quant_cpms` (power_house): a house without link gets a CPM without rows | `C89_no_link` |
| 62 | `Cpm.C` setter: a matrix with another number of rows is accepted while `p` keeps its old entries; queries then return wrong probabilities | `C90_not_rows` |
| 63 | `Cpm.variables` setter: variables are replaced without comparing them with `no_child` or `C` | `C90_not_variables` |
| 64 | `Cpm.C` setter: an array with one dimension is accepted for several variables; the error comes only when the CPM is queried | `C90_not_vector`, `C90_vector_query` |
| 65 | `Cpm.q`, `ps`, `sample_idx` setters: assigned before `Cs` they are never compared with it | `C90_not_weights_first` |
| 66 | `main` (rbd): the first column is taken for the system, but columns are sorted by name; a block whose name comes before `sys` gets the other conditional probability | `C91_name_order`, `C91_not_name_order` |
| 67 | `main` (rbd): the system has two states, undecided branches get the composite one and are left out of both probabilities | `C91_not_unresolved` |
| 68 | `process_node` (pf_map): for a node without a way to any destination the threshold is infinite and `inf > inf` is false; its failure probability is 0 | `C92_unreachable`, `C92_not_unreachable` |
| 69 | `mcs_unknown` (pf_map): indexes a `Branch` (`b[4]`); always a `TypeError`, so that every run that hits a limit fails, and with it the whole map | `C92_sampling_raises`, `C92_limit_raises`, `C92_not_limits` |
| 70 | `cal_prob_dep` (pf_map): changes the sign of the mean of surviving roads but not of their covariances; rows with failed and surviving roads get too large probabilities, and after the normalisation the others too small ones | `C93_row`, `C93_not_opposite`, `C93_not_two_roads` |
| 71 | `cal_prob_dep`, `update_pf1` (pf_map): call `cpm.get_prob`, `cpm.get_prob_and_cov` and `cpm.prod_Msys_and_Mcomps`, which the module does not have; always an exception | `C93_attribute`, `C93_not_returns`, `C93_update_not_returns` |
| 72 | `get_pole_conn` (power_house): a pole without a house gets the house of an earlier pole in the iteration order of a set, or `UnboundLocalError` | `C94_not_without_house` |
| 73 | `plot_result` (power_house): houses are marked at (x, x) instead of (x, y) | `C94_drawing_partial`, `C94_not_houses` |
| 74 | `main` (power_house): calls `cpm.cal_Msys_by_cond_VE`, which is in `operation`; always `AttributeError` | `C94_not_main`, `C94_main_attribute` |
| 75 | `gmpe_cam03`: the predicted motion does not grow with the magnitude up to the accepted 8.5 (at distance 0 it is lower at 8.5 than at 8.4) | `C84_not_increasing` |
| 76 | `config_custom` (max_flow): a limit of 0 evaluations is no limit | `C95_not_zero` |
| 77 | `main`, `run_all` (max_flow): pairs with the same key overwrite each other without a message | `C95_not_same_key` |
| 78 | `run_MCS` (max_flow): `output_path` is not defined; `NameError` after the whole simulation, nothing is stored | `C95_not_mcs` |
| 79 | `max_flow_fun` (demo): with parallel components `AssertionError` although the target can be sent | `C86_not_parallel_raises` |
| 80 | `max_flow_fun` (demo): with parallel components the rule of a survival does not apply to the evaluated vector | `C86_not_parallel_rule` |
| 81 | `max_flow`: with parallel components the rule can contain the state `None` | `C47_not_parallel_none` |
| 82 | `run_MCS` (pf_map): `MCS_COV` is read but the target is the literal 0.01 | `C96_mcs` |
| 83 | `run_MCS` (pf_map): `KeyError` at an origin, where the threshold 0 is taken for none | `C96_not_mcs_origin` |
| 84 | `run_MCS` (pf_map): `UnboundLocalError` at a node without a way to an origin | `C96_not_mcs_unreachable` |
| 85 | `run_single` (pf_map): the result is thrown away | `C96_not_single` |
| 86 | EMA demo: a connection with two travel times gets a CPM whose third row is the composite of both states, so that their probabilities add up to almost 2 | `C98_not_two_times` |
| 87 | `get_prob` drops the numbers of a list as soon as it contains a label, so that every mixture is an `AssertionError`; `iscompatible` accepts the same list | `C99_mixed_get_prob`, `C99_compatible` |
| 88 | `condition` translates labels only if the first state is a label: the answer to a list of labels and numbers depends on their order (`ValueError` or `TypeError`) | `C99_mixed_condition` |
| 89 | `condition` ignores labels beyond the last variable, because the lists are zipped before their lengths are compared | `C99_extra_labels` |
| 90 | After `create_model` of the EMA demo the model has the pair `od1` only; `main()` without arguments asks for `od2` (in the shipped file) and raises `KeyError` | `C100_not_default_key` |
| 91 | `create_model` of the SF demo reads the text files of the EMA demo, which are not in its directory | `C100_ema_errors` |
| 92 | A table with two arcs between two nodes: both are written, one is lost when the file is read | `C100_not_parallel` |
| 93 | An arc between nodes at the same place has travel time 0 in all damage states | `C100_not_same_place` |
| 94 | in double precision the monitored lower bound can exceed the upper bound, and the failure probability lies outside | `C102_not_enclosed` |
| 95 | rounding makes the probability of the undecided branches negative, and `run` stops with `pf_bnd` although `pf_bnd_wr` is 0 | `C102_stops_early` |
| 96 | in double precision `get_prob_bnd` of a complete table can return an upper bound below the lower one | `C103_bounds_crossed` |
| 97 | in double precision the failure and survival probabilities taken from the CPMs of a complete run can add up to more than 1 | `C104_not_one` |
| 98 | an observation that no row of a table allows leaves an empty table, and `variable_elim` raises `UnboundLocalError` instead of giving probability 0 | `C105_impossible` |
| 99 | two observations of probability 2^-600 each: in double precision all the remaining probabilities are 0, the conditional probability is 0/0 | `C106_underflow` |
| 100 | `get_prob_bnd` with a condition (cpm.py:795-811): the unknown probability `1.0 - np.sum(self.p)` of a complete table can be about -2e-16; with a condition of probability 2^-60 the bounds of a probability that is 1 come out as about -0.004 and -255 (`C109_not_small`) |
| 101 | `run` (brc.py:17-123) with `active_decomp = False` and branches from a run with other component probabilities: the branches keep their stored `p`, so that the bounds reported are those for the old probabilities, with `complete` (`C110_not_branches`) |
| 102 | `run` (brc.py:17-123) accepts rules without checking them: with all rules of a complete run for a stricter requirement the stricter failure probability is reported, with `complete` and without an evaluation (`C111_not_all`) |
| 103 | `run` (brc.py:17-123) stopped by `max_sf`: both bounds can rise when a component is made better, because the order in which vectors are evaluated depends on the probabilities; the bounds stay valid (`C112_not_each_bound`) |
| 104 | `run` (brc.py:17-123) stopped by `max_sf`: both bounds depend on the order of the dictionary of components; they stay valid (`C114_not_unfinished`) |
| 105 | `run` (brc.py:17-123) does not notice a system function that is not coherent: it ends `complete` with equal bounds that are not the failure probability (`C115_not_coherent`) |
| 106 | `run` (brc.py:17-123) stopped by `max_sf`: the branches of the last row are those from before the last evaluation, so the last answer is not used in the reported bounds (`C115_sharp_not_max_sf`) |

## Seeded faults

`seeded/LOG.jsonl` has one line per wrong program tried on a scratch copy: the definition, the edit, the
claim it breaks and the theorems that fail.  `tools/seed.py` runs a list of them.

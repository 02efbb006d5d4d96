{"id": "C01", "title": "Composite-state numbering is a bijection", "statement": "For a variable with n values, Variable.get_set(s) is defined exactly for s in 0..2^n-2, Variable.get_state(get_set(s)) = s, and for every non-empty subset S of {0..n-1} get_set(get_state(S)) = S.", "quantifier": "every number of values n, every state index, every non-empty subset of basic states, both storage modes", "why_tests_cant": "2^n-1 subsets for unbounded n; tests check three hand-picked triples", "anchors": ["BNS_JT/variable.py:Variable.get_state", "BNS_JT/variable.py:Variable.get_set", "BNS_JT/variable.py:Variable.gen_B"]}
{"id": "C02", "title": "Stored and on-the-fly variables agree", "statement": "get_state and get_set return the same answer whether the variable stores its table B (B_flag 'store' or <= 6 values) or computes it on the fly (B_flag 'fly' or > 6 values).", "quantifier": "every n, every state index and every non-empty subset", "why_tests_cant": "the two code paths are different algorithms; agreement must hold at every size", "anchors": ["BNS_JT/variable.py:Variable.__init__", "BNS_JT/variable.py:Variable.get_state", "BNS_JT/variable.py:Variable.get_set"]}
{"id": "C03", "title": "Basic states come first and the table is complete", "statement": "The table B of a variable with n values lists every non-empty subset of {0..n-1} exactly once (2^n-1 entries), and for i < n entry i is the singleton {i}; so a state index below n always means that single basic state.", "quantifier": "every n and every index", "why_tests_cant": "completeness and duplicate-freeness are universally quantified over subsets", "anchors": ["BNS_JT/variable.py:Variable.gen_B"]}
{"id": "C04", "title": "Vector look-up agrees with set look-up", "statement": "find_state_from_vector(v) equals get_state of the set of positions holding 1, and is -1 exactly when v is all zeros.", "quantifier": "every 0/1 vector of every length", "why_tests_cant": "2^n vectors for unbounded n", "anchors": ["BNS_JT/variable.py:Variable.find_state_from_vector", "BNS_JT/variable.py:Variable.get_Bst_from_Bvec"]}
{"id": "C05", "title": "get_composite_state never renumbers", "statement": "get_composite_state(vari, states) returns an index whose table entry is exactly set(states), keeps every existing table entry at its index, leaves a complete table unchanged, and is idempotent.", "quantifier": "every table B (complete or not), every list of states, every sequence of such calls", "why_tests_cant": "stability of indices must survive every call history because C matrices store indices", "anchors": ["BNS_JT/variable.py:get_composite_state"]}
{"id": "C06", "title": "Product of CPMs is the pointwise product of the factors", "statement": "For compatible CPMs M and N (no common child, at least one row and one column each), M.product(N) succeeds and, for every assignment x of basic states, the probability the product assigns to x equals the product of the probabilities M and N assign to x, including when rows use composite states and whichever operand has more columns. (An operand without rows makes the call raise UnboundLocalError.)", "quantifier": "all pairs of well-formed CPMs, any number of rows/columns, any composite states, all assignments", "why_tests_cant": "the join, the intersection of composite states, the column permutation and the sort must be right for every pair of matrices", "anchors": ["BNS_JT/cpm.py:Cpm.product", "BNS_JT/cpm.py:Cpm.condition", "BNS_JT/cpm.py:iscompatible", "BNS_JT/cpm.py:Cpm.sort"]}
{"id": "C07", "title": "Product is commutative and associative as a distribution, and its scope is the union", "statement": "M.product(N) and N.product(M) define the same function of assignments, as do (A*B)*C and A*(B*C); product(cpms) does not depend on the order of the list; the child nodes of the product are exactly the children of the factors and its other variables exactly the remaining parents.", "quantifier": "all lists of well-formed CPMs with disjoint children and all reorderings", "why_tests_cant": "factorial number of orders, arbitrary matrices", "anchors": ["BNS_JT/cpm.py:product", "BNS_JT/cpm.py:Cpm.product"]}
{"id": "C08", "title": "Conditioning restricts the distribution", "statement": "M.condition(vars, states) keeps exactly the rows consistent with the evidence: for every assignment x, the conditioned CPM gives M's probability of x if x is consistent with the evidence on the variables in M's scope, and 0 otherwise; variables outside the scope are ignored.", "quantifier": "all well-formed CPMs, all evidence lists (basic or composite), all assignments", "why_tests_cant": "interaction of partially overlapping composite states is a combinatorial space", "anchors": ["BNS_JT/cpm.py:Cpm.condition", "BNS_JT/cpm.py:iscompatible", "BNS_JT/operation.py:condition"]}
{"id": "C09", "title": "Summing out children is marginalisation", "statement": "M.sum(vars) removes exactly the named child variables and gives every assignment of the remaining variables the sum of M's probabilities over the basic states of the removed ones (the removed columns holding basic states); flag=False keeps only the named children.", "quantifier": "all well-formed CPMs, all subsets of child variables, all assignments", "why_tests_cant": "must hold for every event matrix, including repeated rows", "anchors": ["BNS_JT/cpm.py:Cpm.sum", "BNS_JT/cpm.py:Cpm.iscompatible", "BNS_JT/cpm.py:Cpm.get_subset"]}
{"id": "C10", "title": "sum loses no probability and merges duplicates", "statement": "The probabilities of M.sum(vars) add up to the probabilities of M, and its event matrix has no duplicate row; parents are never summed out.", "quantifier": "all CPMs with a probability per row, all variable lists", "why_tests_cant": "conservation over an unbounded number of rows and loop iterations", "anchors": ["BNS_JT/cpm.py:Cpm.sum"]}
{"id": "C11", "title": "get_prob is the probability of the event and of its complement", "statement": "get_prob(vars, states) adds the probabilities of exactly the rows compatible with the given states; with flag=False it adds the others, so the two always total the CPM's probability; on a CPM of basic states it is the probability of the event.", "quantifier": "all well-formed CPMs, all queried variables and (composite) states", "why_tests_cant": "universally quantified over matrices and queries", "anchors": ["BNS_JT/cpm.py:Cpm.get_prob", "BNS_JT/cpm.py:Cpm.get_subset"]}
{"id": "C12", "title": "get_prob_bnd encloses the true probability", "statement": "When the CPM knows only part of the distribution (its p sums to at most 1), get_prob_bnd returns an interval that contains the true probability of the event, and in the conditional form contains the true conditional probability; upper bound never exceeds 1.", "quantifier": "all completions of the unknown probability mass, all events", "why_tests_cant": "quantifies over every possible distribution of the missing mass", "anchors": ["BNS_JT/cpm.py:Cpm.get_prob_bnd"]}
{"id": "C13", "title": "Sorting a CPM does not change it", "statement": "Cpm.sort only permutes: every row keeps its own probability, the distribution is unchanged, rows end in order, and sorting twice equals sorting once.", "quantifier": "all CPMs", "why_tests_cant": "all permutations of all matrices", "anchors": ["BNS_JT/cpm.py:Cpm.sort", "BNS_JT/cpm.py:argsort"]}
{"id": "C14", "title": "merge adds the two tables", "statement": "A.merge(B) for CPMs over the same variables gives every assignment the sum of the probabilities A and B give it, whether or not B's rows already occur in A, and leaves A unchanged.", "quantifier": "all pairs of CPMs over the same scope", "why_tests_cant": "row overlap patterns are unbounded; the missing-row path is data dependent", "anchors": ["BNS_JT/cpm.py:Cpm.merge"]}
{"id": "C15", "title": "Variable elimination equals brute-force marginalisation, for every order", "statement": "operation.variable_elim(cpms, order) returns a CPM whose probability at x is the sum over all basic states of the eliminated variables of the product of all the input CPMs; hence it does not depend on the elimination order.", "quantifier": "all Bayesian networks given as well-formed CPMs, all elimination orders, all assignments", "why_tests_cant": "exponentially many assignments and factorially many orders", "anchors": ["BNS_JT/operation.py:variable_elim", "BNS_JT/operation.py:isinscope", "BNS_JT/cpm.py:product", "BNS_JT/cpm.py:Cpm.sum"]}
{"id": "C16", "title": "get_subset splits a CPM without loss", "statement": "get_subset(rows) and get_subset(rows, flag=0) select complementary rows in their original relative order for flag=0 and requested order for flag=1, and out-of-range rows are rejected.", "quantifier": "all CPMs and all index lists", "why_tests_cant": "index arithmetic over arbitrary lists", "anchors": ["BNS_JT/cpm.py:Cpm.get_subset", "BNS_JT/cpm.py:setdiff"]}
{"id": "C17", "title": "Set helpers behave like their MATLAB counterparts", "statement": "ismember(A,B) reports for each element of A whether it is in B and its first position; setdiff(A,B) returns, in order and without repetition, the elements of A not in B; argsort returns a stable sorting permutation.", "quantifier": "all lists", "why_tests_cant": "all list contents and lengths", "anchors": ["BNS_JT/cpm.py:ismember", "BNS_JT/cpm.py:setdiff", "BNS_JT/cpm.py:argsort"]}
{"id": "C18", "title": "A rule set classifies states soundly", "statement": "If every survival rule and every failure rule is valid for a coherent system, brc.get_state(x, rules) = 's' implies x survives and 'f' implies x fails; 'u' is returned exactly when no rule applies; and states that dominate a survival-classified state are survival-classified.", "quantifier": "all coherent systems, rule sets and component vectors", "why_tests_cant": "infinitely many systems and rule sets", "anchors": ["BNS_JT/brc.py:get_state"]}
{"id": "C19", "title": "update_rule_set preserves what is known", "statement": "After update_rule_set(rules, new) a state is covered by the survival (failure) rules iff it was covered before or is covered by the new rule; the other list is untouched.", "quantifier": "all rule sets (even redundant ones), all new rules, all histories of updates", "why_tests_cant": "the remove-while-scanning loop and early break must be right for every list", "anchors": ["BNS_JT/brc.py:update_rule_set"]}
{"id": "C20", "title": "The rule set never contains dominated rules", "statement": "Starting from an empty (or irredundant) rule set, after any sequence of update_rule_set calls no rule is implied by another rule of the same kind.", "quantifier": "all histories of rule insertions", "why_tests_cant": "unbounded operation histories", "anchors": ["BNS_JT/brc.py:update_rule_set"]}
{"id": "C21", "title": "A system-function run yields a valid rule covering the evaluated state", "statement": "run_sys_fn(x, sys_fun) on a coherent system returns a rule that is valid for the system and covers x, both when sys_fun supplies a minimal state and when it does not.", "quantifier": "all coherent systems and all component vectors", "why_tests_cant": "infinitely many systems", "anchors": ["BNS_JT/brc.py:run_sys_fn"]}
{"id": "C22", "title": "Decomposition partitions the event space", "statement": "decomp_depth_first returns branches whose boxes [down, up] are non-empty, pairwise disjoint and cover every component vector exactly once, for every rule set, probabilities and branch limit, also when it starts from branches that already partition the space.", "quantifier": "all variables, rule sets, probabilities, max_nb", "why_tests_cant": "partition must survive every split, sort and truncation", "anchors": ["BNS_JT/brc.py:decomp_depth_first", "BNS_JT/brc.py:init_branch", "BNS_JT/branch.py:Branch.get_new_branch"]}
{"id": "C23", "title": "Branch probabilities are exact and sum to one", "statement": "Every branch's p equals the probability that independent components fall in its box, and with normalised component probabilities the branch probabilities sum to 1.", "quantifier": "all decompositions reachable from any inputs", "why_tests_cant": "requires a product-measure argument over unbounded dimensions", "anchors": ["BNS_JT/branch.py:approx_prob_by_comps", "BNS_JT/branch.py:Branch.get_new_branch", "BNS_JT/brc.py:decomp_depth_first"]}
{"id": "C24", "title": "Branch labels are sound", "statement": "In a decomposition made from valid rules of a coherent system, a branch with down_state 's' contains only surviving states, one with up_state 'f' only failing ones, and down_state/up_state are otherwise never wrong about the end points.", "quantifier": "all decompositions", "why_tests_cant": "labels are carried over and re-evaluated lazily across splits; every history counts", "anchors": ["BNS_JT/branch.py:Branch.eval_state", "BNS_JT/branch.py:Branch.get_new_branch", "BNS_JT/brc.py:decomp_depth_first"]}
{"id": "C25", "title": "Decomposition always terminates and always finds a component to split", "statement": "decomp_depth_first terminates on every input and never fails to pick a component: whenever a branch has a compatible rule, get_decomp_comp_using_probs returns a component and a cut strictly inside the branch.", "quantifier": "all rule sets and branches", "why_tests_cant": "while-loop termination for all inputs", "anchors": ["BNS_JT/brc.py:decomp_depth_first", "BNS_JT/branch.py:Branch.get_decomp_comp_using_probs", "BNS_JT/branch.py:Branch.get_compat_rules"]}
{"id": "C26", "title": "An untruncated decomposition is resolved", "statement": "If the branch limit was not hit, every returned branch contains either only states classified alike by the rules, or only unclassified states; no rule separates a returned branch that is not decided.", "quantifier": "all inputs where max_nb is not reached", "why_tests_cant": "all decompositions", "anchors": ["BNS_JT/brc.py:decomp_depth_first", "BNS_JT/branch.py:Branch.get_compat_rules"]}
{"id": "C27", "title": "The BRC bounds always contain the true failure probability", "statement": "Whenever brc.run stops (complete, max_sf, max_nb, pf_bnd or max_rules), and at every monitored iteration, pf_low <= P(system fails) <= pf_up for a coherent system with independent components.", "quantifier": "all coherent systems, probabilities, limits, and every iteration", "why_tests_cant": "needs soundness of every rule, label and split along every run", "anchors": ["BNS_JT/brc.py:run", "BNS_JT/brc.py:update_monitor"]}
{"id": "C28", "title": "out_flag 'complete' means the answer is exact", "statement": "If brc.run ends with out_flag 'complete', then pf_low = pf_up = P(system fails) and every branch is labelled s or f.", "quantifier": "all coherent systems and limits", "why_tests_cant": "depends on an interplay of truncation and labels that tests do not reach", "anchors": ["BNS_JT/brc.py:run", "BNS_JT/brc.py:get_comp_st", "BNS_JT/brc.py:decomp_depth_first"]}
{"id": "C29", "title": "run finishes after at most one evaluation per component state", "statement": "brc.run never evaluates the system function twice on the same component vector, so it makes at most prod(n_k) evaluations; with limits large enough it ends 'complete'.", "quantifier": "all coherent systems", "why_tests_cant": "progress argument over unbounded runs", "anchors": ["BNS_JT/brc.py:run", "BNS_JT/brc.py:get_comp_st", "BNS_JT/brc.py:update_rule_set"]}
{"id": "C30", "title": "Bounds never get worse", "statement": "As the run proceeds (without truncation) pf_low is non-decreasing and pf_up is non-increasing, pr_bu = pf_up - pf_low, and the monitored branch counts add up.", "quantifier": "all runs and all pairs of iterations", "why_tests_cant": "monotonicity along every history although the decomposition is recomputed from scratch", "anchors": ["BNS_JT/brc.py:run", "BNS_JT/brc.py:update_monitor"]}
{"id": "C31", "title": "get_comp_st picks an undecided state or reports none", "statement": "get_comp_st returns an end point of a branch whose label is unknown, preferring the upper end point of the most probable such branch, and returns None exactly when no branch end point is unknown; for both settings of surv_first.", "quantifier": "all branch lists, both modes", "why_tests_cant": "all orders and label combinations", "anchors": ["BNS_JT/brc.py:get_comp_st"]}
{"id": "C32", "title": "System event matrix rows mean exactly the branches", "statement": "get_csys(brs, varis) produces one row per branch; the composite states of the row match a component vector iff the vector lies in the branch's box; the system column holds the mapped label; earlier rows keep their meaning when later rows add composite states.", "quantifier": "all branch lists and all variable tables", "why_tests_cant": "index stability across a growing table", "anchors": ["BNS_JT/branch.py:Branch.get_c", "BNS_JT/brc.py:get_csys", "BNS_JT/variable.py:get_composite_state"]}
{"id": "C33", "title": "BRC followed by inference gives the system failure probability", "statement": "Building the system CPM from a completed BRC run and eliminating the component variables yields a CPM whose probability of system state f is exactly the failure probability (and for incomplete runs the three states f, s, u carry pf_low, 1-pf_up and the rest).", "quantifier": "all coherent systems with independent components", "why_tests_cant": "end-to-end composition over all inputs", "anchors": ["BNS_JT/brc.py:run", "BNS_JT/brc.py:get_csys", "BNS_JT/operation.py:variable_elim"]}
{"id": "C34", "title": "eval_rules_prob is the probability that a rule applies", "statement": "eval_rules_prob(rules, 's'/'f', probs) returns for each rule the probability that independent components satisfy it.", "quantifier": "all rules and probabilities", "why_tests_cant": "all rule shapes; boundary of the state range", "anchors": ["BNS_JT/brc.py:eval_rules_prob"]}
{"id": "C35", "title": "Path-based system state is the best surviving path", "statement": "eval_sys_state on get_path_time_idx's table returns the index of the fastest path all of whose arcs survive, and the 'no path' state when none does; it is monotone in the arc states.", "quantifier": "all path tables, all arc state vectors", "why_tests_cant": "all subsets of arcs", "anchors": ["BNS_JT/trans.py:eval_sys_state", "BNS_JT/trans.py:eval_sys_state_given_arc", "BNS_JT/trans.py:get_path_time_idx"]}
{"id": "C36", "title": "get_set_of_branches splits a branch without gap or overlap", "statement": "The branches returned by get_set_of_branches(bstar, arcs) are disjoint and cover exactly the box of bstar; their upper labels are the system state at the upper end, their lower labels never exceed the system state at the lower end, and the last one is exactly decided.", "quantifier": "all binary branches and path tables", "why_tests_cant": "all arc lists", "anchors": ["BNS_JT/branch.py:get_set_of_branches", "BNS_JT/branch.py:get_arcs_given_bstar", "BNS_JT/branch.py:create_arc_state_given_cond"]}
{"id": "C37", "title": "branch_and_bound terminates with a correct partition", "statement": "branch_and_bound terminates and the decided branches it writes (fl = fu) are disjoint, cover the initial box, and each carries the true system state of every arc vector inside it.", "quantifier": "all path tables and initial boxes", "why_tests_cant": "while-loop with data-dependent filtering; all inputs", "anchors": ["BNS_JT/branch.py:branch_and_bound", "BNS_JT/branch.py:bnb_core"]}
{"id": "C38", "title": "Reading back saved branches returns this run's branches", "statement": "get_sb_saved_from_job returns exactly the decided branches of the branch_and_bound run that was just executed with that output path and key.", "quantifier": "all sequences of runs sharing an output directory", "why_tests_cant": "depends on the history of files left by earlier runs", "anchors": ["BNS_JT/branch.py:get_sb_saved_from_job", "BNS_JT/branch.py:branch_and_bound", "BNS_JT/model.py:get_branches"]}
{"id": "C39", "title": "Event matrix from binary branches", "statement": "get_cmat_from_branches gives one row per decided branch; a row matches an arc vector iff the vector is in the branch's box and its first column is the branch's state; rows are ordered by system state.", "quantifier": "all lists of decided branches", "why_tests_cant": "all boxes", "anchors": ["BNS_JT/branch.py:get_cmat_from_branches"]}
{"id": "C40", "title": "run_bnb returns a complete, correct partition", "statement": "run_bnb with a monotone system function and callbacks that choose an open component and an interior cut terminates; the returned branches partition the initial box, all are complete, and every state in a branch has the branch's system state.", "quantifier": "all monotone system functions and admissible callbacks", "why_tests_cant": "higher-order; all callbacks", "anchors": ["BNS_JT/branch.py:run_bnb", "BNS_JT/branch.py:get_idx"]}
{"id": "C41", "title": "get_cmat encodes legacy branches", "statement": "get_cmat maps each complete branch to a row whose component states match exactly the branch's interval.", "quantifier": "all complete branches and variables with any number of states", "why_tests_cant": "multi-state intervals are never exercised", "anchors": ["BNS_JT/branch.py:get_cmat"]}
{"id": "C42", "title": "get_inf_vars returns exactly the ancestors", "statement": "get_inf_vars(cpms, varis) terminates and returns, without repetition, exactly the variables reachable from varis by following parents, sorted by the elimination order when given.", "quantifier": "all networks (even cyclic)", "why_tests_cant": "worklist termination and closure for all graphs", "anchors": ["BNS_JT/operation.py:get_inf_vars"]}
{"id": "C43", "title": "get_sample_order is a topological order", "statement": "For an acyclic network in which every parent is the child of some CPM, get_sample_order lists every CPM exactly once, each after the CPMs that define its parents.", "quantifier": "all acyclic networks", "why_tests_cant": "all DAGs", "anchors": ["BNS_JT/operation.py:get_sample_order", "BNS_JT/operation.py:get_prod_idx"]}
{"id": "C44", "title": "Sampling follows the network's joint distribution", "statement": "A sample drawn by mcs_product has positive joint probability and its recorded weight is the joint probability of the drawn states.", "quantifier": "all networks and all random outcomes", "why_tests_cant": "all random outcomes; state 0 of a parent and listing order are special-cased", "anchors": ["BNS_JT/operation.py:single_sample", "BNS_JT/operation.py:mcs_product", "BNS_JT/operation.py:get_sample_order"]}
{"id": "C45", "title": "Max/min system CPMs encode max and min", "statement": "sys_max_val (sys_min_val) returns a CPM in which every assignment of the parents matches exactly one row, whose system state denotes the maximum (minimum) of the parents' values.", "quantifier": "all lists of variables with distinct numeric values", "why_tests_cant": "all value ladders", "anchors": ["BNS_JT/operation.py:sys_max_val", "BNS_JT/operation.py:sys_min_val"]}
{"id": "C46", "title": "System-times-components product carries exact row probabilities", "statement": "prod_Msys_and_Mcomps multiplies each system row by the probability that each listed component falls in the (composite) state of that row, moving those components to the child side; other columns are unchanged.", "quantifier": "all system CPMs and single-child component CPMs", "why_tests_cant": "all matrices", "anchors": ["BNS_JT/operation.py:prod_Msys_and_Mcomps"]}
{"id": "C47", "title": "max_flow's survival rule is valid", "statement": "When max_flow reports 's', every component vector that dominates the reported minimal states also supports the target flow.", "quantifier": "all networks, capacities and component vectors", "why_tests_cant": "all dominating vectors", "anchors": ["BNS_JT/operation.py:max_flow"]}
{"id": "C48", "title": "sf_min_path's survival rule is valid", "statement": "When sf_min_path reports 's', every component vector that dominates the reported states (components on the path) also gives 's', for both the travel-time and the connectivity form; and the system is monotone.", "quantifier": "all networks and component vectors", "why_tests_cant": "all dominating vectors", "anchors": ["BNS_JT/trans.py:sf_min_path", "BNS_JT/trans.py:get_connectivity_given_comps", "BNS_JT/trans.py:get_time_and_path_given_comps", "BNS_JT/trans.py:update_G_given_comps_st"]}
{"id": "C49", "title": "sys_fun_pipes' survival rule is valid", "statement": "When sys_fun_pipes reports 's', every component vector dominating the reported states admits at least the threshold flow.", "quantifier": "all pipe systems and component vectors", "why_tests_cant": "all dominating vectors", "anchors": ["BNS_JT/pipes_sys.py:sys_fun_pipes", "BNS_JT/pipes_sys.py:run_pipes_fun", "BNS_JT/pipes_sys.py:do_capacity"]}
{"id": "C50", "title": "Sample-based estimates are probabilities", "statement": "get_prob_and_cov (method 'MLE') with unit weights returns an estimate between 0 and 1 for every number of sample rounds.", "quantifier": "all sample matrices and all nsample_repeat values", "why_tests_cant": "aggregation over rounds", "anchors": ["BNS_JT/cpm.py:Cpm.get_prob_and_cov"]}
{"id": "C51", "title": "Monte Carlo on unknown branches stays in the unknown region and between the bounds", "statement": "mcs_unknown_* draws only component vectors inside an unspecified branch, and its estimate lies strictly between pf_low and pf_low plus the unknown probability.", "quantifier": "all branch lists and random outcomes", "why_tests_cant": "all random outcomes", "anchors": ["BNS_JT/branch.py:mcs_unknown_simple", "BNS_JT/branch.py:mcs_unknown_using_cpms"]}
{"id": "C52", "title": "Ratio estimate is a probability", "statement": "Every sampled ratio in get_rat_dist, hence the returned mean, lies in [0,1] for non-negative inputs.", "quantifier": "all non-negative inputs and samples", "why_tests_cant": "all random outcomes", "anchors": ["BNS_JT/utils.py:get_rat_dist"]}
{"id": "C53", "title": "Chunking loses nothing", "statement": "split(list, n) yields consecutive chunks of length at most n whose concatenation is the list; all_equal(xs) is true exactly when all elements are equal.", "quantifier": "all lists and chunk sizes", "why_tests_cant": "all lengths", "anchors": ["BNS_JT/branch.py:split", "BNS_JT/utils.py:all_equal"]}
{"id": "C54", "title": "CPM construction validates event matrices", "statement": "A CPM accepted by the constructor only contains state indices that denote a set of basic states of the corresponding variable, and has one probability per row.", "quantifier": "all constructor arguments", "why_tests_cant": "boundary of an index range that depends on n", "anchors": ["BNS_JT/cpm.py:Cpm.C", "BNS_JT/cpm.py:Cpm.p", "BNS_JT/cpm.py:Cpm.__init__"]}
{"id": "C55", "title": "Variable order helpers return the requested columns", "statement": "get_col_ind/get_col/get_means/get_var_idx/get_variables return, for each requested name in order, the column (index, data, mean or object) of that name, and reject duplicates or unknown names.", "quantifier": "all CPMs and name lists", "why_tests_cant": "all name orders", "anchors": ["BNS_JT/cpm.py:Cpm.get_col_ind", "BNS_JT/cpm.py:Cpm.get_col", "BNS_JT/cpm.py:Cpm.get_means", "BNS_JT/operation.py:get_variables", "BNS_JT/operation.py:get_var_idx"]}
{"id": "C56", "title": "Log-space product is the product", "statement": "get_prod(A,B) = sign(AB)*exp(log|A|+log|B|) equals A*B for all real numbers, including zeros and negatives.", "quantifier": "all real inputs", "why_tests_cant": "continuum of inputs", "anchors": ["BNS_JT/cpm.py:get_prod"]}
{"id": "C57", "title": "Conditional variable elimination equals variable elimination", "statement": "variable_elim_cond (and cal_Msys_by_cond_VE), which sums over conditioned copies of the network, gives the same distribution as eliminating everything at once.", "quantifier": "all networks, conditioning sets and orders", "why_tests_cant": "case split over all states of the conditioning variables", "anchors": ["BNS_JT/operation.py:variable_elim_cond", "BNS_JT/operation.py:cal_Msys_by_cond_VE", "BNS_JT/cpm.py:Cpm.merge"]}
{"id": "C58", "title": "Legacy path system function returns the fastest surviving path", "statement": "bnb_sys returns the state and time of the fastest path all of whose arcs are at the top state, and the 'no path' state otherwise, for every ordering of the input path list.", "quantifier": "all path lists in any order and all component vectors", "why_tests_cant": "order of the input list", "anchors": ["BNS_JT/bnb_fns.py:bnb_sys", "BNS_JT/bnb_fns.py:bnb_next_comp", "BNS_JT/bnb_fns.py:bnb_next_state"]}
{"id": "C59", "title": "Products join samples by number", "statement": "When two CPMs without a common child carry samples with the same sample numbers, Cpm.product returns for each number one sample that agrees with both operands' samples on all their variables, whose sampling probability and weight are the products of theirs, and leaves the product of the event matrices as it is without samples.", "quantifier": "every pair of well-formed CPMs with samples, every number and order of samples, whichever operand has more columns, weights recorded or not", "why_tests_cant": "the matching on sample numbers, the column reordering and the operand swap interact; tests use two samples in the same order", "anchors": ["BNS_JT/cpm.py:Cpm.product"]}
{"id": "C60", "title": "The reported reason for stopping is true, and the run stops at the first reason", "statement": "brc.run reports out_flag 'max_sf' only after max_sf evaluations, 'complete' only when no returned branch has an unknown label, 'max_nb' only when at least max_nb branches are returned, 'max_rules' only when at least max_rules rules are returned and 'pf_bnd' only when after the last evaluation the unknown probability was below pf_bnd_wr times the lower bound; and no evaluation is made once a limit has been reached.", "quantifier": "all configurations, system functions (coherent or not), rules and branches handed in", "why_tests_cant": "the flag depends on the whole history of the run; tests look at one run", "anchors": ["BNS_JT/brc.py:run", "BNS_JT/brc.py:update_monitor"]}
{"id": "C61", "title": "A BRC run can be continued from what an earlier run returned", "statement": "The branches and rules returned by run, whatever made it stop, may be handed to a further run with other limits and options (including active_decomp=False): all guarantees hold for the second run, and with a sufficient branch limit every bound it monitors is at least as good as every bound monitored by the first.", "quantifier": "all coherent systems, all component probabilities, all stopping reasons and options of the two runs", "why_tests_cant": "two composed runs over unbounded state, for every point of interruption", "anchors": ["BNS_JT/brc.py:run", "BNS_JT/brc.py:decomp_depth_first"]}
{"id": "C62", "title": "Travel-time distribution of a road network", "statement": "get_branches, model_given_od_scen and compute_prob together give, for every OD, the exact probability distribution of its travel time: the probability computed for a state is the probability that the fastest path all of whose arcs survive has that time (for the first state, that no path survives), whatever the elimination order.", "quantifier": "all networks, path lists, scenarios, ODs and elimination orders", "why_tests_cant": "couples five modules over all networks; the tests check one or two numbers on two networks", "anchors": ["BNS_JT/model.py:get_branches", "BNS_JT/model.py:model_given_od_scen", "BNS_JT/model.py:compute_prob"]}
{"id": "C63", "title": "Network reliability end to end", "statement": "Running the BRC algorithm with the wrapped sf_min_path as its system function gives bounds that contain, and on completion equal, the probability under independent components that the destination cannot be reached within the travel-time threshold (or, in the connectivity form, cannot be reached at all over components that have not failed).", "quantifier": "all networks, OD pairs, thresholds, component values and probabilities, all limits and options of run", "why_tests_cant": "composes graph search with an unbounded branching algorithm over all networks", "anchors": ["BNS_JT/trans.py:sys_fun_wrap", "BNS_JT/trans.py:sf_min_path", "BNS_JT/brc.py:run"]}
{"id": "C64", "title": "Flow reliability end to end", "statement": "Running the BRC algorithm with max_flow as its system function gives bounds that contain, and on completion equal, the probability under independent components that the network cannot send the target flow from the origin to the destination.", "quantifier": "all networks, OD pairs, targets, capacities and probabilities, all limits and options of run", "why_tests_cant": "composes maximum flow with an unbounded branching algorithm over all networks", "anchors": ["BNS_JT/operation.py:max_flow", "BNS_JT/brc.py:run"]}
{"id": "C65", "title": "Pipe-system reliability bounds are correct end to end", "statement": "run with sys_fun_pipes as system function monitors bounds that contain, and with a sufficient budget both equal, the probability that the threshold amount cannot be routed from the origins over the depots to the destinations.", "quantifier": "all pipe systems, component probabilities, thresholds and solver outcomes", "why_tests_cant": "all systems and all optimal points of the solver", "anchors": ["BNS_JT/pipes_sys.py:sys_fun_pipes", "BNS_JT/brc.py:run"]}
{"id": "C66", "title": "Conditional estimates are probabilities", "statement": "get_prob_and_cov_cond returns, for every number of sample rounds and every outcome of its random draws, an estimate and an interval within [0,1]; the lower end does not exceed the upper one.", "quantifier": "all sample matrices with positive weights, all pairs of events, all draws", "why_tests_cant": "aggregation over rounds and all random outcomes", "anchors": ["BNS_JT/cpm.py:Cpm.get_prob_and_cov_cond", "BNS_JT/utils.py:get_rat_dist"]}
{"id": "C67", "title": "Monte Carlo sampling of the unspecified branches estimates the failure probability without bias", "statement": "After brc.run, mcs_unknown_simple and mcs_unknown_using_cpms draw component vectors from a probability distribution: an unspecified branch in proportion to its probability, then each component's state with its probability inside the branch. The known failure probability plus the unspecified probability times the chance that a drawn vector fails equals the exact system failure probability.", "quantifier": "all coherent systems of two-state components, all component probabilities, all branches that run can return, all uniform random numbers", "why_tests_cant": "A test runs one seed and compares with a tolerance; a bias that depends on which branches are left over shows up as noise or not at all.", "anchors": ["BNS_JT/branch.py:751-860 mcs_unknown_using_cpms", "BNS_JT/branch.py:862-941 mcs_unknown_simple", "BNS_JT/brc.py:17-123 run"]}
{"id": "C68", "title": "Plain Monte Carlo simulation of independent components", "statement": "run_MCS_indep_comps draws every component independently from the given probabilities. For a target between zero and one it stops at the first sample that fails, is at least the sixth failure, and meets the target; it then returns the fraction of failing samples among all samples drawn and the coefficient of variation sqrt((1-pf)/(number of failures)). It returns for every system whose failures keep occurring. A target of one or more and probabilities that do not add up to one are refused.", "quantifier": "for all components with any number of states, probabilities, system functions, targets, and all outcomes of the random number generator", "why_tests_cant": "The result is random; a test with a seed sees one sequence of samples. The statement is about every sequence, including those in which failures are rare, where the function raises an exception after 20000 samples without a failure.", "anchors": ["BNS_JT/brc.py:497-523"]}
{"id": "C69", "title": "Rejection sampling adds samples of the unresolved component vectors", "statement": "rejection_sampling_sys draws component vectors from the CPMs, rejects those already covered by the rows of the system's CPM, evaluates the system on the others until the requested number of samples or coefficient of variation is reached, and returns the CPMs with these samples. (False: no call returns a sample.)", "quantifier": "for all dictionaries of CPMs, system names, system functions, targets and random outcomes", "why_tests_cant": "The only test of the function is skipped. That no input makes it work, whatever the random numbers, needs an argument about all inputs.", "anchors": ["BNS_JT/operation.py:257-402"]}
{"id": "C70", "title": "The distribution of a system event by conditioning", "statement": "cal_Msys_by_cond_VE(cpms, varis, cond_names, ve_order, sys_name) returns the joint distribution of the system event and of the components left out of ve_order: each probability is the sum, over all states of the conditioning variables and of the relevant variables in ve_order, of the product of the probabilities of the network. (Partly false: two conditioning variables or a shared eliminated parent raise; a conditioning variable that is also a parent of the system, a component depending on another, and a kept component with an eliminated parent give wrong results.)", "quantifier": "for all networks, systems, conditioning variables and elimination orders", "why_tests_cant": "The tests evaluate the function on one hazard and two components and compare a few numbers; they do not try networks in which a variable plays two roles, where the result is silently wrong.", "anchors": ["BNS_JT/operation.py:699-751", "BNS_JT/operation.py:562-654"]}
{"id": "C71", "title": "All routes of a network, and the travel time from a model file", "statement": "get_all_paths_and_times(ODs, G) lists for each origin and destination every route without repeated nodes, by the labels of its edges and its total weight; the least weight listed among the routes whose arcs survive is the least weight of any surviving route. From a model file, setup_model yields for every OD and scenario CPMs from which the probability of each travel time is that of the fastest surviving route taking that time. (Partly false: an OD without a route raises KeyError, a multigraph raises KeyError, and see C62 for several ODs and more than five paths.)", "quantifier": "for all graphs, lists of ODs, weights, scenarios and elimination orders", "why_tests_cant": "The tests list the paths of one small network and compare a few probabilities; that no route is missed and that the probabilities of all travel times are right needs an argument over all graphs and states.", "anchors": ["BNS_JT/trans.py:251-269", "BNS_JT/model.py:9-30"]}
{"id": "C72", "title": "The graph read from a model file", "statement": "read_model_from_json returns a graph that has a node for every component and every end of a connection and an edge for every connection, with its name, ends and weight, directed or not and with or without parallel edges as graph_type says; any other graph_type is refused. (Partly false: in a graph that is not a multigraph, only the last of several connections between the same nodes is kept, without a message.)", "quantifier": "for all component lists, connection lists and graph types", "why_tests_cant": "The test files have no parallel connections; which connections survive depends on the whole list and its order.", "anchors": ["BNS_JT/config.py:88-131"]}
{"id": "C73", "title": "The branch and bound that returns its branches", "statement": "branch_and_bound_org(bstars, path_time_idx, arc_cond) terminates and returns decided branches that partition the given ones, each labelled with the system state of all its vectors; it agrees with branch_and_bound. get_arcs_given_bstar_nobreak returns the same arcs as get_arcs_given_bstar. (Partly false: a given branch that is already decided with no path left makes the call raise, or corrupts the result when it comes after another branch; without an open path the arcs function raises.)", "quantifier": "for all arc sets, path tables and lists of disjoint branches", "why_tests_cant": "The tests start from one undecided branch and compare four branches; each round overwrites the work list for every branch in turn, so that termination and the partition are not visible from one run.", "anchors": ["BNS_JT/branch.py:647-721", "BNS_JT/branch.py:580-590"]}
{"id": "C74", "title": "Event matrices of a delayed road network", "statement": "get_branches_by_od(cfg) returns for every origin and destination an event matrix in which every vector of connection states is covered by exactly one row; a failure row covers only vectors for which no route is within twice the shortest intact travel time, a survival row only vectors for which some route is, and with a sufficient branch limit no row is unknown. Used as the CPM of the travel time it gives (bounds on) the probability of being late. (Partly false: multigraphs, more than six states and intact travel time zero.)", "quantifier": "for all model files, scenarios, sets of origins and destinations and branch limits", "why_tests_cant": "The demo runs one network with one pair; no test checks the rows against the routes, and the number of vectors is exponential in the number of connections.", "anchors": ["BNS_JT/model.py:32-60"]}
{"id": "C75", "title": "Model files and reading them back", "statement": "create_model_json_for_tranportation_network and create_model_json_for_graph_network write a file that lists every arc with its ends and its travel time, the straight length over the speed (weight 1 for the graph network), every node with its position and every origin and destination; read_model_from_json of that file gives the network that was described. No drive over the network is faster than the straight line at the greatest speed. A missing coordinate or speed raises. (Partly false: node names that are numbers give a graph in which the nodes of the component list are not those of the connections; of two arcs between the same nodes only the last is kept.)", "quantifier": "for all arc, coordinate, speed and OD dictionaries, all drives", "why_tests_cant": "The round trip depends on how names survive JSON and on parallel arcs, and the bound on travel times ranges over all drives; tests write one network.", "anchors": ["BNS_JT/trans.py:303-324", "BNS_JT/trans.py:368-470", "BNS_JT/config.py:88-131"]}
{"id": "C76", "title": "Scenario files", "statement": "create_scenario_json_for_tranportation_network gives every arc the probability of failure of its type at its observation and the complement, two numbers from 0 to 1 with sum 1, and raises for missing data. dict_to_json writes all scenarios of all components with the given probabilities. (Partly false for dict_to_json: scenarios beyond those of the first component are left out, and probabilities are rounded, so that a small positive probability becomes 0.)", "quantifier": "for all dictionaries, distribution functions and numbers of scenarios", "why_tests_cant": "A test compares a few rounded values; truncation and rounding to zero need inputs of unequal length and very reliable components.", "anchors": ["BNS_JT/trans.py:495-527", "BNS_JT/config.py:156-182"]}
{"id": "C77", "title": "Tables to records", "statement": "convert_csv_to_json(df, template) returns for every label of the table the template with the entries of the (last) row of that label, and does not change what later calls with the same template return. (Partly false: the template is changed, so that values of the last row of one table appear in the records of another table without that column.)", "quantifier": "for all tables and templates", "why_tests_cant": "The effect on the template shows only in a later call with other columns; tests make one call.", "anchors": ["BNS_JT/config.py:143-153"]}
{"id": "C78", "title": "System state together with component states", "statement": "Take the branches of run, make the system CPM with get_csys and put one CPM per component next to it. Eliminating some components (in any order) gives a CPM that answers get_prob([sys, x1, ..., xr], [j, i1, ..., ir]) for kept components with the probability that the component vector lies in a branch of system state j and has these states: bounds for P(system fails and xk = ik) after any run, exact values after a complete one. prod_Msys_and_Mcomps on the same CPMs gives the same answers. (The last part is false: the product keeps the event matrix, answers for the system state alone are the same, but asked for components as well it counts every branch with some such vector as a whole, so its answer can be too large; it is right when the branches fix these components.)", "quantifier": "for all multi-state systems, distributions, runs, subsets of kept components, listings and elimination orders", "why_tests_cant": "The repository's test of the joint query on the product carries 'FIXME: expected value required' and compares with the program's own output, on a network where no failure branch leaves that component open.", "anchors": ["BNS_JT/operation.py:562-660", "BNS_JT/brc.py:256-267", "BNS_JT/cpm.py:522-570", "BNS_JT/tests/test_operation.py:569-605", "BNS_JT/demos/routine/batch.py:100-125"]}
{"id": "C79", "title": "Variables edited after construction, and as keys", "statement": "A Variable behaves like one constructed now with its name, values and B_flag: right after construction with a list of its own, and after update_B() whatever was done before, until its attributes are set or its list of values is edited; work on other variables does not matter. update_B(B) stores the given table. A dictionary keyed by variables, by their names or both is a dictionary keyed by names. (Partly false without update_B: setting values leaves the old table, so states name the wrong sets; and variables constructed without values share one list.)", "quantifier": "for all sequences of constructions, attribute settings, list edits and update_B calls, and all dictionaries", "why_tests_cant": "Aliasing and stale tables show only after particular sequences of operations on several objects; tests construct each variable once.", "anchors": ["BNS_JT/variable.py:76-119", "BNS_JT/variable.py:272-311"]}
{"id": "C80", "title": "Branch objects", "statement": "Branch.from_dict(b.to_dict()) equals b for every branch; from_dict raises KeyError if an entry is missing; b == c just when they agree in every component state, both labels and the probability, whatever the order of the dictionaries; approx_prob stores the probability that the component vector lies between the two vectors, or raises KeyError just when a state or probability is missing. The constructor accepts only branches between two vectors of the same components. (The last part is false: only the numbers of entries are compared.)", "quantifier": "for all branches, dictionaries and distributions", "why_tests_cant": "Quantifies over all branches and orders of dictionaries; tests compare two fixed branches.", "anchors": ["BNS_JT/branch.py:8-72", "BNS_JT/branch.py:252-257"]}
{"id": "C81", "title": "Configuration files", "statement": "Config(file) succeeds for a file with the required entries whose model file can be read and whose scenario file, if one is named, has damage states; the object then holds exactly the model and scenarios of these files, the number of damage states, and the other entries in order, the output directory exists afterwards and no file is changed; it succeeds in no other case. A missing required entry, model file or scenario file is reported by an assertion, and the scenario is optional. (Partly false: a missing scenario file gives NameError from the message itself, and a file without the entry SCENARIO_NAME gives KeyError.) The event matrices made from the object are those of the network in the files.", "quantifier": "for all configuration files, model files, scenario files and directories", "why_tests_cant": "Failure paths depend on which files exist and on optional entries; the tests read one complete configuration.", "anchors": ["BNS_JT/config.py:42-140", "BNS_JT/demos/EMA/config.json", "BNS_JT/demos/SF/batch.py:60-75"]}
{"id": "C82", "title": "Tables and side effects of run", "statement": "After run with max_sf > 0 on a coherent system: sys_res has one row per evaluation with what the system function returned for a component vector; every list of monitor has one entry more than there were evaluations, entry i of each belongs to no_sf[i] = i, at every entry pf_low <= P(failure) <= pf_up, pr_bu is their difference, the branch and rule counts add up, and the last rule lengths are those of the returned failure rules; plot_monitoring works on it. The dictionary of rules handed in is, whatever the call does (also when the system function raises in the middle), afterwards a valid rule set deciding all that it decided before, and the one returned; branches handed in keep boxes, probabilities and known labels, and stay fit for continuing. max_bu is the largest number of unknown branches, the arguments are not changed, and plot_monitoring works after any run. (The last sentence is false in all three parts.)", "quantifier": "for all coherent multi-state systems, distributions, options, rules and branches handed in, and for every point at which the system function may raise", "why_tests_cant": "Alignment of the lists and the state after an exception depend on the whole execution; tests look at single entries of a normal run.", "anchors": ["BNS_JT/brc.py:17-253", "BNS_JT/brc.py:304-372", "BNS_JT/brc.py:389-444"]}
{"id": "C83", "title": "Distance from a point to a road", "statement": "shortest_distance(line_pt1, line_pt2, pt) is the distance from the point to the nearest point of the straight road between the two ends, whichever end is called the origin.", "quantifier": "all roads and all points", "why_tests_cant": "infinitely many positions; the foot of the perpendicular may lie before, on or behind the road", "anchors": ["BNS_JT/demos/pf_map/batch.py:shortest_distance"]}
{"id": "C84", "title": "Ground motion prediction", "statement": "gmpe_cam03 accepts exactly the magnitudes 6 to 8.5; the predicted ground motion decreases with distance over the whole range and grows with the magnitude at every distance; the epistemic deviation is the one of the published table at the given magnitude and distance; the aleatory deviation depends on the magnitude below 7.16.", "quantifier": "all magnitudes and distances", "why_tests_cant": "a continuum of distances with three regimes that must fit together; the orientation of a table cannot be seen from one value", "anchors": ["BNS_JT/demos/pf_map/batch.py:gmpe_cam03"]}
{"id": "C85", "title": "Failure probability and covariance of roads", "statement": "For every network and earthquake, cal_edge_dist_output gives each road the probability that its log capacity minus the log ground motion at its nearest point is negative, and the covariance matrix of these differences: symmetric, positive semidefinite, with the variances used for the probabilities on the diagonal. It returns for every road network whose nodes and types are known.", "quantifier": "all networks, fragility types and earthquakes", "why_tests_cant": "positive semidefiniteness is a statement about all weights; all networks", "anchors": ["BNS_JT/demos/pf_map/batch.py:cal_edge_dist_output", "BNS_JT/demos/pf_map/batch.py:cal_edge_dist"]}
{"id": "C86", "title": "Flow demo: directed and bidirectional edges", "statement": "max_flow_fun(comps_st, od_pair, edges, varis, target_flow, is_bi_dir) returns the largest amount up to the target that the components can send from the origin to the destination, carrying forwards only if the edges have one direction; the state is survival exactly if the target can be sent; the rule is satisfied by the evaluated component vector and every vector that satisfies it can send the target. With it as system function the bounds of run contain the probability that the target cannot be sent.", "quantifier": "all networks, capacities, targets and component vectors, both kinds of edges, any maximum flow that networkx may compute", "why_tests_cant": "all networks; several maximum flows exist and the rule depends on which one the library returns", "anchors": ["BNS_JT/demos/max_flow/batch.py:get_max_flow", "BNS_JT/demos/max_flow/batch.py:max_flow_fun"]}
{"id": "C87", "title": "Routine demo: connectivity", "statement": "conn(comps_st, od_pair, arcs) returns without exception for different origin and destination; the state is survival exactly if working arcs connect them; the rule then names arcs with state 1, no more than any connection by working arcs has, applies to the evaluated component vector, and every vector that satisfies it connects the nodes; the value is the largest amount that unit arcs can send; on failure there is no rule. With it as system function the bounds of run contain, and with a sufficient budget equal, the probability that the nodes are not connected.", "quantifier": "all networks, origins, destinations and component vectors; any maximum flow and any shortest path that networkx may compute", "why_tests_cant": "all networks; several shortest paths exist and the rule depends on which one the library returns", "anchors": ["BNS_JT/demos/routine/batch.py:conn"]}
{"id": "C88", "title": "Samples through the product of a system CPM and its component CPMs", "statement": "When the system CPM and the component CPMs given to prod_Msys_and_Mcomps carry samples of the same realisations, the result has the event matrix it has without samples, and one sample per realisation number, which gives every variable of the result the state of that realisation and whose sampling probability and weight are the products of those of the system and of the components among its parents.", "quantifier": "all systems, components conditioned on at most one variable, realisations, sample numbers and orders of samples", "why_tests_cant": "all scopes and orders of samples; joining by sample number goes through repeated products whose operand order depends on the sizes of the scopes", "anchors": ["BNS_JT/operation.py:prod_Msys_and_Mcomps", "BNS_JT/cpm.py:Cpm.product", "BNS_JT/cpm.py:product"]}
{"id": "C89", "title": "Power-cut days of houses", "statement": "The link sets of a pole are exactly the initial pieces of the paths up to that pole, behind the substation. For up to five structures and distinct names, quant_cpms builds CPMs whose elimination, in any order, gives the joint distribution of the power-cut days of any selection of houses: structures fail independently given the hazard, damaged structures are repaired one a day in the order of priority, a link works when all its structures do and a house when one of its links does.", "quantifier": "all hazards, failure probabilities, repair orders, link sets, selections of houses, elimination orders and numbers of days", "why_tests_cant": "the distribution sums over all combinations of damage; the test data fix one network, and no test covers the demo", "anchors": ["BNS_JT/demos/power_house/batch.py:get_lins", "BNS_JT/demos/power_house/batch.py:quant_cpms", "BNS_JT/operation.py:sys_max_val", "BNS_JT/operation.py:sys_min_val"]}
{"id": "C90", "title": "CPMs edited after construction", "statement": "The constructor of a CPM accepts exactly the arguments that fit together. A CPM stays consistent under any sequence of assignments to its fields, accepted or refused. Replacing the table (C, then p) or the samples (Cs, then q, ps, sample_idx) is accepted just when the new one fits, and has the effect of building the CPM anew.", "quantifier": "all CPMs, all sequences of assignments of any length, all arrays with one or two dimensions", "why_tests_cant": "the checks depend on the state at the time of each assignment, and the sequences are unbounded; the tests assign single fields", "anchors": ["BNS_JT/cpm.py:Cpm.__init__", "BNS_JT/cpm.py:Cpm.C", "BNS_JT/cpm.py:Cpm.p", "BNS_JT/cpm.py:Cpm.variables", "BNS_JT/cpm.py:Cpm.Cs", "BNS_JT/cpm.py:Cpm.q"]}
{"id": "C91", "title": "A component given the state of the system", "statement": "The reliability block diagram demo prints the probability that a block works given that the system does, whatever the diagram. The children of the CPM that variable elimination returns come in the order of their names, whatever the order of elimination.", "quantifier": "all diagrams, all blocks, all limits on the numbers of evaluations and branches; all networks and orders of elimination for the columns", "why_tests_cant": "the answer depends on the position of columns, hence on names, and on whether the run decided all branches; the demo runs one diagram with one set of names", "anchors": ["BNS_JT/demos/rbd/batch.py:main", "BNS_JT/operation.py:variable_elim", "BNS_JT/cpm.py:Cpm.product", "BNS_JT/brc.py:get_csys"]}
{"id": "C92", "title": "The map of the probabilities that nodes are cut off", "statement": "For each node of the road network, process_node returns an upper bound of the probability that no destination can be reached within the allowed multiple of the travel time in the intact network, with a CPM whose rows tell this for each vector of road states; with large enough limits the probability is exact. main writes one line for each node except the destinations and the epicentre, in the order of the nodes, whatever the order in which the processes finish.", "quantifier": "all road networks, travel times, destinations, delays, probabilities, limits, and all orders of completion", "why_tests_cant": "all networks; nondeterministic order of completion; limits that are hit only on large networks", "anchors": ["BNS_JT/demos/pf_map/batch.py:process_node", "BNS_JT/demos/pf_map/batch.py:mcs_unknown", "BNS_JT/demos/pf_map/batch.py:main", "BNS_JT/trans.py:get_time_and_path_multi_dest", "BNS_JT/brc.py:run", "BNS_JT/brc.py:get_csys"]}
{"id": "C93", "title": "Failure probabilities of nodes with dependent roads", "statement": "cal_prob_dep gives each row of the CPM of a node the probability that the roads are in the states of the row, for jointly normal margins with the means and covariances of cal_edge_dist_output, and returns the failure probability of the node; eval_pfs_dep and update_pfs write a line for each node, whatever the order in which the processes finish.", "quantifier": "all road networks, means, positive semidefinite covariances, CPMs, and all orders of completion", "why_tests_cant": "multivariate normal probabilities of all rows and covariances; no value to compare with short of integration; the error is invisible for independent roads and for rows without opposite states", "anchors": ["BNS_JT/demos/pf_map/post.py:cal_prob_dep", "BNS_JT/demos/pf_map/post.py:eval_pfs_dep", "BNS_JT/demos/pf_map/post.py:update_pf1", "BNS_JT/demos/pf_map/post.py:update_pfs"]}
{"id": "C94", "title": "The map of the power network", "statement": "get_pole_conn connects every pole from what feeds it (the substation, or the house of the pole before it) to its own house, whatever the order in which the set of poles is iterated over; add_pole_loc puts it half way; plot_result draws houses, structures and connections at their locations; main returns the distributions and draws the map.", "quantifier": "all paths, houses, locations, and all iteration orders of the set of poles", "why_tests_cant": "the iteration order of a set of strings differs between runs of the interpreter; all networks", "anchors": ["BNS_JT/demos/power_house/batch.py:get_pole_conn", "BNS_JT/demos/power_house/batch.py:add_pole_loc", "BNS_JT/demos/power_house/batch.py:plot_result", "BNS_JT/demos/power_house/batch.py:main"]}
{"id": "C95", "title": "The flow demo from the configuration file to the stored results", "statement": "main(cfg, od) stores, under the key of the pair and under no other, variables, rules and monitored bounds for the network of the model file: every row brackets the probability that the network cannot send the target of that pair, the rules are right, MAX_SYS_FUN limits the evaluations, and without that limit and with enough branches the last row is as narrow as SYS_BND_WIDTH_RATIO asks. run_all stores the results of every pair. run_MCS stores the result of the simulation. An unknown pair or a missing entry is a KeyError.", "quantifier": "all configuration and model files, networks without parallel connections, pairs, targets, limits, stored results", "why_tests_cant": "all networks and limits; the maximum flow is only known by its contract; the shipped network has 3^21 component vectors", "anchors": ["BNS_JT/demos/max_flow/batch.py:main", "BNS_JT/demos/max_flow/batch.py:run_all", "BNS_JT/demos/max_flow/batch.py:run_MCS", "BNS_JT/demos/max_flow/batch.py:config_custom", "BNS_JT/demos/max_flow/batch.py:init_prob", "BNS_JT/demos/max_flow/batch.py:read_model_from_json_custom"]}
{"id": "C96", "title": "The pf_map demo from the files to the stored results", "statement": "main(file_cfg, eq_name) writes result.txt in the output directory: a line for every node that is neither the epicentre nor an origin, in the order of the model file, with bounds of the probability that the node does not reach an origin in the allowed time when the roads fail independently with the probabilities of the ground motion model for that earthquake; the bounds are as narrow as SYS_BND_WIDTH_RATIO asks. run_MCS(file_cfg, eq_name, node) stores the estimate of a simulation of the same system that stops at the coefficient of variation MCS_COV. batch_comp stores one result for each node and earthquake. A missing entry or an unknown earthquake is a KeyError.", "quantifier": "all configuration and model files, networks without parallel roads, earthquakes, nodes, orders of completion, limits, random numbers, contents of the output directories", "why_tests_cant": "all networks, completion orders and random numbers; the shortest path and the numerical functions are only known by their contracts", "anchors": ["BNS_JT/demos/pf_map/batch.py:main", "BNS_JT/demos/pf_map/batch.py:run_MCS", "BNS_JT/demos/pf_map/batch.py:config_custom", "BNS_JT/demos/pf_map/batch.py:read_model_from_json_custom", "BNS_JT/demos/pf_map/batch.py:cal_edge_dist", "BNS_JT/demos/pf_map/batch.py:run_single", "BNS_JT/demos/pf_map/batch.py:batch_comp"]}
{"id": "C97", "title": "The connectivity demos from the files to what they print", "statement": "main of the routine demo prints the probabilities that no way, and that a way, over working connections leads from the origin to the destination of pair od1; main of the n3e3 demo prints, and main of the SF demo computes, an event matrix with exactly one row for every vector of connection states, which says failure only where no such way exists, survival only where one does, and unknown only if the limit of evaluations or of branches is too small. A missing pair, probability or entry is a KeyError; a limit of no evaluations or one that is not a number a TypeError.", "quantifier": "all configuration, model and scenario files, the four types of graphs, numbers of connections, probabilities, limits", "why_tests_cant": "all networks and probabilities; the shortest path is only known by its contract", "anchors": ["BNS_JT/demos/routine/batch.py:main", "BNS_JT/demos/n3e3/batch.py:main", "BNS_JT/demos/SF/batch.py:main"]}
{"id": "C98", "title": "The EMA demo from the files to the stored results", "statement": "main(key, max_sf) of the EMA demo stores, for the origin-destination pair key: the variables of the connections and of the system; one CPM per connection with the drawn probabilities and one CPM of the system whose event matrix has exactly one row for every vector of connection states, saying failure only where no route takes at most twice the shortest intact travel time, survival only where one does, and unknown only if a limit is too small; branches that partition the vectors; valid rules; and a monitor all of whose rows bound the probability that no route is that short. The second run evaluates nothing that the first has evaluated and, in small networks, its bounds are never worse. Eliminating connections from the stored CPMs bounds the probability of failure together with given states of other connections. A missing pair, scenario or connection is a KeyError, a missing scenario file an AttributeError, fewer than two travel times an AssertionError.", "quantifier": "all configuration, model and scenario files, pairs, draws of the probabilities, limits of evaluations, orders of elimination", "why_tests_cant": "all networks, all draws; the shortest path is only known by its contract; the demo has no test", "anchors": ["BNS_JT/demos/EMA/batch.py:main"]}
{"id": "C99", "title": "Queries by names and by labels", "statement": "get_prob, get_prob_bnd, condition, sum and the module-level iscompatible take a list of names for the variables of the CPM with these names. With a label for each variable, get_prob returns the probability that each named variable is described by its label, and condition keeps exactly the part of the distribution where it is. Rejected are: an unknown name (IndexError; AssertionError in iscompatible), a label that describes no state of its variable (AssertionError in get_prob, ValueError in condition). Labels and numbers in one list are an AssertionError in get_prob; in condition a ValueError when a label comes first (unless the number is one of the values) and a TypeError when a number comes first and a row is left; iscompatible accepts them. condition ignores labels beyond the last variable. A label that describes two states stands for the first.", "quantifier": "all well-formed CPMs, lists of names or variables, lists of labels and numbers", "why_tests_cant": "all CPMs and queries; mixed lists behave differently in each method", "anchors": ["BNS_JT/cpm.py:Cpm.get_prob", "BNS_JT/cpm.py:Cpm.condition", "BNS_JT/cpm.py:iscompatible", "BNS_JT/cpm.py:Cpm.get_variables"]}
{"id": "C100", "title": "Writing the files of the EMA, SF and road demos and using them", "statement": "create_model of the EMA and SF demos writes, for tables of nodes and arcs, a model file with the nodes, the arcs e1, e2, ... with the travel times along the straight line at speed 100, and the pair od1 from n22 to n53, and a scenario file with ten times, twice and once these travel times; no other file changes. A missing table is an error, an arc with an unknown end a KeyError, and nothing is written. The files are as main needs them: main gives the results of C98, with bounds that agree with the meaning of the delays (no failure unless some connection is in the worst state, failure if all are). create_model and main of the road demo give the event matrix of its six roads. main() with its default key works after create_model.", "quantifier": "all tables, square root functions that are positive for positive numbers, files, configuration entries, limits, drawn sets", "why_tests_cant": "all tables and disk contents; composition of two commands through files", "anchors": ["BNS_JT/demos/EMA/batch.py:create_model", "BNS_JT/demos/SF/batch.py:create_model", "BNS_JT/demos/road/batch.py:create_model", "BNS_JT/demos/road/batch.py:main", "BNS_JT/trans.py:create_scenario_json_for_trans_network"]}
{"id": "C101", "title": "The routine and rbd demos from the written model file to the printed probabilities", "statement": "setup of the routine demo and create_model of the rbd demo write the network of the demo to the model file, whatever was there before, and change no other file. main of the routine demo then prints the failure probability 0.002236284 and the survival probability 0.997763716, which are the probabilities that no way / a way over working connections leads from n1 to n4. main of the rbd demo then prints 100000/111081, the probability that block x1 works given that the system does. main without the model file is an AssertionError; a limit of branches that is not a positive number is a TypeError in the rbd demo.", "quantifier": "all directories, all configuration files naming the model file, all path libraries meeting the contract, all choices of distinct names, all limits (rbd: at least 512)", "why_tests_cant": "any path library and any file contents beforehand; the numbers are compared with the probabilities of the events themselves and not with a recorded output", "anchors": ["BNS_JT/demos/routine/batch.py:setup", "BNS_JT/demos/routine/batch.py:main", "BNS_JT/demos/rbd/batch.py:create_model", "BNS_JT/demos/rbd/batch.py:main", "BNS_JT/trans.py:create_model_json_for_graph_network"]}
{"id": "C102", "title": "The branch and rule search in floating-point arithmetic", "statement": "run computes with floats. Whatever the arithmetic does, run with surv_first returns, the returned branches partition the component vectors with right labels, the rules are valid, no vector is evaluated twice (with active_decomp) and 'complete' means that no branch is undecided. In double precision every monitored pair of bounds contains the failure probability up to (n + R + 3) / 2^52, n the number of branches and R the number of roundings per branch; a complete run with enough branches gives both bounds up to that error; a run that stops with 'pf_bnd' had bounds that close up to four times that error.", "quantifier": "all component lists, probabilities, coherent systems and system functions, limits, rules and branches handed in; all arithmetics (structure), all arithmetics meeting the accuracy contract (numbers)", "why_tests_cant": "the choice of branches depends on rounded numbers, so every run may take another path; the error bound is for any number of components, states and branches", "anchors": ["BNS_JT/brc.py:run", "BNS_JT/brc.py:update_monitor", "BNS_JT/brc.py:decomp_depth_first", "BNS_JT/brc.py:get_comp_st", "BNS_JT/branch.py:approx_prob_by_comps", "BNS_JT/branch.py:get_decomp_comp_using_probs"]}
{"id": "C103", "title": "Inference with CPMs in floating-point arithmetic", "statement": "product, sum, get_prob and variable_elim compute with floats. Whatever the arithmetic does, they raise the same exceptions as in exact arithmetic and give tables with the same variables and the same rows in the same order; only the probabilities differ. If every operation has a relative error of at most eps, the result of variable_elim is at every assignment the brute-force marginal of the tables meant, up to a factor between (1 - eps)^k and (1 + eps)^k, where k counts one per multiplication, one per row added up and the errors of the given tables; what get_prob then answers has one more per row. In double precision without underflow that is a relative error of at most k / 2^52. k is at most the number of tables times one more than their errors, plus, for every eliminated variable, the product of the numbers of rows of the tables. The interval of get_prob_bnd contains the true probability up to a tolerance of a few units of 2^-52 per row. get_prob_bnd keeps its bounds in order.", "quantifier": "all lists of CPMs without samples, all lists of variables to eliminate, all queries; all arithmetics (structure), all arithmetics with relative errors (numbers)", "why_tests_cant": "tests compare a few results with a tolerance; the bound is for any number of tables, rows and eliminated variables, and for any arithmetic", "anchors": ["BNS_JT/cpm.py:product", "BNS_JT/cpm.py:get_prod", "BNS_JT/cpm.py:sum", "BNS_JT/cpm.py:get_prob", "BNS_JT/cpm.py:get_prob_bnd", "BNS_JT/operation.py:variable_elim"]}
{"id": "C104", "title": "From run to the system probabilities in floating-point arithmetic", "statement": "Turn the branches of a run into the event matrix of the system node, build the CPMs from the stored (rounded) component probabilities, eliminate the components and ask get_prob for the system state, all with floats. Nothing raises, for every order of the CPMs and of the elimination. With N a number known from the numbers of states and the number of branches, the answers for failure and survival exceed the true probabilities at most by a factor (1 + eps)^N; after a complete run with enough branches they are the true probabilities up to (1 - eps)^N and (1 + eps)^N and the answer for the unknown state is exactly 0. With doubles without underflow the relative error is at most N / 2^52. The answers for failure and survival of a complete run add up to one.", "quantifier": "all coherent system functions, all runs in any arithmetic, all stored probabilities within a relative error of distributions, all orders of CPMs and of eliminated components", "why_tests_cant": "tests compare one network with a tolerance of 1e-4; the bound is for any number of components, states and branches and any rounding", "anchors": ["BNS_JT/brc.py:run", "BNS_JT/brc.py:get_csys", "BNS_JT/cpm.py:Cpm", "BNS_JT/operation.py:variable_elim", "BNS_JT/cpm.py:get_prob"]}
{"id": "C105", "title": "Updating a network and the reliability of a system with observations", "statement": "operation.condition applied to all CPMs of a network (observed variables by name or as objects, states by number or label) succeeds, and the joint distribution of what it returns is the one of the network where the observed states hold and zero elsewhere. If some rows agree with the observations, variable_elim of all but some variables then gives a table whose probabilities add up to the probability of the observations and whose get_prob is the probability of the asked state together with the observations, so that the quotient is the conditional probability (Bayes rule). With the branches of a run, CPMs of the components and of observations of components, the quotient for failure and one minus the quotient for survival bound the failure probability given the observations, for all observations from the same run, and agree with it if no branch is unknown. A name in no CPM is an AssertionError, a label without state a ValueError. If no row agrees with an observation, variable_elim can raise UnboundLocalError.", "quantifier": "all networks and observed states (basic or composite), all orders of elimination; all coherent systems, all runs, all observation models and observed states", "why_tests_cant": "test_inference2 compares one network, one observation vector and one elimination order with four digits", "anchors": ["BNS_JT/operation.py:condition", "BNS_JT/operation.py:get_variables", "BNS_JT/operation.py:variable_elim", "BNS_JT/cpm.py:condition", "BNS_JT/cpm.py:get_prob", "BNS_JT/brc.py:get_csys"]}
{"id": "C106", "title": "Updating with observations in floating-point arithmetic", "statement": "operation.condition does no arithmetic: on stored tables it raises what it raises on the tables meant, keeps the same rows and copies their probabilities. For tables stored with one rounding and double precision without underflow, eliminating all but some variables after conditioning on observations with positive probability and dividing the answer of get_prob by the sum of the remaining probabilities gives the conditional probability, with a relative error of at most (3 N + 1) 2^-52, where N = 2 n + (e + 1) r for n tables, e eliminated variables and r the product of the numbers of rows. With the branches of any run and noisy observations of components, the quotient for failure and one minus the quotient for survival bound the failure probability given the observations, up to (3 N + 2) 2^-52. With underflow the denominator can be 0 although the observations have a positive probability.", "quantifier": "all networks, stored tables, observed states, orders of elimination and queries with N up to 2^48; all coherent systems, runs and observation models", "why_tests_cant": "tests compare a few digits for one observation; the error bound is for all networks and known before computing", "anchors": ["BNS_JT/operation.py:condition", "BNS_JT/operation.py:variable_elim", "BNS_JT/cpm.py:condition", "BNS_JT/cpm.py:get_prob", "BNS_JT/cpm.py:product", "BNS_JT/cpm.py:sum"]}
{"id": "C107", "title": "Eliminating variables case by case in floating-point arithmetic", "statement": "variable_elim_cond and Cpm.merge with rounded products and sums raise what they raise with exact ones, and give tables with the same variables and rows in the same order. For tables stored with one rounding and double precision without underflow, variable_elim_cond raises ValueError exactly when the table of the first conditioning row lacks a row that a later one has, and otherwise gives every entry of the marginal distribution with a relative error of at most N 2^-52, where N is a number that can be read off the numbers of tables, variables and rows given.", "quantifier": "all networks, stored tables, conditioning tables and variables eliminated, with N up to 2^52", "why_tests_cant": "tests compare a few digits of one network; the rounding errors of the loop over the conditioning rows add up, and the bound is for all networks and known before computing", "anchors": ["BNS_JT/operation.py:variable_elim_cond", "BNS_JT/cpm.py:merge"]}
{"id": "C108", "title": "The system distribution by conditioning in floating-point arithmetic", "statement": "cal_Msys_by_cond_VE and prod_Msys_and_Mcomps with rounded products and sums raise what they raise with exact ones, and give tables with the same variables and rows in the same order. For tables stored with one rounding and double precision without underflow, every probability returned by cal_Msys_by_cond_VE is the sum of the joint probabilities with a relative error of at most N 2^-52, where N can be read off the network: the number of tables, their columns, and the products of their numbers of rows.", "quantifier": "all networks whose system, components, conditioning variables and order meet the conditions of C70, all stored tables, with N up to 2^52", "why_tests_cant": "tests compare a few digits of one network; the rounding errors of products, sums and merges over all conditioning rows add up, and the bound is for all networks and known before computing", "anchors": ["BNS_JT/operation.py:cal_Msys_by_cond_VE", "BNS_JT/operation.py:prod_Msys_and_Mcomps"]}
{"id": "C109", "title": "Conditional probability bounds in floating-point arithmetic", "statement": "get_prob_bnd with a condition, computed with rounded sums, differences and quotients in double precision, returns an interval that contains the conditional probability of the event up to (6N+12) 2^-52 / b, for every completion of the partly known distribution, where b is the known probability of the condition and N the number of rows plus the roundings in the stored table; it does not divide by zero when (6N+12) 2^-52 <= b.", "quantifier": "all tables, all completions that sum to 1, all events and conditions with the event implying the condition, all stored tables", "why_tests_cant": "tests use conditions with probabilities far from the rounding error; the error grows as 1/b, and with a small b both bounds can leave the unit interval", "anchors": ["BNS_JT/cpm.py:Cpm.get_prob_bnd"]}
{"id": "C110", "title": "Using the rules and branches of a run for other component probabilities", "statement": "The rules returned by run can be handed to a run with other component probabilities: every monitored bound is valid for the new probabilities, no component vector is evaluated twice, and the rules of a complete run with a large enough branch limit give the new failure probability without calling the system function. The event matrix made from the branches does not depend on the component probabilities: with the CPMs of any other component distribution, variable elimination gives bounds on the failure probability under that distribution. Branches handed to run must not be decomposed further with other probabilities.", "quantifier": "all coherent systems, all two sets of component probabilities, all limits and options, all elimination orders, all rules and branches handed to the first run", "why_tests_cant": "no test runs the analysis with a second set of probabilities; branches carry stored probabilities, and nothing in the interface says which parts of a result depend on the probabilities", "anchors": ["BNS_JT/brc.py:run", "BNS_JT/brc.py:decomp_depth_first", "BNS_JT/brc.py:get_csys"]}
{"id": "C111", "title": "Using the rules of a run for another requirement", "statement": "The survival rules of a run for a stricter requirement and the failure rules of a run for a looser requirement may be handed to a run for a requirement in between: every monitored bound is valid for that requirement, and a component vector the earlier runs decided that way is not evaluated again. For travel time from origin to destination the requirement is the threshold: survival rules carry over to larger thresholds, failure rules to smaller ones. For flow networks and pipe systems it is the demand: survival rules carry over to smaller demands, failure rules to larger ones. Handing over all rules of a run for another requirement gives wrong probabilities.", "quantifier": "all coherent systems ordered by implication, all graphs with one edge between two nodes, all thresholds other than zero, all component probabilities, all limits and options, all rules and branches handed to the earlier runs", "why_tests_cant": "tests use one threshold each; which rules stay valid depends on the direction of the change, and run accepts any rules without checking them", "anchors": ["BNS_JT/brc.py:run", "BNS_JT/trans.py:sf_min_path", "BNS_JT/trans.py:sys_fun_wrap", "BNS_JT/operation.py:max_flow", "BNS_JT/pipes_sys.py:sys_fun_pipes"]}
{"id": "C112", "title": "Results for better components and easier requirements", "statement": "Making components better (each component is below every one of its states with at most the same probability) or the requirement easier never raises the failure probability, and the reported numbers respect this: no lower bound reported for the better system exceeds an upper bound reported for the worse one, and after complete runs with a large enough branch limit both reported numbers are in the right order. The two bounds of unfinished runs need not be in order one by one.", "quantifier": "all coherent systems, all numbers of components and states, all two sets of component probabilities in that order, all requirements ordered by implication, all limits and options, all rules and branches handed in", "why_tests_cant": "a comparison of two analyses over all systems and probabilities; tests run one analysis with one set of probabilities", "anchors": ["BNS_JT/brc.py:run", "BNS_JT/brc.py:decomp_depth_first", "BNS_JT/brc.py:get_comp_st"]}
{"id": "C113", "title": "Component probabilities that are not quite right", "statement": "If the component probabilities handed to run differ from the true ones, the reported bounds, widened by the distance between the two sets of probabilities (half the sum of the differences over the states, added over the components), contain the true failure probability. After a complete run with a large enough branch limit the reported number is off by at most that distance, and two complete analyses differ by at most the distance of their probabilities; this cannot be improved in general.", "quantifier": "all coherent systems, all numbers of components and states, all two sets of component probabilities, all limits and options, all rules and branches handed in", "why_tests_cant": "a statement about all pairs of probability sets; tests compare one result with one number", "anchors": ["BNS_JT/brc.py:run", "BNS_JT/brc.py:decomp_depth_first", "BNS_JT/brc.py:get_csys"]}
{"id": "C114", "title": "The order of the components, and components that do not matter", "statement": "The order in which the components are handed to run, further components the system function does not look at, and the limits and options do not change what is computed: the bounds of any two analyses of the same system overlap, and complete analyses with large enough branch limits report the same number. The bounds of unfinished runs may depend on the order.", "quantifier": "all coherent systems, all orders of the components, all further components with any distributions, all limits and options, all rules and branches handed in", "why_tests_cant": "tests use one order of the components; the decomposition and the choice of the next vector do depend on the order, so that only a proof over all orders shows that the result does not", "anchors": ["BNS_JT/brc.py:run", "BNS_JT/brc.py:decomp_depth_first", "BNS_JT/brc.py:get_comp_st"]}
{"id": "C115", "title": "A run knows the system only through the vectors it evaluates", "statement": "The result of run depends on the system function only through the states and minimum rules it returns at the vectors that were evaluated. The bounds hold for every coherent system that agrees with these answers. With a large enough branch limit and unless max_sf stopped the run, the last bounds are the failure probabilities of two such systems, so that they cannot be narrower. After a complete run there is only one such system, and its minimal surviving and maximal failing vectors are all among the rules; without rules handed in and minimum rules returned, the run has then evaluated every minimal surviving and every maximal failing vector. If the system is not coherent the bounds may be wrong although the run reports that it is complete.", "quantifier": "all system functions, coherent or not, all limits and options, all rules and branches handed in, all arithmetics for the first part", "why_tests_cant": "tests run fixed system functions; that no other evaluation enters the result, and that the bounds hold for all systems with the same answers, quantifies over all functions", "anchors": ["BNS_JT/brc.py:run", "BNS_JT/brc.py:run_sys_fn", "BNS_JT/brc.py:update_rule_set"]}

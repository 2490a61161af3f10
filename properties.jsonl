{"id": "C01", "title": "find_all_dir_paths enumerates exactly the directed paths", "statement": "For nodes s,t of a network, find_all_dir_paths(net,s,t) terminates and yields every directed path from s to t, only directed paths from s to t, and each exactly once; it raises KeyError exactly when s or t is not a node.", "quantifier": "every acyclic graph, every pair of node names", "why_tests_cant": "the number of graphs and of paths is unbounded; a test fixes a few graphs", "anchors": ["pycid/core/get_paths.py:find_all_dir_paths", "pycid/core/get_paths.py:_dfs_search_paths"]}
{"id": "C02", "title": "find_all_undir_paths enumerates exactly the simple undirected paths", "statement": "find_all_undir_paths(net,s,t) terminates and yields every repetition-free undirected path from s to t, only those, each exactly once, whatever order Python iterates the neighbour sets in; KeyError exactly when s or t is not a node.", "quantifier": "every acyclic graph, every pair of nodes, every set iteration order", "why_tests_cant": "set iteration order is randomised per process and graphs are unbounded", "anchors": ["pycid/core/get_paths.py:find_all_undir_paths", "pycid/core/get_paths.py:_dfs_search_paths"]}
{"id": "C03", "title": "the explicit-stack path search terminates and equals the recursive enumeration", "statement": "The generator with an explicit stack of iterators always finishes after finitely many steps on an acyclic network and yields the paths in exactly depth-first successor order.", "quantifier": "every graph, every successor order, every number of machine steps", "why_tests_cant": "tests cannot exhibit non-termination or quantify over all interleavings of push and pop", "anchors": ["pycid/core/get_paths.py:_dfs_search_paths"]}
{"id": "C04", "title": "directed_decision_free_path decides existence of a decision-free directed path", "statement": "directed_decision_free_path(macid,s,t) is True iff there is a directed path from s to t none of whose strictly intermediate nodes is a decision; KeyError iff s or t is missing.", "quantifier": "every acyclic graph, role assignment and pair of nodes", "why_tests_cant": "unbounded graphs", "anchors": ["pycid/core/get_paths.py:directed_decision_free_path"]}
{"id": "C05", "title": "get_motif / get_motifs classify interior path nodes correctly and exhaustively", "statement": "On a path whose consecutive nodes are adjacent, get_motif at an interior index never raises and returns forward / backward / collider / fork exactly when the two incident edges point that way; the last index gives endpoint; an index past the end raises IndexError, an unknown node KeyError. At index 0 the predecessor used is the LAST node of the path (Python's path[-1]). get_motifs of the empty path is empty, of a single node it raises IndexError, and with an unknown node KeyError.", "quantifier": "every acyclic graph, path and index", "why_tests_cant": "unbounded paths; the index-0 wrap-around is only visible for particular graphs", "anchors": ["pycid/core/get_paths.py:get_motif", "pycid/core/get_paths.py:get_motifs"]}
{"id": "C06", "title": "is_active_path decides textbook path activity", "statement": "For a repetition-free undirected path and observed set, is_active_path is True iff every interior collider has itself or a descendant observed and every interior non-collider is unobserved.", "quantifier": "every acyclic graph, simple path and observed set", "why_tests_cant": "unbounded graphs, paths and observation sets", "anchors": ["pycid/core/get_paths.py:is_active_path"]}
{"id": "C07", "title": "find_active_path is sound and complete", "statement": "If find_active_path(net,s,t,obs) returns a path it is a simple undirected path from s to t that is active given obs; it raises ValueError exactly when t is observed or no such path exists (for an unobserved s; for an observed s exactly the active paths that leave s through an unobserved parent count), and KeyError exactly when one of the nodes is missing. This holds for every set iteration order.", "quantifier": "every acyclic graph, s, t, observed set, iteration order", "why_tests_cant": "random_macidbase relies on it for every random graph", "anchors": ["pycid/core/get_paths.py:find_active_path", "pycid/core/get_paths.py:_active_neighbours"]}
{"id": "C08", "title": "is_dconnected decides textbook d-connection", "statement": "is_dconnected(s,t,Z) is True iff s and t are outside Z and some simple path between them is active given Z; the underlying work-list search terminates and gives the same answer whatever element set.pop() returns.", "quantifier": "every acyclic graph, s, t, Z, pop schedule", "why_tests_cant": "all queries, incentives and equilibria depend on it for every graph", "anchors": ["pycid/core/macid_base.py:MACIDBase.active_trail_nodes", "pycid/core/macid_base.py:MACIDBase.is_r_reachable", "pgmpy DAG.is_dconnected (dependency)"]}
{"id": "C09", "title": "find_active_path succeeds exactly when is_dconnected", "statement": "For s,t not observed, find_active_path returns a path iff is_dconnected is True: two independent algorithms in the library agree.", "quantifier": "every acyclic graph, s, t, Z", "why_tests_cant": "the RuntimeError/ValueError branch in _add_sufficient_recall relies on it for every graph", "anchors": ["pycid/core/get_paths.py:find_active_path", "pycid/random/random_macidbase.py:_add_sufficient_recall"]}
{"id": "C10", "title": "d-connection is symmetric", "statement": "is_dconnected(s,t,Z) = is_dconnected(t,s,Z) for all nodes s,t of the network.", "quantifier": "every acyclic graph, s, t, Z", "why_tests_cant": "unbounded", "anchors": ["pycid/core/macid_base.py:MACIDBase.active_trail_nodes"]}
{"id": "C11", "title": "is_active_backdoor_trail decides existence of an active back-door path", "statement": "is_active_backdoor_trail(net,s,t,Z) is True iff there is a simple undirected path with at least two nodes from s to t, whose first edge points into s, that is active given Z; KeyError iff a named node is missing.", "quantifier": "every acyclic graph, s, t, Z", "why_tests_cant": "unbounded", "anchors": ["pycid/core/get_paths.py:is_active_backdoor_trail"]}
{"id": "C12", "title": "is_active_indirect_frontdoor_trail decides existence of an active indirect front-door path", "statement": "For s != t it is True iff some simple undirected path from s to t starts with an edge out of s, is active given Z and contains a collider; for s = t it raises IndexError.", "quantifier": "every acyclic graph, s, t, Z", "why_tests_cant": "unbounded", "anchors": ["pycid/core/get_paths.py:is_active_indirect_frontdoor_trail"]}
{"id": "C13", "title": "the graph stays a well-formed DAG under every edit history", "statement": "Starting from a freshly constructed network, after any sequence of add_node, add_edge, remove_edge and remove_node calls (including failing ones) the graph is acyclic, edges join existing nodes, no duplicates; an edge that would close a cycle or a self-loop is rejected with ValueError and changes nothing; the constructor rejects cyclic edge lists. remove_edge of a missing edge raises NetworkXError, remove_node of a missing node ValueError, both without change; otherwise exactly that edge, or that node with all its edges, disappears; add_node adds the node unless present and nothing else.", "quantifier": "every finite history of edits", "why_tests_cant": "histories are unbounded", "anchors": ["pycid/core/causal_bayesian_network.py:CausalBayesianNetwork.__init__", "pycid/core/causal_bayesian_network.py:CausalBayesianNetwork.add_edge", "pycid/core/causal_bayesian_network.py:CausalBayesianNetwork.remove_edge"]}
{"id": "C14", "title": "get_valid_order returns a topological order of exactly the requested nodes", "statement": "get_valid_order(nodes) lists each requested node exactly once and never puts a node after one of its descendants; without argument it lists the decisions; unknown nodes give KeyError.", "quantifier": "every acyclic graph, every node set", "why_tests_cant": "unbounded graphs", "anchors": ["pycid/core/macid_base.py:MACIDBase.get_valid_order"]}
{"id": "C15", "title": "role bookkeeping refines a simple role map", "statement": "After any sequence of make_decision / make_utility / make_chance calls the four dictionaries agree with the map node -> {chance, decision of agent a, utility of agent a} in which each successful call overwrites one entry: no node has two roles or two owners, no list contains duplicates, and a call on an unknown node raises KeyError and changes nothing.", "quantifier": "every finite history of role changes, every agent label", "why_tests_cant": "histories are unbounded; the dictionaries are redundant and can drift apart", "anchors": ["pycid/core/macid_base.py:MACIDBase.make_decision", "pycid/core/macid_base.py:MACIDBase.make_utility", "pycid/core/macid_base.py:MACIDBase.make_chance"]}
{"id": "C16", "title": "copy_without_cpds preserves nodes, edges and roles", "statement": "For a network whose agents all have an entry in both dictionaries, the copy has the same nodes, edges, and role of every node. If an agent has utilities but no decision entry it raises KeyError; if an agent has decisions but no utility entry its decisions silently become chance nodes.", "quantifier": "every network", "why_tests_cant": "needs all agent/role combinations", "anchors": ["pycid/core/macid_base.py:MACIDBase.copy_without_cpds", "pycid/core/cid.py:CID.copy_without_cpds", "pycid/core/macid.py:MACID.copy_without_cpds"]}
{"id": "C17", "title": "MechanismGraph adds exactly one fresh parent per node", "statement": "If no node name equals another node's name plus 'mec', the mechanism graph has the original nodes and edges plus for each node v a node v+'mec' whose only edge goes to v, and it is acyclic. The guard that is meant to reject names ending in mec tests the wrong slice: it rejects exactly the six-character names beginning with mec and accepts names ending in mec.", "quantifier": "every network and every choice of node names", "why_tests_cant": "names are arbitrary strings", "anchors": ["pycid/core/macid_base.py:MechanismGraph.__init__"]}
{"id": "C18", "title": "is_r_reachable / is_s_reachable decide the graphical relevance criterion", "statement": "is_r_reachable(Ds,Vs) is True iff for some D in Ds and V in Vs there is a utility node U of D's owner that is a proper descendant of D such that a newly added parent of V is d-connected to U given D and its parents. For sets it is the union over pairs.", "quantifier": "every network, decision set, node set", "why_tests_cant": "unbounded", "anchors": ["pycid/core/macid_base.py:MACIDBase.is_r_reachable", "pycid/core/macid_base.py:MACIDBase.is_s_reachable"]}
{"id": "C19", "title": "RelevanceGraph and sufficient_recall", "statement": "RelevanceGraph has an edge D->D' iff D != D' and D' is s-reachable from D; sufficient_recall(agent) is True iff the relation 'is s-reachable from' restricted to the agent's decisions has no cycle; an unknown agent raises ValueError.", "quantifier": "every network, every agent", "why_tests_cant": "unbounded", "anchors": ["pycid/core/relevance_graph.py:RelevanceGraph", "pycid/core/macid_base.py:MACIDBase.sufficient_recall"]}
{"id": "C20", "title": "CondensedRelevanceGraph orders the strongly connected components", "statement": "get_scc_topological_ordering lists every decision exactly once, grouped by mutual s-reachability, and a group never relies on an earlier group.", "quantifier": "every network; every order in which SCCs are discovered", "why_tests_cant": "unbounded", "anchors": ["pycid/core/relevance_graph.py:CondensedRelevanceGraph"]}
{"id": "C21", "title": "decs_in_each_maid_subgame lists exactly the closed decision sets", "statement": "It returns exactly the sets of decisions that are unions of a non-empty collection of SCCs closed under (transitive) reliance.", "quantifier": "every network", "why_tests_cant": "the powerset construction is exponential; unbounded", "anchors": ["pycid/core/macid.py:MACID.decs_in_each_maid_subgame"]}
{"id": "C22", "title": "with sufficient recall, later decisions never rely on earlier ones", "statement": "In a single-agent CID with sufficient recall, if d1 precedes d2 in get_valid_order then d1 is not s-reachable from d2; hence the reversed valid order used by impute_optimal_policy is a legal backward-induction order.", "quantifier": "every single-agent network", "why_tests_cant": "a universally quantified graph theorem", "anchors": ["pycid/core/cid.py:CID.impute_optimal_policy", "pycid/core/macid_base.py:MACIDBase.sufficient_recall"]}
{"id": "C23", "title": "a constructed CPD is a valid conditional distribution or construction raises", "statement": "If StochasticFunctionCPD construction succeeds the table has one row per domain value and one column per parent instantiation, all entries in [0,1] and every column sums to 1 within 0.01; otherwise ValueError (or ParentsNotReady if a parent domain is unknown).", "quantifier": "every function, domain and parent domains", "why_tests_cant": "functions are arbitrary", "anchors": ["pycid/core/cpd.py:StochasticFunctionCPD.__init__"]}
{"id": "C24", "title": "missing probability mass is spread evenly over unspecified outcomes", "statement": "The entry for an outcome given by the function is the given probability; every outcome of the domain that is missing or None gets (1 - specified mass)/number of such outcomes; whenever at least one outcome is unspecified the column sums to exactly 1.", "quantifier": "every distribution dictionary and domain", "why_tests_cant": "arbitrary dictionaries", "anchors": ["pycid/core/cpd.py:StochasticFunctionCPD.__init__", "pycid/core/cpd.py:noisy_copy"]}
{"id": "C25", "title": "inferred domains are sorted, duplicate free and exactly the possible values", "statement": "Without explicit domain the variable's domain is the strictly increasing list of the outcomes the function can return over all parent instantiations; with explicit domain that domain is used and must contain every possible value, otherwise ValueError.", "quantifier": "every function and parent domains", "why_tests_cant": "arbitrary functions", "anchors": ["pycid/core/cpd.py:StochasticFunctionCPD.possible_values", "pycid/core/cpd.py:StochasticFunctionCPD.parent_values"]}
{"id": "C26", "title": "helper distributions", "statement": "bernoulli(p), discrete_uniform(domain without duplicates), noisy_copy(v,p,domain) yield the documented distributions (sum 1, right mass) when used as a CPD; discrete_uniform over a list with a duplicate loses mass.", "quantifier": "every p and domain", "why_tests_cant": "continuum of parameters", "anchors": ["pycid/core/cpd.py:bernoulli", "pycid/core/cpd.py:discrete_uniform", "pycid/core/cpd.py:noisy_copy"]}
{"id": "C27", "title": "pure_decision_rules enumerates every pure decision rule exactly once", "statement": "The rules returned for a decision are deterministic, and every map from parent instantiations to the decision's domain is the behaviour of exactly one returned rule; there are |dom|^(product of parent cardinalities) of them.", "quantifier": "every network, decision and domains", "why_tests_cant": "exponential and unbounded", "anchors": ["pycid/core/macid_base.py:MACIDBase.pure_decision_rules"]}
{"id": "C28", "title": "arg2idx is a bijection between decision contexts and indices", "statement": "Converting a decision context to an index is injective with image exactly 0..n-1, where n is the number of decision contexts.", "quantifier": "every list of parent domains", "why_tests_cant": "unbounded mixed-radix arithmetic", "anchors": ["pycid/core/macid_base.py:MACIDBase.pure_decision_rules.arg2idx"]}
{"id": "C29", "title": "pure_policies is the full cartesian product", "statement": "pure_policies / joint_pure_policies contain every combination of one pure rule per listed decision exactly once.", "quantifier": "every decision list", "why_tests_cant": "exponential", "anchors": ["pycid/core/macid_base.py:MACIDBase.pure_policies", "pycid/core/macid.py:MACID.joint_pure_policies"]}
{"id": "C30", "title": "function argument names are checked against parents", "statement": "Documented: ValueError if the function's arguments do not match the parents. In fact the check inspects a wrapper that takes **pv, so it accepts every signature and never raises.", "quantifier": "every signature and parent set", "why_tests_cant": "absence of an exception for all inputs", "anchors": ["pycid/core/cpd.py:StochasticFunctionCPD.check_function_arguments_match_parent_names"]}
{"id": "C31", "title": "the order in which CPDs are added does not matter", "statement": "Adding one relationship per node in any order yields the same domains and the same CPD for every node.", "quantifier": "every acyclic graph, relationships, every permutation", "why_tests_cant": "n! orders", "anchors": ["pycid/core/causal_bayesian_network.py:CausalBayesianNetwork.Model.__setitem__", "pycid/core/causal_bayesian_network.py:CausalBayesianNetwork.add_cpds"]}
{"id": "C32", "title": "once every node has a relationship every node has a CPD", "statement": "After add_cpds calls that supply a relationship for every node, in any order and any split into calls, every node has an instantiated CPD and a domain.", "quantifier": "every acyclic graph and order", "why_tests_cant": "n! orders; deferred instantiation", "anchors": ["pycid/core/causal_bayesian_network.py:CausalBayesianNetwork.Model.__setitem__"]}
{"id": "C33", "title": "instantiated CPDs always reflect the current relationship and parent domains", "statement": "After any history of successful model assignments with functional relationships, each instantiated CPD equals the one computed from its current relationship and the current domains of its parents. After an assignment that raises this can fail: a sibling of the node whose function raised keeps the CPD for the old domain, and assigning the parent once more does not refresh it; assigning the sibling does.", "quantifier": "every finite history", "why_tests_cant": "histories unbounded", "anchors": ["pycid/core/causal_bayesian_network.py:CausalBayesianNetwork.Model"]}
{"id": "C34", "title": "a rejected assignment leaves the network unchanged", "statement": "FALSE of the code: if CPD construction raises ValueError the old relationship and CPD of the variable are already gone.", "quantifier": "every state and bad relationship", "why_tests_cant": "crash-point property", "anchors": ["pycid/core/causal_bayesian_network.py:CausalBayesianNetwork.Model.__setitem__"]}
{"id": "C35", "title": "copy is faithful", "statement": "copy() of a fully parameterised network has the same graph, roles, domains and the same probability of every outcome given parents.", "quantifier": "every network", "why_tests_cant": "unbounded", "anchors": ["pycid/core/causal_bayesian_network.py:CausalBayesianNetwork.copy"]}
{"id": "C36", "title": "intervene cuts incoming edges and fixes the value", "statement": "After intervene({x:v}) x has no parents, takes v with probability 1, every other node keeps its parents; nothing but x's own mechanism changes when v is in x's domain.", "quantifier": "every network, node and value", "why_tests_cant": "unbounded", "anchors": ["pycid/core/causal_bayesian_network.py:CausalBayesianNetwork.intervene"]}
{"id": "C37", "title": "query does not modify the network", "statement": "Holds when an intervention is given or when every node is connected to the query; FALSE otherwise: without intervention query permanently removes every node outside the query's connected component from the user's network.", "quantifier": "every network and query", "why_tests_cant": "needs disconnected networks and state comparison", "anchors": ["pycid/core/causal_bayesian_network.py:CausalBayesianNetwork.query"]}
{"id": "C38", "title": "query rejects impossible contexts", "statement": "query raises ValueError whenever some context outcome is outside the variable's domain, before touching the network, and ValueError when the queried nodes lie in different connected components.", "quantifier": "every network and context", "why_tests_cant": "unbounded", "anchors": ["pycid/core/causal_bayesian_network.py:CausalBayesianNetwork.query", "pycid/core/macid_base.py:MACIDBase.query"]}
{"id": "C39", "title": "query returns the conditional distribution", "statement": "The returned factor equals P(query | context, do(intervention)) defined by the joint distribution; it is non-negative and sums to one whenever the context has positive probability.", "quantifier": "every network, query, context", "why_tests_cant": "continuum of parameters", "anchors": ["pycid/core/causal_bayesian_network.py:CausalBayesianNetwork.query"]}
{"id": "C40", "title": "interventional queries use the truncated factorisation", "statement": "The joint distribution after intervene is the product of the CPDs of the non-intervened nodes on assignments that agree with the intervention, and 0 elsewhere.", "quantifier": "every network and intervention", "why_tests_cant": "continuum", "anchors": ["pycid/core/causal_bayesian_network.py:CausalBayesianNetwork.intervene", "pycid/core/causal_bayesian_network.py:CausalBayesianNetwork.query"]}
{"id": "C41", "title": "d-separation implies conditional independence", "statement": "If is_dconnected(x,y,Z) is False then X and Y are independent given Z in every parameterisation of the graph.", "quantifier": "every graph, every parameterisation", "why_tests_cant": "continuum of distributions", "anchors": ["pycid/core/macid_base.py:MACIDBase.active_trail_nodes"]}
{"id": "C42", "title": "a query that is answered does not depend on unspecified policies", "statement": "If MACIDBase.query succeeds although some decisions only have a DecisionDomain, replacing the decision rules of those decisions by any other rules gives the same answer.", "quantifier": "every network, query, context, intervention, every pair of policies", "why_tests_cant": "continuum of policies", "anchors": ["pycid/core/macid_base.py:MACIDBase.query"]}
{"id": "C43", "title": "expected_value and expected_utility", "statement": "expected_value of variables is the probability weighted sum of their values; expected_utility is additive over the agent's utility nodes and bounded by the domain extremes; a zero-probability context raises RuntimeError instead of returning a number.", "quantifier": "every network, context", "why_tests_cant": "continuum", "anchors": ["pycid/core/causal_bayesian_network.py:CausalBayesianNetwork.expected_value", "pycid/core/macid_base.py:MACIDBase.expected_utility"]}
{"id": "C44", "title": "total_effect", "statement": "total_effect(a,x) is 0 whenever x is not a descendant of a (x != a); it is antisymmetric in (a0,a1) and additive along a0,a1,a2; total_effect(a,a,a0,a1)=a1-a0.", "quantifier": "every parameterised network", "why_tests_cant": "continuum", "anchors": ["pycid/analyze/effects.py:total_effect"]}
{"id": "C45", "title": "introduced_total_effect sign normalisation", "statement": "With adapt_marginalized the result is invariant under swapping a0 and a1 when the effect on y is non-zero; equal effects on d and y give 0.", "quantifier": "every network", "why_tests_cant": "continuum", "anchors": ["pycid/analyze/effects.py:introduced_total_effect"]}
{"id": "C46", "title": "optimal_pure_policies returns the maximisers", "statement": "Every exactly optimal pure policy is returned; every returned policy is within the relative tolerance of a reference utility that no policy exceeds beyond the tolerance; with rel_tol 0 the result is exactly the list of maximisers in enumeration order.", "quantifier": "every sequence of utilities and tolerance", "why_tests_cant": "unbounded sequences, running maximum with tolerance", "anchors": ["pycid/core/macid_base.py:MACIDBase.optimal_pure_policies"]}
{"id": "C47", "title": "impute_optimal_decision is optimal", "statement": "When it succeeds, no decision rule (pure or stochastic) for that decision gives the owner higher expected utility, other rules held fixed.", "quantifier": "every network and every alternative rule", "why_tests_cant": "continuum of rules", "anchors": ["pycid/core/macid_base.py:MACIDBase.impute_optimal_decision"]}
{"id": "C48", "title": "impute_optimal_policy is globally optimal under sufficient recall", "statement": "For a single-agent CID with sufficient recall, when impute_optimal_policy succeeds no joint policy has higher expected utility than the imputed one.", "quantifier": "every CID, every joint policy", "why_tests_cant": "continuum of policies; correctness of backward induction", "anchors": ["pycid/core/cid.py:CID.impute_optimal_policy", "pycid/core/cid.py:CID.solve"]}
{"id": "C49", "title": "imputing and removing decision rules", "statement": "impute_random_decision gives every action the same positive probability in every context and keeps the domain; remove_all_decision_rules then restores the bare domain; ValueError if no domain is known.", "quantifier": "every network", "why_tests_cant": "unbounded", "anchors": ["pycid/core/macid_base.py:MACIDBase.impute_random_decision", "pycid/core/macid_base.py:MACIDBase.remove_all_decision_rules"]}
{"id": "C50", "title": "queries over no variables", "statement": "FALSE that an empty query is harmless: query([]) removes every node from the network and raises; hence impute_optimal_decision raises for a decision with no descendant utility of its owner.", "quantifier": "every network", "why_tests_cant": "state comparison over all networks", "anchors": ["pycid/core/causal_bayesian_network.py:CausalBayesianNetwork.query", "pycid/core/macid_base.py:MACIDBase.impute_optimal_decision"]}
{"id": "C51", "title": "requisite and requisite_graph", "statement": "requisite(cid,d,x) is True iff x is d-connected to a utility of d's owner below d given the rest of d's family; requisite_graph keeps all nodes, removes only edges into decisions, keeps exactly the requisite observations of each decision w.r.t. the graph in which later decisions are already trimmed, and does not modify its input.", "quantifier": "every network, every iteration order", "why_tests_cant": "unbounded", "anchors": ["pycid/analyze/requisite_graph.py:requisite", "pycid/analyze/requisite_graph.py:requisite_graph"]}
{"id": "C52", "title": "admits_voi decides the graphical criterion", "statement": "For a single-decision CID admits_voi(cid,d,x) is True iff x is neither d nor a descendant of d and, in the graph with edge x->d added, x is d-connected to a utility below d given the rest of d's family.", "quantifier": "every single-decision CID", "why_tests_cant": "unbounded", "anchors": ["pycid/analyze/value_of_information.py:admits_voi"]}
{"id": "C53", "title": "no value of information without admits_voi", "statement": "If admits_voi is False for an observable x then in every parameterisation the maximal expected utility with x observed equals that without.", "quantifier": "every single-decision CID and every parameterisation", "why_tests_cant": "continuum of parameterisations", "anchors": ["pycid/analyze/value_of_information.py:admits_voi", "pycid/analyze/value_of_information.py:quantitative_voi"]}
{"id": "C54", "title": "admits_ri decides the graphical criterion", "statement": "admits_ri(cid,d,x) is True iff x != d and the requisite graph has a directed path from x to d; errors: KeyError for unknown nodes, ValueError for several agents or insufficient recall.", "quantifier": "every CID", "why_tests_cant": "unbounded", "anchors": ["pycid/analyze/response_incentive.py:admits_ri"]}
{"id": "C55", "title": "admits_ici decides the graphical criterion", "statement": "admits_ici(cid,d,x) is True iff some directed path from d to a utility passes through x (x may be d or the utility itself).", "quantifier": "every CID", "why_tests_cant": "unbounded", "anchors": ["pycid/analyze/instrumental_control_incentive.py:admits_ici"]}
{"id": "C56", "title": "value-of-control criteria and their relations", "statement": "admits_voc is True iff x is not a decision and is an ancestor-or-self of a utility in the requisite graph; admits_dir_voc iff moreover such a path avoids all decisions; admits_indir_voc implies admits_voc; a node with voc has direct voc or a path through a decision.", "quantifier": "every CID", "why_tests_cant": "unbounded", "anchors": ["pycid/analyze/value_of_control.py"]}
{"id": "C57", "title": "no value of control without admits_voc", "statement": "If admits_voc is False for a non-decision x then in every parameterisation changing x's mechanism cannot change the maximal expected utility (single decision).", "quantifier": "every single-decision CID and parameterisation", "why_tests_cant": "continuum", "anchors": ["pycid/analyze/value_of_control.py:admits_voc", "pycid/analyze/value_of_control.py:quantitative_voc"]}
{"id": "C58", "title": "quantitative_voi is the gain from an observation and not negative; quantitative_voc is not negative up to the tolerance and mutates its argument", "statement": "If quantitative_voi returns a number, it is the maximal expected utility with the observation minus the one without it, hence not negative. If quantitative_voc of a chance node returns a number, the first expected utility is the maximum without control; the number is not negative when the diagram with the node as a decision has sufficient recall, and otherwise not below zero by more than the relative tolerance with which policies are compared (it can be negative). quantitative_voc leaves the node as a decision in the caller's CID.", "quantifier": "every single-decision CID", "why_tests_cant": "continuum", "anchors": ["pycid/analyze/value_of_information.py:quantitative_voi", "pycid/analyze/value_of_control.py:quantitative_voc"]}
{"id": "C59", "title": "the _list variants are exactly the filters of the predicates", "statement": "admits_*_list returns each admitted node exactly once and no others, or raises when the predicate raises.", "quantifier": "every CID", "why_tests_cant": "unbounded", "anchors": ["pycid/analyze"]}
{"id": "C60", "title": "direct_effect and manipulation decide their graphical criteria", "statement": "direct_effect(D) iff there is a decision-free directed path from D to a utility of its owner; manipulation(D,E) iff the three documented path conditions hold for some effective decision.", "quantifier": "every MACID and effective set", "why_tests_cant": "unbounded", "anchors": ["pycid/analyze/reasoning_patterns.py:direct_effect", "pycid/analyze/reasoning_patterns.py:manipulation"]}
{"id": "C61", "title": "signaling and revealing_or_denying: what True, False and an exception mean", "statement": "revealing_or_denying(D,E) is True iff its documented conditions hold, except that the front-door path need not be effective; so the documented conditions suffice for True but are not necessary. A True from signaling is backed by a decision, utilities and paths meeting the four documented conditions; a False says that for each candidate there is no effective unblocked back-door path or one whose key node fails the fourth condition, and the answer can depend on set iteration order; signaling raises only ValueError, and only if a utility of the other agent is an ancestor of D.", "quantifier": "every MACID, effective set, iteration order", "why_tests_cant": "unbounded", "anchors": ["pycid/analyze/reasoning_patterns.py:signaling", "pycid/analyze/reasoning_patterns.py:revealing_or_denying"]}
{"id": "C62", "title": "get_reasoning_patterns terminates with a self-consistent effective set", "statement": "The refinement loop stops after at most |decisions|+1 rounds, for every iteration order; a result is returned whenever every owner has utilities and no utility is an ancestor of a decision, and otherwise only ValueError can be raised; each listed decision occurs in exactly one list exactly once, has the pattern it is listed under relative to the final effective set, every member of that set is listed, and the decisions with a direct effect are exactly those listed under it.", "quantifier": "every MACID", "why_tests_cant": "loop over unbounded graphs", "anchors": ["pycid/analyze/reasoning_patterns.py:get_reasoning_patterns"]}
{"id": "C63", "title": "create_subgame keeps exactly the relevant structure", "statement": "Whatever the order in which sets are enumerated: the subgame's edges are the edges of the full graph into an active decision or an r-relevant node; its decisions are the active ones with their owners; its utilities are the r-relevant utilities with their owners; relevant nodes keep all their parents and other nodes have none. Members of the game keep their outcomes and probabilities, except that decisions without rule that are not s-relevant are played uniformly; the other nodes get the unweighted average of their probabilities over the parents' outcomes. It raises if such a node is a plain TabularCPD. FALSE if such a node's domain is not sorted (the children's tables are then read in the wrong order), and an active decision without influence on its owner's utilities can be missing from the graph. A game in which a relevant node or a node that is cut off has no CPD makes create_subgame raise ValueError or AttributeError.", "quantifier": "every parameterised MACID, set of decisions, enumeration order", "why_tests_cant": "unbounded", "anchors": ["pycid/core/macid.py:MACID.create_subgame"]}
{"id": "C64", "title": "get_spe returns complete policy profiles", "statement": "Every returned profile assigns exactly one rule to every decision of the MACID, built by backward induction over the condensed relevance graph, whatever equilibria the subgame solver returns (one rule per decision of the subgame); the number of profiles is the number of branches of that induction.", "quantifier": "every MACID, every solver behaviour", "why_tests_cant": "solver is external; unbounded", "anchors": ["pycid/core/macid.py:MACID.get_spe"]}
{"id": "C65", "title": "policy_profile_assignment", "statement": "Maps each decision to its rule in the partial policy (the last one if repeated) or None.", "quantifier": "every partial policy", "why_tests_cant": "unbounded", "anchors": ["pycid/core/macid.py:MACID.policy_profile_assignment"]}
{"id": "C66", "title": "the extensive-form game has exactly one leaf per joint instantiation", "statement": "In macid_to_efg each tree position corresponds to exactly one instantiation of the preceding game-tree nodes and each leaf to one full instantiation, whose agents' payoffs are the expected utilities given it.", "quantifier": "every MACID and domains", "why_tests_cant": "exponential tree", "anchors": ["pycid/export/gambit.py:macid_to_efg", "pycid/export/gambit.py:_add_payoffs"]}
{"id": "C67", "title": "information sets group exactly the indistinguishable tree nodes", "statement": "If no two decisions of one agent have the same ordered parent list, two decision positions share an information set iff they belong to the same decision and agree on the parents' values. FALSE in general: the key omits the decision, so two decisions of one agent with identical parents (e.g. none) share information sets.", "quantifier": "every MACID", "why_tests_cant": "unbounded trees", "anchors": ["pycid/export/gambit.py:macid_to_efg"]}
{"id": "C68", "title": "solver selection", "statement": "pygambit_ne_solver uses enummixed by default for two players and enumpure otherwise with fallback to simpdiv exactly if enumpure finds nothing and no solver was requested; each of the seven solver names runs the solver of that name, except that two-player-only solvers requested for other games are replaced by enumpure; unknown names raise ValueError.", "quantifier": "every player count, solver name, solver output", "why_tests_cant": "external solver outputs are arbitrary", "anchors": ["pycid/export/gambit.py:pygambit_ne_solver"]}
{"id": "C69", "title": "behavior_to_cpd reads back the behaviour strategy", "statement": "For each decision, each parent instantiation and each action, the resulting CPD gives the probability that the strategy assigns to that action at the corresponding information set.", "quantifier": "every behaviour strategy", "why_tests_cant": "continuum", "anchors": ["pycid/export/gambit.py:behavior_to_cpd"]}
{"id": "C70", "title": "random_dag generates connected DAGs of the requested size", "statement": "Whatever the random choices, if random_dag returns, the graph is acyclic, weakly connected, has exactly the requested nodes, all edges go from lower to higher index, and it has at least int(edge_density*n(n-1)/2) edges.", "quantifier": "every random choice sequence, n, density", "why_tests_cant": "random choices", "anchors": ["pycid/random/random_dag.py:random_dag", "pycid/random/random_dag.py:add_random_edge"]}
{"id": "C71", "title": "random_dag respects max_in_degree", "statement": "FALSE: the density phase ignores the parameter; in-degrees are bounded by max(max_in_degree,4,1) only.", "quantifier": "every random choice sequence", "why_tests_cant": "rare random choices", "anchors": ["pycid/random/random_dag.py:random_dag"]}
{"id": "C72", "title": "random_macidbase gives each agent what was requested", "statement": "When it returns, agent i has exactly the requested numbers of decisions and utilities, utilities have no children, every decision is a proper ancestor of a utility of its owner, and no node is used twice.", "quantifier": "every random choice sequence", "why_tests_cant": "random choices", "anchors": ["pycid/random/random_macidbase.py:random_macidbase"]}
{"id": "C73", "title": "_add_sufficient_recall establishes the recall condition and keeps the graph acyclic", "statement": "If it returns, d1's mechanism is d-separated from the utility given d2 and its parents; only edges into d2 are added; no cycle is created; it raises ValueError if d2 is an ancestor of d1.", "quantifier": "every network and random choice sequence", "why_tests_cant": "random choices", "anchors": ["pycid/random/random_macidbase.py:_add_sufficient_recall"]}
{"id": "C74", "title": "RandomCPD is reproducible and leaves the global RNG untouched", "statement": "Evaluating a RandomCPD restores numpy's random state even if sampling raises, gives the same distribution for the same parent values whenever it is evaluated, and uses a legal seed for every seed in 1..2^31.", "quantifier": "every RNG state, parent values, seed, exception", "why_tests_cant": "global state and crash points", "anchors": ["pycid/random/random_cpd.py:temp_seed", "pycid/random/random_cpd.py:RandomCPD.__call__"]}
{"id": "C75", "title": "requisite_graph preserves the maximal expected utility", "statement": "Taking away from every decision the observations that requisite_graph removes leaves the maximal expected utility of a parameterised CID unchanged, for any number of decisions.", "quantifier": "every CID whose decisions belong to one agent, every parameterisation, every iteration order", "why_tests_cant": "continuum of parameterisations and all graphs; the claim compares suprema over all decision rules", "anchors": ["pycid/analyze/requisite_graph.py:requisite_graph", "pycid/analyze/requisite_graph.py:requisite"]}
{"id": "C76", "title": "Game trees have the payoffs and equilibria of the network", "statement": "In the extensive form game that macid_to_efg builds, if the players behave as a behaviour strategy profile says and the network uses the decision rules that behavior_to_cpd returns for that profile, the expected payoff of every player is the agent's expected utility in the network. The profile is a Nash equilibrium of the tree if and only if no agent can raise their expected utility in the network by using other rules for their own decisions.", "quantifier": "all games for which the tree is built, all behaviour strategy profiles, all decision rules", "why_tests_cant": "An equilibrium is a statement about all alternative strategies, a continuum; and the tree has to agree with the network for every game.", "anchors": ["pycid/export/gambit.py: macid_to_efg, behavior_to_cpd, _add_payoffs", "pycid/core/macid_base.py: expected_utility"]}
{"id": "C77", "title": "get_ne_in_sg returns Nash equilibria of the subgame", "statement": "If the solver returns Nash equilibria of the extensive form games it is given, every policy profile that get_ne_in_sg returns has one decision rule for each of the given decisions and is a Nash equilibrium of the subgame: with those rules put into it, no owner of one of the decisions gains by using other rules for their own decisions. This needs a connected subgame in which an agent's decisions can be told apart by what they observe.", "quantifier": "all games and sets of decisions, all solvers that are sound, all enumeration orders of sets", "why_tests_cant": "The claim is about all deviations in all games; a test checks a few games against known solutions.", "anchors": ["pycid/core/macid.py: MACID.get_ne_in_sg, MACID.create_subgame", "pycid/export/gambit.py: pygambit_ne_solver"]}
{"id": "C79", "title": "random_macidbase(sufficient_recall=True) returns games with sufficient recall", "statement": "FALSE: edges added for one pair of decisions can destroy what was established for an earlier pair; for some random choices the returned single-agent game fails sufficient_recall. What does hold: if no decision relies on a decision of the same agent that it does not precede, _add_sufficient_recalls changes nothing and draws nothing; and a single agent with two decisions and one utility node has sufficient recall whenever it returns.", "quantifier": "every random choice sequence", "why_tests_cant": "rare random choices; the order of the pairs matters", "anchors": ["pycid/random/random_macidbase.py:_add_sufficient_recalls", "pycid/random/random_macidbase.py:random_macidbase", "pycid/core/macid_base.py:MACIDBase.sufficient_recall"]}
{"id": "C80", "title": "add_random_cpds gives a complete, valid parameterisation", "statement": "Called on a (MA)CID without parameters whose roles are consistent, add_random_cpds does not raise, leaves graph and roles as they are, and afterwards every node has the domain [0, 1] and a normalised CPD that fits its parents, with exactly the decisions left undecided. The exception: if the seed 0 is drawn and the hash of some parent values is a multiple of 2^31, it raises ValueError.", "quantifier": "every graph, every assignment of roles, every state of numpy's generator, every hash function", "why_tests_cant": "random draws and process-dependent hashes; the failing seed is rare", "anchors": ["pycid/random/random_macidbase.py:add_random_cpds", "pycid/random/random_cpd.py:RandomCPD", "pycid/core/causal_bayesian_network.py:add_cpds"]}
{"id": "C81", "title": "random_cid, random_macid, random_cids and random_macids return what was asked for", "statement": "Whatever the random choices, random_cid and random_macid (at least two nodes) either raise ValueError or return a model with the wanted number of nodes, decisions and utilities per agent, connected, in which no utility has a child and every decision has a utility of its owner downstream; with sufficient_recall no node has more than max_in_degree parents. random_cids and random_macids return exactly the wanted number of models, each with sizes in the given ranges (for random_macids the upper bounds of the decision and utility ranges are never reached) and each without a cycle of decisions of one agent relying on each other.", "quantifier": "every sequence of random choices, every range, density, in-degree bound and number of attempts, all set orders", "why_tests_cant": "random generators: a test sees a few outcomes", "anchors": ["pycid/random/random_cid.py:random_cid,random_cids", "pycid/random/random_macid.py:random_macid,random_macids"]}
{"id": "C78", "title": "get_ne returns Nash equilibria of the whole game", "statement": "If the solver returns Nash equilibria of the extensive form games it is given, every policy profile that get_ne returns has one rule for each decision and is a Nash equilibrium of the MACID itself: with the rules put into it, no agent gains by other rules for any of its own decisions. The same holds for get_ne_in_sg with some of the decisions: its profiles are equilibria among these decisions in the whole game, although only the reduced game made by create_subgame is solved, in which irrelevant nodes have been cut off from their causes and averaged.", "quantifier": "all games, sets of decisions, sound solvers, enumeration orders and all joint deviations of an agent, without assuming perfect or sufficient recall", "why_tests_cant": "compares a profile with a continuum of deviations, and the claim rests on the irrelevance of what create_subgame leaves out, for every graph and parameterisation", "anchors": ["pycid/core/macid.py: MACID.get_ne, MACID.get_ne_in_sg, MACID.create_subgame"]}
{"id": "C82", "title": "get_spe returns subgame perfect equilibria", "statement": "For a game whose CPDs were made by the library, in which every decision can influence a utility of its owner, utilities have no children, the subgame of every group of mutually relying decisions is connected and no two decisions of one agent in a group have the same parents: if the external solver only returns Nash equilibria of the trees it is given and get_spe returns a list of profiles, then each profile has exactly one rule for each decision, can be added to the game, and is subgame perfect: for every set of decisions that contains all decisions its members rely on, and however the decisions outside the set are taken, no agent gains in expected utility by other rules (mixed ones included) for their own decisions in the set. With the set of all decisions this says that the profile is a Nash equilibrium.", "quantifier": "all such games, of any size and with any number of agents, all returned profiles, all self-contained sets of decisions, all rules outside the set, all deviations, every sound solver and every order in which sets and strongly connected components are enumerated", "why_tests_cant": "subgame perfection compares a profile with infinitely many deviations in every subgame and under all behaviour outside of it; tests look at the expected utilities of a few hand-made games", "anchors": ["pycid/core/macid.py:get_spe", "pycid/core/macid.py:get_ne_in_sg", "pycid/core/macid.py:create_subgame", "pycid/core/macid.py:decs_in_each_maid_subgame", "pycid/core/relevance_graph.py:CondensedRelevanceGraph"]}
{"id": "C83", "title": "d-connection is complete: True means some parameterisation is dependent", "statement": "For a graph without CPDs and nodes x, y, Z: is_dconnected(x, y, Z) returns True exactly if relationships can be added with add_cpds such that, in the resulting network, x and y are not independent given Z. When it is True there even are outcomes with P(x, y, z) = 0 although P(x, z) > 0 and P(y, z) > 0.", "quantifier": "every acyclic graph, all nodes x and y, every list Z of nodes, every choice the search makes", "why_tests_cant": "A test shows dependence for one graph and one hand-written set of CPDs; the claim is that a separating parameterisation exists for every active trail, with any number of colliders and of any length.", "anchors": ["pycid/core/macid_base.py:MACIDBase.is_dconnected / pgmpy is_dconnected", "pycid/core/causal_bayesian_network.py:CausalBayesianNetwork.add_cpds"]}
{"id": "C84", "title": "The value-of-information criterion is complete", "statement": "For an influence diagram with one decision d of one agent, utilities without children and no CPDs yet, and a chance node x: admits_voi(cid, d, x) returns True exactly if CPDs can be added with add_cpds under which observing x before d strictly increases the maximal expected utility. For such CPDs quantitative_voi, whenever it returns a number, returns a positive one.", "quantifier": "every such diagram of any size, every chance node x, every order in which sets are iterated", "why_tests_cant": "The True answers claim that a parameterisation with positive value exists for every graph that satisfies the graphical criterion, including arbitrarily long trails with colliders; a test checks one diagram with hand-written CPDs.", "anchors": ["pycid/analyze/value_of_information.py:admits_voi", "pycid/analyze/value_of_information.py:quantitative_voi", "pycid/analyze/requisite_graph.py:requisite"]}
{"id": "C85", "title": "The value-of-control criterion is complete", "statement": "For an influence diagram with one decision d of one agent, utilities without children and no CPDs yet, and a node x other than d: admits_voc(cid, x) returns True exactly if CPDs can be added with add_cpds under which choosing the CPD of x together with the decision rule strictly increases the maximal expected utility. For a chance node this is the maximal expected utility after make_decision(x), and quantitative_voc, whenever it returns a number and the diagram with x as a decision has sufficient recall, returns a positive one.", "quantifier": "every such diagram of any size, every node x other than the decision, every order in which sets are iterated", "why_tests_cant": "The True answers claim that a parameterisation with positive value exists for every graph that satisfies the graphical criterion, also when control pays only by making an observation informative through arbitrarily many colliders; a test checks one diagram with hand-written CPDs.", "anchors": ["pycid/analyze/value_of_control.py:admits_voc", "pycid/analyze/value_of_control.py:quantitative_voc", "pycid/analyze/requisite_graph.py:requisite_graph", "pycid/core/macid_base.py:make_decision"]}
{"id": "C86", "title": "What an instrumental control incentive means", "statement": "For a single-agent influence diagram: if admits_ici(cid, d, x) is False then, for every CPDs, either intervening on the decision d leaves the distribution of x unchanged or intervening on x leaves the distribution of every utility unchanged. If it is True and the diagram has no CPDs yet, CPDs can be added with add_cpds under which interventions on d change the expected value of x, interventions on x change the expected value of a utility u of the agent, and interventions on d change the expected value of u only through x.", "quantifier": "every diagram of any size, every decision d and node x, and for the False answers every CPDs, intervention and outcome", "why_tests_cant": "The False answers speak about all parameterisations and interventions, the True answers claim that a parameterisation exists for every graph with the right directed paths.", "anchors": ["pycid/analyze/instrumental_control_incentive.py:admits_ici", "pycid/core/causal_bayesian_network.py:CausalBayesianNetwork.query", "pycid/core/causal_bayesian_network.py:CausalBayesianNetwork.expected_value"]}
{"id": "C87", "title": "Without a response incentive an optimal policy need not respond", "statement": "In a single-agent influence diagram with sufficient recall there is an optimal policy (one of maximal expected utility) that responds to nothing outside what admits_ri lists: under it, for every node x and every intervention on x, no joint probability of the decisions d for which admits_ri(cid, d, x) is False and of nodes that are not descendants of x changes.", "quantifier": "every such diagram with any number of decisions and any CPDs, every node x, every outcome it is set to, every event, every order in which sets are iterated", "why_tests_cant": "The claim is about the best of infinitely many policies and about all interventions; a test inspects the one policy the library imputes.", "anchors": ["pycid/analyze/response_incentive.py:admits_ri", "pycid/analyze/requisite_graph.py:requisite_graph"]}
{"id": "C88", "title": "impute_conditional_expectation_decision gives the best estimate of y", "statement": "When impute_conditional_expectation_decision(d, y) succeeds and y is connected to d, the new decision rule of d chooses, with certainty and in every context of its parents, the value of y if y is a parent and otherwise the expectation of y given the values of the parents; the domain of d becomes exactly the set of these values; every context has positive probability unless y is a parent; graph, roles, all other relationships and the CPDs and domains of all non-descendants of d are unchanged. This estimate has the least mean squared error among all functions of the parents of d. If y is in another component of the graph, the call may raise ValueError although the expectation exists, because the queries remove nodes from the shared copy.", "quantifier": "all usable networks, all d and y, all iteration orders of sets, all functions of the parents", "why_tests_cant": "Tests evaluate the imputed rule on a few games; the claim is about all parameterisations, and optimality is over all functions of the observations. Which nodes the shared copy still has depends on the query history.", "anchors": ["pycid/core/macid_base.py: MACIDBase.impute_conditional_expectation_decision", "pycid/core/causal_bayesian_network.py: CausalBayesianNetwork.expected_value"]}
{"id": "C89", "title": "is_structural_causal_model", "statement": "On a network in which every node has a CPD, is_structural_causal_model() never raises and returns True exactly if every node with parents takes each outcome with a probability that numpy takes for 0 or 1 (within 1e-8 of 0 or 1.001e-5 of 1), for all values of its parents. If it returns True, there is one function per node, of the values of its parents only, such that under every intervention all nodes with parents that are not intervened on equal the values of their functions, up to a probability of 1e-8 per outcome of these nodes; with probabilities exactly 0 and 1 the answer is True and this probability is exactly 1. If CPDs are missing, the only possible exception is AttributeError, and the answer is never True if a node with parents has no CPD.", "quantifier": "all networks of any size, all CPDs, all interventions", "why_tests_cant": "The meaning of the answer is a statement about all interventions and all assignments; tests look at a few networks.", "anchors": ["pycid/core/causal_bayesian_network.py:CausalBayesianNetwork.is_structural_causal_model"]}
{"id": "C90", "title": "remove_cpds, and adding the same relationships again", "statement": "remove_cpds removes exactly the listed relationships and CPDs and leaves graph, roles, the other parameters and all recorded domains as they are; at the first listed node without a relationship it raises KeyError, with the earlier ones removed. Adding the removed relationships again, parents before children, restores the network exactly. Adding a function, distribution or list for a node while one of its parents is removed raises AttributeError, although on a fresh network the same assignment is deferred.", "quantifier": "all networks of any size, all lists of nodes, all orders of adding", "why_tests_cant": "The claim is about every subset of removed nodes and every order of adding them back.", "anchors": ["pycid/core/causal_bayesian_network.py:CausalBayesianNetwork.remove_cpds", "pycid/core/causal_bayesian_network.py:CausalBayesianNetwork.Model.__delitem__", "pycid/core/causal_bayesian_network.py:CausalBayesianNetwork.Model.__setitem__"]}
{"id": "C91", "title": "sample draws from the joint distribution", "statement": "On a network in which every node has a CPD, sample() returns a dictionary with exactly one outcome of its domain for every node, and the probability that it meets a condition is the probability of the condition under the joint distribution; each combination of outcomes is returned with probability the product of its CPD entries, and these probabilities sum to 1. If a CPD is missing it raises ValueError.", "quantifier": "all networks of any size, all conditions on the outcome, all topological orders in which the nodes may be visited", "why_tests_cant": "A test can only compare frequencies of a finite number of samples on a few networks.", "anchors": ["pycid/core/causal_bayesian_network.py:CausalBayesianNetwork.sample"]}
{"id": "C92", "title": "Diagrams do not influence each other unless they were built from the same lists", "statement": "In every program that writes down the lists of decisions and utilities afresh for each constructor call, diagrams are independent: a diagram changes only through calls on itself, never through calls on other diagrams, on its copies or on the diagram it was copied from. The constructor keeps the very list objects of its arguments: the caller's mappings later show the present roles of the diagram, and two diagrams built from one mapping of decisions corrupt each other: after make_chance on one, the other still counts the node among its decisions but lists it under no agent, and changing its role there raises ValueError.", "quantifier": "every program of constructor calls, copies and role changes over any number of diagrams; every pair of diagrams built from one mapping and every decision in it", "why_tests_cant": "Independence is about all interleavings of calls on any number of objects that share memory; a test looks at one interleaving.", "anchors": ["pycid/core/macid_base.py:MACIDBase.__init__", "pycid/core/macid_base.py:MACIDBase.make_decision", "pycid/core/macid_base.py:MACIDBase.make_utility", "pycid/core/macid_base.py:MACIDBase.make_chance", "pycid/core/macid_base.py:MACIDBase.copy_without_cpds", "pycid/core/cid.py:CID.__init__"]}
{"id": "C93", "title": "The criterion for response incentives is complete", "statement": "In an influence diagram with one decision and no edges out of utilities, admits_ri(cid, d, x) is True for a node x other than d exactly if the diagram can be given CPDs with add_cpds under which every optimal policy responds to x: there is an intervention on x and an event about the decision whose probability the intervention changes, whichever rule of maximal expected utility the decision has.", "quantifier": "every such diagram, every node x, every optimal rule of the decision (also mixed ones), every order in which sets are iterated", "why_tests_cant": "The claim is about all diagrams and about the existence of CPDs, and about all optimal policies, of which there may be infinitely many.", "anchors": ["pycid/analyze/response_incentive.py:admits_ri", "pycid/analyze/requisite_graph.py:requisite_graph", "pycid/core/causal_bayesian_network.py:CausalBayesianNetwork.add_cpds"]}
{"id": "C94", "title": "What r-reachability and s-reachability mean", "statement": "In a diagram without edges out of utilities, with any number of agents and decisions, is_r_reachable(d, v) is True for a decision d and a node v exactly if the diagram can be given CPDs with add_cpds such that after some change of the CPD of v alone no decision rule of d is a best response both before and after the change; the change also reverses which of two actions of d is better in a context that may happen. If is_r_reachable(d, v) is False then, whatever the CPDs, the advantage in expected utility of one action of d over another in a context is the same for all CPDs of v that make the context possible, and some rule of d is a best response with both CPDs. is_s_reachable is the same for a decision v.", "quantifier": "every such diagram, every decision and node, every choice of CPDs, every context, every pair of actions, every decision rule including mixed ones", "why_tests_cant": "The claim is about all diagrams, all CPDs and all decision rules, of which there are infinitely many.", "anchors": ["pycid/core/macid_base.py:MACIDBase.is_r_reachable", "pycid/core/macid_base.py:MACIDBase.is_s_reachable", "pycid/core/macid_base.py:MechanismGraph", "pycid/core/macid_base.py:MACIDBase.expected_utility"]}
{"id": "C95", "title": "What an active back-door trail means", "statement": "If is_active_backdoor_trail(cbn, x, y, Z) is False for all queried nodes y, then seeing x and setting x have the same consequences: query(q, {x: vx, **context}) and query(q, context, intervention={x: vx}) return the same factor, total_effect equals the difference of the conditional expectations, and if Z contains no descendants of x then P(y | do(x)) is the sum over z of P(y | x, z) P(z) (the adjustment formula). Conversely, if the answer is True then the graph has CPDs under which P(y | x, z) and P(y | do(x), z) differ.", "quantifier": "all graphs, nodes, observed sets, CPDs, contexts and orders in which sets are iterated; for the converse all graphs without CPDs", "why_tests_cant": "A test compares two queries in one network; the claim ranges over all graphs and all parameterisations, and the converse asserts that a suitable parameterisation exists for every graph.", "anchors": ["pycid/core/get_paths.py:is_active_backdoor_trail", "pycid/core/causal_bayesian_network.py:CausalBayesianNetwork.query", "pycid/core/macid_base.py:MACIDBase.query", "pycid/analyze/effects.py:total_effect"]}
{"id": "C96", "title": "What direct effect means, and what every reasoning pattern needs", "statement": "direct_effect(macid, D) is True exactly if the diagram can be given CPDs under which two outcomes of D differ in the expected utility of D's owner (expected_utility with intervention on D) whatever decision rules are used at all decisions. If it is False then, for all CPDs, the choice at D does not matter to its owner when the other decisions pay no attention to what they observe. Every decision listed by get_reasoning_patterns has a directed path to a utility of its owner on which all later decisions are listed too; without such a path the choice at D cannot matter to its owner as long as the unlisted decisions pay no attention to what they observe.", "quantifier": "all diagrams, decisions, sets of effective decisions, CPDs, decision rules and orders in which sets are iterated", "why_tests_cant": "A test evaluates one game with chosen CPDs; the claims range over all games and all decision rules, and the converse asserts that a suitable game exists for every diagram.", "anchors": ["pycid/analyze/reasoning_patterns.py:direct_effect", "pycid/analyze/reasoning_patterns.py:get_reasoning_patterns", "pycid/core/macid_base.py:MACIDBase.expected_utility"]}
{"id": "C97", "title": "When equilibria are found", "statement": "If pygambit's enumpure and enummixed return at least one equilibrium of every game that has an equilibrium in pure strategies, then get_ne and get_ne_in_sg (with the default solver, enumpure or enummixed) return an empty list only for games without a Nash equilibrium in deterministic decision rules; they never return an empty list when all decisions belong to one agent; and get_spe returns at least one subgame perfect equilibrium whenever it returns and decisions that rely on each other (strongly connected in the relevance graph) belong to one agent.", "quantifier": "all games with any number of agents and decisions, all CPDs, all solvers with the stated property, all orders in which sets are iterated", "why_tests_cant": "A test sees equilibria of one game; that none is missed has to hold for every game, and the absence of equilibria is a statement about all decision rules.", "anchors": ["pycid/core/macid.py:MACID.get_ne", "pycid/core/macid.py:MACID.get_ne_in_sg", "pycid/core/macid.py:MACID.get_spe", "pycid/export/gambit.py:macid_to_efg", "pycid/export/gambit.py:pygambit_ne_solver"]}
{"id": "C98", "title": "When get_ne_in_sg and get_spe return", "statement": "With solvers that never raise and an accepted solver name, get_ne_in_sg returns exactly when, in the subgame, the decisions and what they observe depend only on each other and none of their outcomes is excluded by a CPD or an existing decision rule. It never returns if one of the decisions already has a rule that excludes an action, although the documentation says such rules are kept unchanged, and get_spe then finds no equilibrium. get_spe returns, and finds a subgame perfect equilibrium, if no rule excludes an action and for every group of decisions that rely on each other what they observe satisfies the same condition and contains no decision solved before. Without this, success can depend on the order in which the players are listed.", "quantifier": "all games, sets of decisions, solvers, orders of iteration over sets and tie-breaks", "why_tests_cant": "the condition ranges over every outcome of everything observed in every subgame, and over all orders in which independent groups can be solved", "anchors": ["pycid/core/macid.py:MACID.get_ne_in_sg", "pycid/core/macid.py:MACID.get_spe", "pycid/export/gambit.py:macid_to_efg"]}
{"id": "C99", "title": "Adding and removing edges of a parameterised network", "statement": "On a network whose CPDs are all assigned, add_edge of an edge that closes no cycle and remove_edge of an existing edge return, change exactly that edge, and keep nodes, roles, outcomes and the mechanisms of all other nodes. If the child's relationship was given as a distribution or as a list of actions, no probability changes and the network keeps working. If it was given as a function or as a CPD object, the call still returns but the old CPD stays in place, and from then on every query about a variable connected to the child raises. In both cases a new function of the new parents can be assigned to the child, after which the network works with exactly those probabilities. An edge that closes a cycle is refused with ValueError, removal of a missing edge with NetworkXError, and the network is unchanged.", "quantifier": "all parameterised networks, edges, relationships, queries, contexts and new distributions", "why_tests_cant": "it ranges over all networks and all distributions and says that every probability, not a sampled one, survives the edit", "anchors": ["pycid/core/causal_bayesian_network.py:CausalBayesianNetwork.add_edge", "pycid/core/causal_bayesian_network.py:CausalBayesianNetwork.remove_edge", "pycid/core/causal_bayesian_network.py:CausalBayesianNetwork.query"]}
{"id": "C100", "title": "When an optimal policy and the quantitative measures are returned", "statement": "For one decision maker with sufficient recall, all decisions in one component and the chance variables observed by decisions not given as bare tables, impute_optimal_policy and solve succeed exactly if every decision can influence a utility of its owner and every combination of values a decision could observe has positive probability under some policy. Without sufficient recall impute_optimal_policy succeeds whatever can be observed, if decisions and utilities are in one component. In a connected diagram quantitative_voc of a chance node returns a number exactly if the condition holds without control and, if recall is sufficient with control too, with control; quantitative_voi of a node that is not a descendant of the decision returns a number exactly if the condition holds with and without the observation. No random choice and no iteration order matters for this.", "quantifier": "all parameterised diagrams with one decision maker, agents, nodes, iteration orders and random choices", "why_tests_cant": "the claim is an equivalence over all diagrams and all orders: one side says that no diagram meeting the condition raises", "anchors": ["pycid/core/cid.py:CID.impute_optimal_policy", "pycid/core/cid.py:CID.solve", "pycid/analyze/value_of_information.py:quantitative_voi", "pycid/analyze/value_of_control.py:quantitative_voc"]}
{"id": "C101", "title": "Plain causal Bayesian networks: queries, expected values, copies, interventions, lists", "statement": "For a plain CausalBayesianNetwork in which every node has a function, a distribution or a fitting table: query returns exactly if the queried variables are nodes, there is at least one, none is in the context, and they lie in one connected component once the edges into intervened variables are cut, and then returns P(query | context, do(intervention)) if the context is possible; otherwise KeyError for an unknown queried variable, NetworkXError for an empty query, ValueError in the other cases. Any CPD may be in the context, including plain pgmpy tables. A context variable without domain raises KeyError, an outcome outside the domain ValueError. expected_value returns the conditional expectations, RuntimeError for an impossible context. A query changes nothing except that without intervention it may remove nodes not connected to the query. copy returns an indistinguishable network, intervene the truncated factorisation. A list as relationship raises ValueError, and the rejected list stays in the model: copies and interventional queries raise until it is replaced, and so can assignments to other nodes.", "quantifier": "all plain networks, relationships, queries, contexts and interventions", "why_tests_cant": "equality of distributions and an equivalence about raising, for all networks and all arguments", "anchors": ["pycid/core/causal_bayesian_network.py:CausalBayesianNetwork.query", "pycid/core/causal_bayesian_network.py:CausalBayesianNetwork.expected_value", "pycid/core/causal_bayesian_network.py:CausalBayesianNetwork.copy", "pycid/core/causal_bayesian_network.py:CausalBayesianNetwork.copy_without_cpds", "pycid/core/causal_bayesian_network.py:CausalBayesianNetwork.intervene", "pycid/core/causal_bayesian_network.py:CausalBayesianNetwork.add_cpds", "pycid/core/causal_bayesian_network.py:CausalBayesianNetwork.Model.to_tabular_cpd"]}
{"id": "C102", "title": "A relationship given by a lambda expression is labelled with the text of its body", "statement": "If a relationship is given by a lambda expression whose line contains the variable's name, the first `lambda` after the first occurrence of the name is that expression, one space follows the colon, brackets in the body are balanced and commas are within brackets, then the label of the CPD is exactly the text of the body. A given label is used as it is, a named function is labelled with its name, and without source, or if the name stands on another line, the label is empty. A callable that has no name and is not a function raises TypeError. If the name occurs earlier in the line, or no space follows the colon, the label is wrong.", "quantifier": "all lines of source, variable names and bodies", "why_tests_cant": "The label depends on the layout of the whole source line; a test looks at a few lines.", "anchors": ["pycid/core/cpd.py:StochasticFunctionCPD.compute_label", "pycid/core/cpd.py:StochasticFunctionCPD.__init__"]}
{"id": "C103", "title": "What repr shows for a CPD agrees with its table", "statement": "Printing a CPD shows one line for each assignment of values to its parents and no other. A line with an outcome means that the table gives the outcome probability 1; a line with a dictionary shows what the function returned, the probabilities in it are those of the table, and none of them is 1. While a parent has no domain no lines are shown and nothing is raised.", "quantifier": "all functions, parents, domains and completions of probabilities", "why_tests_cant": "It relates two independent computations for every function and every assignment.", "anchors": ["pycid/core/cpd.py:StochasticFunctionCPD.__repr__", "pycid/core/cpd.py:StochasticFunctionCPD.__init__"]}
{"id": "C104", "title": "Copies of copies and the network a CPD object refers to", "statement": "CPD objects keep a reference to the network they were made for, and copying them hands that reference on, so the CPD objects in a copy (for instance imputed decision rules) refer to the original. Copying such a network again (which every query with an intervention does) is faithful - same nodes, edges, roles, domains and probability of every outcome given the parents - as long as the network referred to still has, for those variables, the same parents with the same domains; in particular all copies of copies, of any depth, of an unchanged network are faithful. A network that holds only functions, distributions, lists and plain tables is copied independently of any other network. But a change to the original after copying can change or break what copying the copy gives: giving a parent other outcomes in the original silently changes the decision rule in a copy of the copy, giving it more outcomes makes queries on it raise ValueError, and intervening on the decision in the original makes copying the copy raise TypeError.", "quantifier": "every usable network, every assignment of networks that its CPD objects refer to, every depth of copying; concrete histories for the failures", "why_tests_cant": "The tests copy a network once and compare; whether a copy is independent of later changes to the original depends on hidden references, over all networks and depths of copying.", "anchors": ["pycid/core/cpd.py: StochasticFunctionCPD.copy, DecisionDomain.copy, parent_values", "pycid/core/causal_bayesian_network.py: CausalBayesianNetwork.copy, query"]}
{"id": "C105", "title": "Functions whose parameters do not match the parents", "statement": "When a function is assigned to a variable all of whose parents have outcomes, parameters that do not match the parents (a parameter without default that is no parent, or a parent that is no parameter while there is no **kwargs) make the assignment raise TypeError - not the documented ValueError - and the relationship stays stored without a CPD. While some parent has no outcomes yet, the assignment of any function succeeds; the TypeError is then raised by the assignment of the last parent, which is not at fault. If the parameters match, the CPD (or exception) is that of the function's body on the parents' values.", "quantifier": "every network, variable and Python function signature (parameters with and without defaults, **kwargs)", "why_tests_cant": "which exception is raised, and when, over all signatures, graphs and states of the network", "anchors": ["pycid/core/cpd.py: StochasticFunctionCPD.__init__, stochastic_function, check_function_arguments_match_parent_names", "pycid/core/causal_bayesian_network.py: CausalBayesianNetwork.Model.__setitem__"]}
{"id": "C106", "title": "Table objects are read by position", "statement": "Assigning any relationship replaces the outcome names stored in every table object by the domains the network has recorded. Inside the network a TabularCPD with its own names for the outcomes of its parents is therefore read by position: the probability used for given values of the parents is the entry of the user's table under the names standing at the same positions. The table keeps its meaning if the user listed the outcomes of every parent in the order the network records; FALSE otherwise: a table stating that D equals A, with the outcomes of A listed as 1, 0, is taken to state that D differs from A, without any exception.", "quantifier": "every fully parameterised network, every TabularCPD with arbitrary names of the parents' outcomes, every assignment of outcomes", "why_tests_cant": "ranges over all tables, numbers of parents and orders of names; the tests use tables with default or agreeing names only", "anchors": ["pycid/core/causal_bayesian_network.py:CausalBayesianNetwork.Model.sync_state_names", "pycid/core/causal_bayesian_network.py:CausalBayesianNetwork.Model.__setitem__"]}
{"id": "C107", "title": "Removing a node, and roles of nodes that are not in the graph", "statement": "remove_node of a node of a fully parameterised network returns: the node, its edges, its relationship and its CPD are gone, the CPD of each child becomes the plain average over the outcomes of the removed node, all other CPDs are as before, and check_model passes. remove_node of anything else raises ValueError and changes nothing. Removing a chance node without children is harmless: the network stays usable and every event about the remaining variables keeps its probability. FALSE that the result is a usable network in general: a removed decision or utility node stays listed as decision or utility, and copy, copy_without_cpds and every query with an intervention then raise KeyError; if a child is given by a function that needs the removed argument (and no relationship is a TabularCPD), copy never returns a network; and averaging is not marginalising, so the distribution of a child changes unless the removed node was uniform. The other relationships are as before, except that a child given as a CPD object is given by the averaged object. In an incomplete network the node is removed too, provided the existing CPDs of its children mention it; if one does not (the edge was added after the CPD), remove_node raises ValueError and the node stays. In the same way the constructor accepts decisions and utilities that occur in no edge, and the diagram cannot be copied.", "quantifier": "every fully parameterised network, every node; for the constructor every list of edges and all role dictionaries", "why_tests_cant": "ranges over all networks and nodes; the only test that calls remove_node directly is a function pytest does not collect", "anchors": ["pycid/core/causal_bayesian_network.py:CausalBayesianNetwork.remove_cpds", "pycid/core/causal_bayesian_network.py:CausalBayesianNetwork.copy", "pycid/core/macid_base.py:MACIDBase.copy_without_cpds", "pycid/core/macid_base.py:MACIDBase.__init__"]}
{"id": "C108", "title": "Effect of columns that sum to 1 only approximately", "statement": "Columns of CPDs may miss the sum 1 by up to 0.01. If no CPD has a negative entry, which holds whenever all relationships are functions, dictionaries or decision domains, then a query without intervention that returns gives, for every combination of outcomes, a number between 0 and 1 that is within a factor (101/99)^n of the conditional probability in the network whose columns are all divided by their sums, where n is the number of variables with a column that does not sum to exactly 1 (so n = 0 means exact); the undefined result appears exactly if the context is impossible in that rescaled network. (Context variables connected to the queried ones.) Not true: that rounding stays with its variable (a fair coin whose child has columns with sums 0.995 and 1.005 is reported as 0.4975/0.5025), and that every accepted network gives probabilities (a TabularCPD object with entries -1 and 2 is accepted and the query returns numbers outside 0 to 1).", "quantifier": "every complete network accepted by the library without negative entries, every list of queried variables, every context of connected variables, every order in which the engine lists variables", "why_tests_cant": "The error bound has to hold for all networks, all roundings of their columns and all contexts; tests only compare a few rounded numbers.", "anchors": ["pycid/core/cpd.py: StochasticFunctionCPD.__init__ (lines 105-116)", "pycid/core/causal_bayesian_network.py: CausalBayesianNetwork.query", "pycid/core/macid_base.py: MACIDBase.query"]}
{"id": "C109", "title": "Writing a game to a file", "statement": "macid_to_gambit_file either returns True, and then the file holds the text of the game tree of all decisions and all agents (the tree of C66) and every other file and the network are unchanged, or raises the exception of the conversion before the file is touched. At whatever moment the program is killed, other files are unchanged and the file holds its old content or a beginning of the new text. Not true: that an earlier file survives until the new one is complete (there is always a moment at which the file is empty), and that every small connected game can be written (a player who owns a decision but no utility node is not in `agents` and the conversion raises KeyError).", "quantifier": "every usable connected diagram, every content of the disk, every file name, every way in which the text is passed on in pieces, every moment at which the program is killed", "why_tests_cant": "Crash points and buffering are not under a test's control; the claim is about every moment of the call and every game.", "anchors": ["pycid/export/gambit.py: macid_to_gambit_file", "pycid/export/gambit.py: macid_to_efg", "pycid/export/gambit.py: _add_players"]}
{"id": "C110", "title": "Answers to different queries fit together", "statement": "Whenever the queries concerned return and the context has positive probability: (a) the answer depends only on which variables are asked for and which values are observed, not on the order in which they are listed or stored; (b) the answer for two groups of variables together is the answer for the first given the second, times the answer for the second; (c) the answer for a group of variables is the sum of the answers for a larger group over the outcomes of the others; (d) further observations do not change the answer if, in a copy on which the interventions were carried out, is_dconnected is False between every queried and every further observed variable given the context and the intervened variables; (e) a further intervention does not change the answer if, after the other interventions, no queried and no observed variable is a descendant of the variable set. All of this holds under every set of admissible interventions.", "quantifier": "every usable network, every lists of queried variables, contexts and interventions on which the queries return, every combination of outcomes, every order in which the engine lists variables", "why_tests_cant": "These are relations between calls with different arguments over all networks; a test compares a few calls on a few networks.", "anchors": ["pycid/core/macid_base.py: MACIDBase.query", "pycid/core/causal_bayesian_network.py: CausalBayesianNetwork.query", "pycid/core/causal_bayesian_network.py: CausalBayesianNetwork.intervene", "pycid/core/macid_base.py: MACIDBase.is_dconnected"]}
{"id": "C111", "title": "Arguments declared as Iterable that can be read only once", "statement": "Edges, queried variables, decisions, nodes and agents are declared as Iterable. For collections that can be read again (lists, tuples, sets) the functions do what the other properties say. FALSE for generators and other iterators with the same elements: the constructors return a network without nodes, also for edges that form a cycle, and record the roles nevertheless; a query on a diagram with a decision that is answered for a list raises and, without intervention, has then deleted all nodes of the diagram; is_r_reachable looks at the first decision only, so it may return False although a node is reachable; the relevance graph has no edges; create_subgame returns a diagram without decisions; the game made by macid_to_efg has no payoffs.", "quantifier": "every list of edges, every usable diagram, every query that is answered, every list of decisions, nodes or agents", "why_tests_cant": "The type of an argument is not visible at the call; the claims are about all element sequences and all diagrams, and the failures are mostly silent.", "anchors": ["pycid/core/causal_bayesian_network.py: CausalBayesianNetwork.__init__", "pycid/core/macid_base.py: MACIDBase.query", "pycid/core/macid_base.py: MACIDBase.is_r_reachable", "pycid/core/relevance_graph.py: RelevanceGraph.__init__", "pycid/core/macid.py: MACID.create_subgame", "pycid/export/gambit.py: macid_to_efg"]}
{"id": "C112", "title": "Pictures show roles, owners, properties and components faithfully", "statement": "draw shows every node once, with the colour, shape and text of the functions given or the defaults, and puts the text beside the node, on the side towards the horizontal axis. By default the shape tells the role (square: decision, diamond: utility, circle: chance); in a CID so does the colour; a plain Bayesian network is drawn with light gray circles; in a MACID whose players all own a utility, chance nodes are gray and two other nodes have the same place on the colour scale exactly if they belong to the same agent. The text is the label of the CPD, empty for pgmpy tables and nodes without CPD. draw_property gives its colour to exactly the nodes with the property, if it is not used otherwise. draw_sccs gives two decisions the same place on the colour scale exactly if they are in the same component of the relevance graph. FALSE for a MACID with a decision of an agent without utility: drawing it raises ValueError.", "quantifier": "every diagram with consistent roles, every node property, every relevance graph, every layout", "why_tests_cant": "Pictures are not compared by tests; the claims are about every number of agents, nodes and components.", "anchors": ["pycid/core/causal_bayesian_network.py: CausalBayesianNetwork.draw", "pycid/core/causal_bayesian_network.py: CausalBayesianNetwork.draw_property", "pycid/core/cid.py: CID._get_color", "pycid/core/macid_base.py: MACIDBase._get_color", "pycid/core/macid_base.py: MACIDBase._get_shape", "pycid/core/relevance_graph.py: RelevanceGraph.draw_sccs"]}
{"id": "C113", "title": "Relationships that always make sense can always be assigned", "statement": "Announce for every node of an acyclic network the outcomes it may take. If every node is given a function, a distribution or a list of outcomes such that, whatever announced values the parents take, it yields an announced outcome or a proper distribution over announced outcomes (no negative probability, a total of one, or of at most one with some outcome left open), then add_cpds succeeds, whatever the order of its arguments, and so does assigning only some of them. Afterwards the network is complete, every column sums to one, every node has at least one outcome and only announced ones, the outcomes of a node are exactly those its relationship can yield (or the list given, in its order), and the probability of an outcome is the one stated or an even share of what is left open; a function that returns plain outcomes makes a deterministic variable. A distribution with a total below one and nothing left open is refused with a ValueError.", "quantifier": "all acyclic networks, all announced outcomes, all relationships that respect them, all orders of assignment and all parts of the list", "why_tests_cant": "Success has to hold for every network and every family of functions; a test tries a few parameterisations in one order.", "anchors": ["pycid/core/causal_bayesian_network.py: CausalBayesianNetwork.add_cpds, Model.__setitem__", "pycid/core/cpd.py: StochasticFunctionCPD.__init__, possible_values, stochastic_function, ConstantCPD, DecisionDomain"]}
{"id": "C114", "title": "The shipped two-player games have the solutions they are known for", "statement": "prisoners_dilemma, battle_of_the_sexes, matching_pennies, taxi_competition and modified_taxi_competition can be built and are usable games. For every payoff table, and every assignment of policies, mixed ones included, each agent's expected utility is the payoff table averaged over the choices; the assignment is a Nash equilibrium exactly if neither player gains in the table; and when the second player sees the first player's choice, it is subgame perfect exactly if the second player replies optimally to every choice, taken or not, and the first player makes the best of these replies. In particular the prisoner's dilemma has one equilibrium (both defect), matching pennies one (both choose evenly), battle of the sexes three, taxi competition a unique subgame perfect equilibrium but infinitely many mixed equilibria, and the modified taxi competition leaves exactly the second taxi's reply to the cheap hotel free.", "quantifier": "all finite payoff tables and lists of choices, all mixed policies of both players, both information structures; and for each of the five shipped games all mixed policies", "why_tests_cant": "A test compares the equilibria a solver finds with a list; that there are no others among the uncountably many mixed strategies, and that no mixed deviation gains, ranges over all of them.", "anchors": ["pycid/examples/story_macids.py: prisoners_dilemma", "pycid/examples/story_macids.py: battle_of_the_sexes", "pycid/examples/story_macids.py: matching_pennies", "pycid/examples/story_macids.py: taxi_competition", "pycid/examples/story_macids.py: modified_taxi_competition", "pycid/core/macid.py: MACID.get_ne", "pycid/core/macid.py: MACID.get_spe", "pycid/core/macid_base.py: MACIDBase.expected_utility"]}
{"id": "C115", "title": "The answers of the incentive functions fit together and do not depend on how the diagram was written down", "statement": "For a one-agent diagram with sufficient recall: requisite_graph, admits_voc, admits_dir_voc and admits_ri depend only on the nodes, edges and roles, not on the order in which they were added. A node that is not a decision has value of control iff it has direct value of control or some decision has a response incentive on it. If no decision follows d, there is an instrumental control incentive on another node iff it is downstream of d and has direct value of control. With one decision, there is a response incentive on a node iff it is or influences an observation with value of information. An instrumental control incentive excludes value of information and a response incentive. A node can have value of control that is neither direct nor indirect.", "quantifier": "every one-agent diagram with sufficient recall, all nodes and decisions, all orders of insertion and of set iteration", "why_tests_cant": "the relations range over all graphs and all insertion orders; tests look at a few fixed graphs in one order", "anchors": ["pycid/analyze/requisite_graph.py: requisite_graph", "pycid/analyze/value_of_control.py: admits_voc", "pycid/analyze/value_of_control.py: admits_dir_voc", "pycid/analyze/value_of_control.py: admits_indir_voc", "pycid/analyze/response_incentive.py: admits_ri", "pycid/analyze/value_of_information.py: admits_voi", "pycid/analyze/instrumental_control_incentive.py: admits_ici"]}
{"id": "C116", "title": "A missing policy stops a query exactly when it can matter", "statement": "query raises ValueError because of a decision without policy only if the answer may depend on that policy: for the same diagram there are CPDs, a context and an intervention on the same variables, and two policies of that decision that lead to different answers, an outcome being impossible under one and possible under the other. Conversely, if the mechanism of a variable is not connected to the queried variables in the mechanism graph (cut at the interventions, given context and interventions), every two CPDs of it lead to the same answer. So the graphical test is neither too strict nor too lax as far as the diagram alone can tell.", "quantifier": "every diagram, all query variables, contexts and interventions, every decision without policy and, for the converse, every two CPDs of a variable", "why_tests_cant": "that the test is not too strict is a statement about the existence of CPDs for every diagram; that it is not too lax is one about all CPDs", "anchors": ["pycid/core/macid_base.py: query (165-182)", "pycid/core/macid_base.py: MechanismGraph", "pycid/core/causal_bayesian_network.py: query"]}
{"id": "C117", "title": "The answers of query obey the rules of the do-calculus", "statement": "Let G be the diagram without the edges into the intervened variables. (1) An observation can be added to or dropped from the context if its variable is d-separated in G from the queried variables given context and intervention. (2) A variable can be moved from the context to the intervention, with the same value, if it is d-separated from the queried variables, given the rest, in G without the edges out of it; then the context keeps positive probability. (3) An intervention can be added or dropped if a new parent of its variable would be d-separated from the queried variables; that is, if the variable is d-separated from them in G, with the edges into it removed, too, unless something below it is observed. The order in which interventions are listed does not matter. Rules (2) and (3) also hold for several variables at once.", "quantifier": "every network, all query variables, contexts and interventions for which both queries are answered and the contexts have positive probability", "why_tests_cant": "equality of answers for all CPDs and all graphs with the given separation; tests compare a few numbers", "anchors": ["pycid/core/causal_bayesian_network.py: query", "pycid/core/causal_bayesian_network.py: intervene", "pycid/core/macid_base.py: query"]}
{"id": "C118", "title": "The answers of is_dconnected obey the laws of d-separation", "statement": "For every acyclic graph: if X is separated from Y and W given Z, it is separated from Y given Z and W (weak union); if X is separated from W given Z and from Y given Z and W, it is separated from both given Z (contraction); if X is separated from Y given Z and W, and from W given Z and Y, with Y and W disjoint, it is separated from both given Z (intersection); if x and y are each connected to w, then x and y are connected, either without observing w or observing it (weak transitivity). Given its parents a node is connected exactly to itself and its descendants. Observations separate a node from all others iff they contain its parents, its children and their other parents. Two nodes are not joined by an edge iff some set of other nodes separates them. x and y are connected given Z iff they are connected outside Z in the moral graph of the ancestors of x, y and Z. Adding edges never separates.", "quantifier": "all acyclic graphs, all nodes and sets of nodes, every order in which the work list is processed", "why_tests_cant": "the laws relate answers to several questions about arbitrary graphs and sets of observations; a test compares single answers on chosen graphs", "anchors": ["pycid/core/get_paths.py: is_active_path, find_active_path", "pycid/core/macid_base.py: is_r_reachable, query, active_trail_nodes", "pycid/analyze/requisite_graph.py: requisite"]}
{"id": "C119", "title": "A prediction that sees an attribute introduces no effect of it", "statement": "Let impute_conditional_expectation_decision(d, y) have succeeded, where y is connected to d and does not depend on d, and let d observe s. If the other observations of d leave no active back-door trail from s to y - in particular if s has no parents - then for every value of s the expectation of d under the intervention that sets s to it is the expectation of y under that intervention, and introduced_total_effect(s, d, y, a0, a1) is 0 whenever it returns, with and without adapt_marginalized. A predictor that does not see s can introduce an effect.", "quantifier": "all networks ready to be queried before and after the imputation, all nodes d, y, s, all values of s, all orders of elimination", "why_tests_cant": "the equality must hold for every network and every conditional probability table; tests fix the tables", "anchors": ["pycid/core/macid_base.py: impute_conditional_expectation_decision", "pycid/analyze/effects.py: introduced_total_effect, total_effect", "pycid/core/causal_bayesian_network.py: expected_value"]}
{"id": "C120", "title": "What equilibria are worth", "statement": "In a game where one agent takes all the decisions, no policy, mixed ones included, is worth more to that agent than a profile returned by get_ne, and the profiles get_ne returns are worth exactly what the policies optimal_pure_policies returns (with exact comparison) are worth. In a game of two agents whose expected utilities always add up to a constant, all profiles get_ne returns are worth the same to each agent; the rules of one agent from one equilibrium and of the other from another form an equilibrium again, worth the same; the rules of an agent in an equilibrium secure at least its value against everything the other does, and no other rules secure more.", "quantifier": "all games ready to be queried, all equilibria in mixed rules, all results of get_ne, all sound solvers, all set orders", "why_tests_cant": "the comparison is with infinitely many mixed policies of all networks; tests compare a few known equilibria", "anchors": ["pycid/core/macid.py: get_ne, get_ne_in_sg", "pycid/core/macid_base.py: optimal_pure_policies, expected_utility", "pycid/examples/story_macids.py: matching_pennies"]}
{"id": "C121", "title": "The scale of the utilities does not matter", "statement": "Take a second version of a diagram whose only difference is that the utilities of every agent are on another scale: each outcome x of a utility node of agent a is replaced by k_a*x + c_a, with k_a > 0 and the same probabilities, and no decision observes a utility. Then expected_utility of a in the second version is k_a times the one in the first plus c_a for each utility node; the maximal expected utility over all policies moves in the same way; a profile is an equilibrium of the one version exactly when it is one of the other; and quantitative_voi and quantitative_voc are multiplied by k_0, the constants having no effect.", "quantifier": "all pairs of diagrams that differ only in scale, all scales with positive units, all profiles of mixed rules, all set orders and seeds", "why_tests_cant": "tests compare one diagram with one scaled copy (get_5node_cid_with_scaled_utility); the claim is about all diagrams and scales", "anchors": ["pycid/core/macid_base.py: expected_utility", "pycid/analyze/value_of_information.py: quantitative_voi", "pycid/analyze/value_of_control.py: quantitative_voc", "pycid/examples/simple_cids.py: get_5node_cid_with_scaled_utility", "pycid/core/macid.py: get_ne"]}
{"id": "C122", "title": "The front-door adjustment", "statement": "Let x, m and y be different nodes such that every directed path from x to y goes through m, is_active_backdoor_trail finds none from x to m, and none from m to y when x is observed. Then the effect of an intervention on x, although x and y may have hidden common causes, can be computed from answers without interventions: the answer to query([y], {}, {x: v}) is the sum over the outcomes of m of P(m | x = v) times the sum over the outcomes x' of x of P(y | x', m) P(x'), each factor being an entry of an answer of query. total_effect between x and y is computed from the same sums. Two networks that agree on the joint distribution of x, m and y, both with this property, agree on the effect whatever their other variables are.", "quantifier": "all networks, all nodes x, m, y with the property, all outcomes, all set and elimination orders; the outcomes of x must all be possible together with the outcomes of m", "why_tests_cant": "the identity is over all graphs with a front door and all CPDs; tests evaluate single interventions", "anchors": ["pycid/core/causal_bayesian_network.py: query, intervene", "pycid/core/get_paths.py: is_active_backdoor_trail", "pycid/analyze/effects.py: total_effect"]}
{"id": "C123", "title": "What observations are worth to one decision maker", "statement": "In diagrams with one decision maker, letting decisions observe more never lowers the maximal expected utility. If admits_voi is False for x in the diagram in which the decision d already observes y, then y is at least as good an observation as x: the maximum with y is at least the maximum with x, and equal to the maximum with both. Under sufficient recall: quantitative_voi returns 0 whenever admits_voi is False; under the same condition as before quantitative_voi of x is at most that of y; and the value of observing x plus the value of then also observing y is the value of observing y plus the value of then also observing x.", "quantifier": "all diagrams with one decision maker, all sets of additional observations, all pairs x, y, all set orders and seeds", "why_tests_cant": "tests evaluate quantitative_voi on single diagrams; the inequalities and the chain rule relate different diagrams for all CPDs", "anchors": ["pycid/analyze/value_of_information.py: admits_voi, quantitative_voi", "pycid/core/macid_base.py: expected_utility", "pycid/core/cid.py: impute_optimal_policy"]}
{"id": "C124", "title": "What observations are worth in games", "statement": "In a game of two agents whose expected utilities always add up to the same number, letting the decisions of one agent observe more never hurts that agent: every Nash equilibrium of the game with the additional observations gives the agent at least what any Nash equilibrium without them gives; this holds in particular for the profiles get_ne returns for the two games. In a table game where the second player sees the choice of the first, the first player gets in every subgame perfect equilibrium at least the payoff of any choice to which the second player has a single best reply. Without the constant sum an observation can hurt the agent who makes it: there is a two-player table game in which the second player gets 2 in every equilibrium without seeing the first choice and 1 in every subgame perfect equilibrium when seeing it.", "quantifier": "all MACIDs with two agents and constant sum, all sets of additional observations of one of them, all equilibria in pure or mixed policies; all payoff tables", "why_tests_cant": "tests compute equilibria of single games; the comparison relates all equilibria of two different games for all CPDs", "anchors": ["pycid/core/macid.py: get_ne, get_spe", "pycid/core/macid_base.py: expected_utility, add_edge", "pycid/examples/story_macids.py: matching_pennies, taxi_competition"]}
{"id": "C125", "title": "The small example games have the solutions their documentation says", "statement": "The two-player games of simple_macids can be built, and their utilities pay what the tables in their documentation say, for all strategies. Among all strategies, mixed ones included: two_agent_one_pne has exactly one Nash equilibrium, both choose 0; two_agent_two_pne has exactly two pure equilibria, in which the agents choose differently, and one mixed one, probability one half each; two_agent_no_pne has exactly one equilibrium, probability one half each, hence no pure one; two_agents_three_actions has exactly one equilibrium, T and L. basic_different_dec_cardinality has exactly one subgame perfect equilibrium: 1, answering 0 by 1 and 1 by 2. In basic2agent_tie_break the strategies are subgame perfect exactly if the first agent chooses 1 and the second answers 0 by 1, whatever the answer to 1.", "quantifier": "all policies, pure or mixed, that can be given to the decisions of these games", "why_tests_cant": "the tests compare lists of pure equilibria; that there are no others among the infinitely many mixed strategies cannot be enumerated", "anchors": ["pycid/examples/simple_macids.py: basic2agent_tie_break, two_agent_one_pne, two_agent_two_pne, two_agent_no_pne, two_agents_three_actions, basic_different_dec_cardinality", "pycid/core/macid.py: get_ne, get_spe"]}
{"id": "C126", "title": "subgame_mixed_spe has one subgame perfect equilibrium, and it is mixed", "statement": "The game subgame_mixed_spe of simple_macids can be built. Among all strategies of its seven agents, mixed ones included, exactly one profile is a subgame perfect equilibrium: agent 1 chooses 1 and every other decision is 0 or 1 with probability one half. Hence no pure profile is subgame perfect. The same profile is the only Nash equilibrium of the game. Expected utilities are the products that the utility functions compute, with the probabilities of choosing 1 in place of the choices, and these probabilities can be chosen freely.", "quantifier": "all policies, pure or mixed, that can be given to the seven decisions; all subgames", "why_tests_cant": "that there is no other equilibrium ranges over a seven-dimensional continuum of mixed profiles and over all subgames", "anchors": ["pycid/examples/simple_macids.py: subgame_mixed_spe", "pycid/core/macid.py: get_spe, get_ne", "pycid/core/macid_base.py: expected_utility"]}
{"id": "C127", "title": "The recall examples behave as documented", "statement": "get_sequential_cid and get_insufficient_recall_cid of simple_cids can be built; sufficient_recall() is True for the first and False for the second, whatever order networkx uses. In the sequential diagram the rule of D1 changes the expected value of U2 (from 1 to 0 for a suitable fixed rule of D2), yet copying S2 is the best rule for D2 whatever rule D1 uses; the optimal policies are exactly those in which both decisions copy what they observe, and impute_optimal_policy always succeeds and imputes this policy, with expected utility 2. In the other diagram expected utility is the product of the probabilities of choosing 1; the only optimal policy chooses 1 twice, but the policy that never chooses 1 cannot be improved by changing one decision rule either. impute_optimal_policy succeeds there too and reaches expected utility 1 up to the tolerance with which policies are compared.", "quantifier": "all policies, deterministic or not, all orders in which networkx and sets return nodes, all random draws", "why_tests_cant": "optimality ranges over a continuum of stochastic policies, and the result of impute_optimal_policy over set orders and random draws", "anchors": ["pycid/examples/simple_cids.py: get_sequential_cid, get_insufficient_recall_cid", "pycid/core/cid.py: impute_optimal_policy", "pycid/core/macid_base.py: sufficient_recall, expected_utility"]}
{"id": "C128", "title": "The example of introduced bias behaves as documented", "statement": "get_introduced_bias can be built. Whatever rule D uses, total_effect of A from 0 to 1 is 1/2 on X and 1/2 on Y, and on D it is half the difference between the probabilities of answering 1 after X = 1 and after X = 0; introduced_total_effect, adapted or not, is that minus 1/2, hence never positive while the options of D are 0 and 1. The optimal rule is to copy X, and it is the only rule that introduces no effect; impute_optimal_policy always succeeds and imputes it. After impute_conditional_expectation_decision(D, Y), D answers 1/3 after X = 0 and 2 after X = 1, and the introduced effect is 1/3: the predictor favours A = 1 although it only observes X.", "quantifier": "all decision rules, deterministic or not, all orders networkx and sets may use, adapted or unadapted effects, and every policy in place before the conditional expectation is imputed", "why_tests_cant": "tests check the reported effect for two imputed rules; the formula and the equivalence with optimality range over a continuum of rules", "anchors": ["pycid/examples/story_cids.py: get_introduced_bias", "pycid/analyze/effects.py: introduced_total_effect, total_effect", "pycid/core/macid_base.py: impute_conditional_expectation_decision"]}
{"id": "C129", "title": "Incentives in the story diagrams", "statement": "The six diagrams of story_cids without CPDs can be built, and admits_voi_list, admits_ri_list, admits_ici_list and admits_voc_list return the same nodes for them whatever order networkx and sets use: for the grade predictor {HS, E, Gr}, {R, HS}, {P, Ac}, {R, HS, E, Gr, Ac}; for the content recommender {O, M}, {O, M}, {I, P, C}, {O, I, M, C}; for the modified one {M}, {O, M}, {P, C}, {O, M, C}; and likewise for the other three. A chance node is listed by admits_voi_list exactly if CPDs exist under which observing it raises the maximal expected utility, a node other than the decision by admits_ri_list exactly if CPDs exist under which every optimal rule responds to it, and by admits_voc_list exactly if CPDs exist under which controlling it as well is worth something. In the grade predictor, under all CPDs some optimal rule does not respond to gender Ge, while CPDs exist under which every optimal rule responds to race R. In the content recommender CPDs exist under which the posts influence the clicks through the opinions I only; in the modified one, under all CPDs, interventions on the opinions do not change the distribution of the clicks.", "quantifier": "all CPDs that can be given to the diagrams, all policies, all orders networkx and sets may use", "why_tests_cant": "tests compare some of the lists for one order; that they are right for all parameterisations ranges over infinitely many CPDs and policies", "anchors": ["pycid/examples/story_cids.py: get_fitness_tracker, get_car_accident_predictor, get_content_recommender, get_content_recommender2, get_modified_content_recommender, get_grade_predictor", "pycid/analyze/value_of_information.py: admits_voi_list", "pycid/analyze/response_incentive.py: admits_ri_list", "pycid/analyze/instrumental_control_incentive.py: admits_ici_list", "pycid/analyze/value_of_control.py: admits_voc_list"]}
{"id": "C130", "title": "An optimal policy needs the requisite observations only", "statement": "In a parameterised influence diagram whose decisions all belong to one agent there is an optimal policy whose choice at each decision depends on nothing but the parents that requisite_graph leaves it. get_trim_example_cid can be built; its requisite graph has, whatever order networkx and sets use, the seven edges Y1->D1, Y1->Y2, Y2->D2, Y2->U, D1->Y2, Z1->Z2, D2->U; so, whatever CPDs the example is given, some optimal policy chooses D1 by looking at Y1 only and D2 by looking at Y2 only.", "quantifier": "all diagrams of one agent with any CPDs and any number of decisions; for the example all CPDs and all orders networkx and sets may use", "why_tests_cant": "the tests count the edges of one requisite graph in one run; they do not compare policies and cannot try all CPDs", "anchors": ["pycid/analyze/requisite_graph.py:requisite_graph", "pycid/analyze/requisite_graph.py:requisite", "pycid/examples/simple_cids.py:get_trim_example_cid"]}
{"id": "C131", "title": "Reliance, subgames and recall in the multi-agent example diagrams", "statement": "The diagrams get_basic_subgames, get_basic_subgames2, get_basic_subgames3, tree_doctor, forgetful_movie_star, subgame_difference and politician can be built, and for each of them, whatever order networkx uses, is_s_reachable is True for a fixed set of pairs of decisions, RelevanceGraph has these pairs as edges, decs_in_each_maid_subgame lists fixed sets of decisions (4 for get_basic_subgames, 5 for get_basic_subgames3), and sufficient_recall(agent) has a fixed answer (False only for agent 1 of forgetful_movie_star). A pair (d, e) is among them exactly if the diagram can be given CPDs and rules such that a change of the rule of e leaves no rule of d that is a best response before and after.", "quantifier": "all orders networkx may use, all enumerations of the strongly connected components, and, for the meaning of the pairs, all CPDs and rules", "why_tests_cant": "tests see one order and count subgames; they cannot try all CPDs and rules", "anchors": ["pycid/examples/simple_macids.py:get_basic_subgames", "pycid/examples/simple_macids.py:get_basic_subgames2", "pycid/examples/simple_macids.py:get_basic_subgames3", "pycid/examples/story_macids.py:tree_doctor", "pycid/examples/story_macids.py:forgetful_movie_star", "pycid/examples/story_macids.py:subgame_difference", "pycid/examples/story_macids.py:politician", "pycid/core/macid_base.py:MACIDBase.is_s_reachable", "pycid/core/macid.py:MACID.decs_in_each_maid_subgame"]}
{"id": "C132", "title": "What an optimal policy and an observation are worth in the small example diagrams", "statement": "The diagrams get_minimal_cid, get_3node_cid, get_5node_cid, get_5node_cid_with_scaled_utility, get_2dec_cid and get_quantitative_voi_cid can be built. On each of them impute_optimal_policy succeeds, changes nothing but the decision rules, and expected_utility({}) then returns 1, 1, 3/2, 11, 1 and 3/5 respectively, which is the highest expected utility any decision rules reach. On the last one quantitative_voi returns 3/5 for D and X and 2/5 for D and S. D observes S1 and S2 in the diagrams with five nodes, and X, which agrees with S with probability 4/5, in the last one.", "quantifier": "all orders networkx and sets may use, all policies drawn among the optimal ones, all decision rules", "why_tests_cant": "tests see one order and one drawn policy, and cannot compare with all stochastic decision rules", "anchors": ["pycid/examples/simple_cids.py:get_minimal_cid", "pycid/examples/simple_cids.py:get_3node_cid", "pycid/examples/simple_cids.py:get_5node_cid", "pycid/examples/simple_cids.py:get_5node_cid_with_scaled_utility", "pycid/examples/simple_cids.py:get_2dec_cid", "pycid/examples/simple_cids.py:get_quantitative_voi_cid", "pycid/core/cid.py:CID.impute_optimal_policy", "pycid/analyze/value_of_information.py:quantitative_voi"]}
{"id": "C133", "title": "Seeing and doing in the example causal Bayesian networks", "statement": "The networks get_3node_cbn, get_3node_uniform_cbn, get_minimal_cbn and get_fork_cbn can be built and queried. expected_value distinguishes observing from intervening: in get_3node_cbn the average of U is d given D = d but 0 under the intervention D = d; in get_minimal_cbn the average of A is x given B = x but 1/2 under the intervention B = x. The causes of C in get_fork_cbn and get_3node_uniform_cbn are independent until C is observed: the average of A given B does not depend on B, given C = a * b it is a in get_fork_cbn, and intervening on C does not change it.", "quantifier": "all orders sets may use, all outcomes of the observed and intervened variables", "why_tests_cant": "tests try single outcomes and see one order", "anchors": ["pycid/examples/simple_cbns.py:get_3node_cbn", "pycid/examples/simple_cbns.py:get_3node_uniform_cbn", "pycid/examples/simple_cbns.py:get_minimal_cbn", "pycid/examples/simple_cbns.py:get_fork_cbn", "pycid/core/causal_bayesian_network.py:CausalBayesianNetwork.expected_value"]}
{"id": "C134", "title": "Interventions one after the other", "statement": "Any number of calls to intervene, on the same or on different variables and with listed outcomes, succeeds and amounts to one intervention in which each variable gets the value it was given last: every event has the probability it has under that one intervention, and expected_value on a plain network returns its expected values.", "quantifier": "all networks whose CPDs are complete, all finite sequences of calls to intervene on variables whose outcomes are in increasing order or which have no child given as a table, all orders sets may use", "why_tests_cant": "tests make one or two calls on one network", "anchors": ["pycid/core/causal_bayesian_network.py:CausalBayesianNetwork.intervene", "pycid/core/causal_bayesian_network.py:CausalBayesianNetwork.expected_value", "pycid/examples/simple_cbns.py:get_minimal_cbn"]}

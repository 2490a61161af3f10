# Formal model of causalincentives/pycid in Lean 4

## How the model is organised

All modules live in `lean/Verif/`.

* `Model/*.lean` models the code: one Lean definition per Python function, branch by branch. Exceptions are values (`Py a := Except Err a`).
  A method that changes an object returns the new object together with the result, also when it raises. Every definition cites the file and
  lines in /repo it models and says where it simplifies.
* `Spec/*.lean` is the vocabulary in which the properties are stated: paths, d-connection, joint distributions, expected utility, subgames,
  game trees, equilibria. It does not use the model's helper functions, only its data types (graphs, role dictionaries, CPD tables).
* `Lemmas/*.lean` are proofs.
* `Props/*.lean` contains the theorems `Cnn_...` that `MANIFEST.json` lists. Next to each theorem an `example` or a theorem `Cnn_example`
  shows a concrete case that meets the hypotheses, or a theorem `Cnn_counterexample` runs the model on a case where the claim is false.

## Modelling conventions

* Node names are `String`, because the mechanism graph concatenates `"mec"`. Agents are natural numbers. Outcomes are rational numbers.
* A graph is a list of nodes and a list of edges in insertion order, as networkx's dictionaries keep them. A Python dict is an association
  list in insertion order (`Dict`).
* Where the iteration order of a Python `set` can matter, the model takes an arbitrary order function (`ord`, `setOrd`, `enumSet`, ...) that
  returns a permutation of its argument, and the theorems quantify over it. `set.pop()` and the choice of the next node in networkx'
  topological sort are arbitrary functions (`pick`, `tpick`, `stpick`).
* Probabilities are exact rationals. Floating point rounding is not modelled, so `np.isclose`, `np.allclose` and tolerances are modelled with
  their documented inequality on rationals.
* `random` and `np.random` are arbitrary tapes of draws. A program that has used up its tape "is still running" (`Run`); theorems quantify
  over all tapes. `RandomCPD` and `temp_seed` use an explicit generator state, whose operations (`seed`, `get_state`, `set_state`, draws) are
  parameters constrained by `Rng.Sound`.
* `hash(str)` is an arbitrary function.
* Loops "until done" have explicit fuel. A theorem shows that the fuel the model uses is always enough, or the loop is a `Run`.
* `functools.lru_cache` on `opt_policy` is modelled by evaluating the function once per context, in the order of the calls.
* pygambit's solvers are an arbitrary function from game trees to lists of behaviours. `SoundSolvers` says that what it returns are behaviour
  strategies that form Nash equilibria; only the theorems about equilibria assume it.
* networkx's strongly connected components are an arbitrary function constrained by `IsSccs`.

## Trusted base

* Lean 4.33.0's kernel, and the definitions of Mathlib used in statements (lists, permutations, rationals, `ReflTransGen`).
* Axioms: `propext`, `Classical.choice`, `Quot.sound` and nothing else. `AXIOMS.txt` lists the axioms of each theorem as printed by
  `#print axioms`.
* That the definitions in `Model/` and `Spec/` say what the Python code and the English properties say. This is by reading.
* The dependencies pgmpy 0.1.17, networkx, numpy and pygambit are not in /repo. What pycid uses of them is modelled from their source or
  documentation: `DAG` and `BayesianNetwork` construction, `add_edge` with its cycle check, `remove_node` and `remove_edge`, `get_parents`,
  `get_children`, `_get_ancestors_of`, `active_trail_nodes` (the algorithm is modelled and verified, C08), `add_cpds`, `remove_cpds`,
  `get_cpds`, `get_cardinality`, `TabularCPD` construction and `marginalize`, `BeliefPropagation.query` (as exact inference: a normalised
  sum of products), `nx.topological_sort` (algorithm modelled, C14), `nx.descendants`, `nx.ancestors`, `nx.node_connected_component`,
  `nx.is_connected`, `nx.condensation`, pygambit's `Game` tree operations.

Not modelled: the pictures themselves (Model/Draw.lean ends at the calls of networkx and matplotlib), the text of `__repr__` and `__str__`
except for the mapping shown (C103), `prob_table`, warnings and printing, the example diagrams in `pycid/examples` other than the games of C114, C125 and C126 and the diagrams of C127 to C133, the notebooks, performance, float rounding.
List objects are values except in `Model/Alias.lean`, which models the sharing of the role lists and proves when it is unobservable (C92).
The network a CPD object refers to (`cpd.cbn`) is taken to be the one it is stored in, except in C104, which makes it explicit and shows when this is justified.
`state_names` of a CPD are the `domain` dictionary, as `sync_state_names` leaves them; Model/Names.lean has tables with their own names.

## Hypotheses used in the theorems

* `Graph.WF`: no duplicate nodes or edges, edges between nodes, acyclic. C13 shows that construction and editing keep it.
* `Macid.Consistent`: the four role dictionaries describe one role per node and list nodes of the graph. C15 shows that the constructor
  establishes it for sensible arguments and that `make_decision`, `make_utility` and `make_chance` keep it.
* `Net.Good`: every node has a relationship and a CPD that fits graph and domains. `Net.Normalised`: CPD columns are probability
  distributions (the constructor only demands sums within 0.01). `Net.Usable` is both with consistent roles and at least one decision or
  utility list per agent as `copy` needs. `usable_of_build` derives it for anything built by `add_cpds`; C33 shows `add_cpds` keeps it.
* `Net.Own v`: the CPD of `v` was made by the library (not a plain `TabularCPD` object); needed where functions are evaluated again.
* `Analysable`, `Staffed`: one agent, with decisions and utilities, as the functions in `analyze` demand by raising otherwise.
* `Reference`, `IsMaxEU`, `SameWorld`, `OnlyRules`: two networks that differ at most in the rules of listed decisions; the maximal expected
  utility over all (mixed) rules.
* `IsSubgame`, `SubgameProbs`, `Joined`, `Distinct`, `Solvable`: structure and probabilities of the network `create_subgame` returns;
  connectedness; no two decisions of an agent with equal parents; all that backward induction needs (`Spec/Equilibria.lean`).
* `IsTree`, `Labelled`, `Treeable`, `PlaysAs`, `IsNash`, `NoGain`: game trees and their equilibria (`Spec/Efg.lean`).
* `IsRandomDag`, `IsRandomGame`, `IsRandomCid`: what the generators promise (`Spec/Random.lean`).

## Properties: what is modelled and how it is proved

| id | model | proof |
|----|-------|-------|
| C01-C03 | `_dfs_search_paths` as an explicit-stack machine | machine = recursive enumeration by induction; enumeration = directed/simple paths; fuel bound |
| C04 | `directed_decision_free_path` | from C01 |
| C05 | `get_motif(s)` with Python's negative index | case analysis; index 0 looks at the last node (witness) |
| C06 | `is_active_path` with `path.index` | per-triple characterisation on duplicate-free paths |
| C07 | `_active_neighbours`, `find_active_path` | invariant: active prefix; completeness by prefix induction |
| C08, C10 | pgmpy's reachability work list with arbitrary pop | work-list invariant, termination measure; closure = inductive relation; walks to simple active paths |
| C09, C11, C12 | trail functions | from C02, C06, C07, C08 |
| C13 | construction and edits of the graph | invariant over all edit histories |
| C14 | Kahn's algorithm, arbitrary choice | loop invariant |
| C15, C16 | role dictionaries, `copy_without_cpds` | refinement to a role map; histories by induction; lost roles by witness |
| C17-C19, C22 | mechanism graph, r-/s-reachability, relevance graph, recall | from C08; path surgery for C22 |
| C20, C21 | condensation for any SCC enumeration | order lemma; closed sets |
| C23-C26 | CPD construction | arithmetic on rationals, sorted duplicate-free domains |
| C27-C29 | `pure_decision_rules`, `arg2idx`, `pure_policies` | mixed-radix bijection |
| C30 | signature check | never raises: `inspect.signature` of a `**pv` wrapper |
| C31-C34 | `Model.__setitem__` with recursive reinstantiation | strong induction over the DAG; permutation invariance; histories |
| C35, C36 | `copy`, `intervene` | loop invariants; graph surgery |
| C37-C40, C50 | `query` as a state transformer | sum-product algebra; pruning to the ancestral, connected part; counterexamples run the model |
| C41, C42 | factorisation along active trails | d-separation implies independence, for any parameterisation |
| C43-C45 | `expected_value`, effects | linearity; barren nodes |
| C46-C49 | optimal policies, imputation | running maximum; exchange argument; one-step improvement; C22 + C41 for global optimality |
| C51-C59, C75 | `analyze/*.py` | graph criteria via C08; value of information/control by exchanging rules; requisite graph by induction over removed edges |
| C60-C62 | `reasoning_patterns.py` | path lemmas, loop measure |
| C63 | `create_subgame` | graph lemmas; marginalised CPDs characterised |
| C64, C82 | `get_spe` | induction over the groups; C82 by a chain of whole-game exchange steps |
| C65 | `policy_profile_assignment` | list lemma |
| C66, C67, C76 | `macid_to_efg` | tree as product of domains; payoffs = conditional expectations; strategies <-> rules |
| C68, C69 | solver selection, `behavior_to_cpd` | case analysis; read-back |
| C77, C78 | `get_ne_in_sg`, `get_ne` | subgame equilibria from the tree; transfer to the whole game by d-separation between teams of decisions |
| C70-C73, C79-C81 | `pycid/random` | invariants over all tapes; dead ends and impossible requests by witness |
| C74 | `RandomCPD`, `temp_seed` | explicit generator state |
| C83-C85 | converses of the d-connection, value-of-information and value-of-control criteria | a parameterisation is built from a shortest active trail (signals, guessing games, relays) and its value is computed |
| C86 | meaning of `admits_ici` | without: an intervention has no effect (d-separation in the cut graph); with: relay parameterisation along the path |
| C87 | meaning of `admits_ri` | optimal rules on the requisite graph ignore interventions on such nodes |
| C88 | `impute_conditional_expectation_decision` | the imputed rule minimises mean squared error (orthogonality of the residual) |
| C89 | `is_structural_causal_model` | table entries in {0, 1} <-> mechanisms are functions, exactly and within numpy's tolerance |
| C90 | `remove_cpds` | what is removed, what stays, exceptions by order |
| C91 | `sample` | distribution of the drawn rows = joint distribution |
| C92 | role lists as shared objects (`Model/Alias.lean`) | refinement of reference programs to value programs; ownership invariant |
| C93 | converse of C87 for one decision | a betting game along the trail that makes the observation requisite; betting blindly never pays because the worlds of a win and of a loss have comparable probability |
| C94 | meaning of r- and s-reachability | soundness: the utilities below the decision are independent of the mechanism of `v` given the family of the decision, so the payoffs in a context are proportional; completeness: a bit hidden in the CPD of `v` travels along the active trail to a utility that pays for guessing it, so the right guess depends on the CPD |
| C95 | Back-door trails: `is_active_backdoor_trail` and interventional queries | An active path entering `x` exists iff `x` is d-connected in the graph without the edges out of `x` (`backdoor_iff`; colliders that lose their observed descendant are by-passed by climbing from `x`). In the network whose children of `x` act as if `x = vx`, `x` is barren, so d-separation there gives P(y, x, z) P(z, do x) = P(x, z) P(y, z, do x). The converse uses the bit wiring of C83 on the graph without the edges out of `x` and only the support of the CPDs. |
| C96 | Direct effect and the paths behind reasoning patterns: `direct_effect`, `get_reasoning_patterns`, `expected_utility` with interventions | A node whose rule ignores its parents can be cut off from them (`BN.deaf`); in the cut graph the owner's utilities are not descendants of `D`, so a rule change at `D` leaves them alone (`W_nondesc`). For the converse a bit is passed along the decision-free path (relay wiring of C86) and the decisions are left free. Listed decisions: the four characterisations C60-C62 plus concatenation of effective paths. |
| C97 | Equilibria are found: `get_ne_in_sg`, `get_spe` on top of C77 and C82 | Trusted about the solvers: `FindsPure` (next to `SoundSolvers`). Every information set has a key (`Keyed`, an invariant of the loops of `macid_to_efg`), so decision rules can be read as a behaviour profile (`behavior_of`), which is pure for deterministic rules; by C76 an equilibrium of the network is one of the tree. One owner: deterministic rules that maximise the expected utility exist (`exists_best`, from the enumeration of C29). `get_spe`: no level of the backward induction is empty. |
| C98 | When `get_ne_in_sg` and `get_spe` return, on top of C66, C69, C77, C82 and C97 | Trusted about the solvers: `NeverRaises` (next to `SoundSolvers`). Both directions for `get_ne_in_sg`: `Searchable` is read off the queries that build the game tree (C66). `get_spe`: `Tractable` is kept by every step of the backward induction, because the rules added so far belong to decisions that are not observed by the next group. The condition on the groups is needed: `C98_order_counterexample` is one game in two listings. |
| C99 | `add_edge` and `remove_edge` of a usable network, on top of C58 | `Direct` (Spec/EdgeEdit.lean) says how the child's relationship was given. Direct: the CPD is recomputed for the new parents and its columns are all the same, so every kernel is unchanged. Otherwise no CPD changes, so the CPD's evidence differs from the parents and `check_model` fails in every query that keeps the child. Repair: the new CPD is computed by `mkCpd` from the given distributions (as in C80). |
| C100 | `impute_optimal_policy`, `solve`, `quantitative_voi`, `quantitative_voc`, on top of C47, C48, C58 | `Arises` and `Optimisable` (Spec/Arise.lean) say what has to be observable. What can arise does not depend on the policy: some world agrees with the observation and is excluded by no chance variable or utility. Decisions are optimised last first, so the rules imputed so far lie downstream of what is observed next, and C47's exact condition for one decision is preserved along the loop. |
| C101 | the base class itself (`Model/Cbn.lean`): its `to_tabular_cpd`, `__setitem__`, `add_cpds`, `copy`, `intervene`, `query`, `expected_value` | `Ready` (Spec/Cbn.lean) is a sound network without roles and lists. On list-free models every operation equals that of an influence diagram without roles, and the theorems about `queryOn` apply; no policy check and no class check of context CPDs remain. Lists: the loop of `copy` meets the list and raises. |
| C102 | `compute_label` on lists of characters (`Model/Label.lean`) | `FirstAt`, `Expression` and `Ends` (Spec/Label.lean) say what a line looks like. The loop over the characters keeps the depth of brackets, by induction on the body. |
| C103 | the dictionary printed by `__repr__` (`Model/Repr.lean`); not the text itself and its sorting | The loop visits every assignment once; what it shows is compared with C24's description of the table. |
| C104 | `copyWith` is `copy` with the network each stored CPD object refers to (`cpd.cbn`) made explicit. Proved: with all objects at home it is `copy` (`C104_own`); without CPD objects it depends on no other network (`C104_free`); it is faithful when the networks referred to have the same parents and domains for those variables (`C104_alike`), hence so are copies of copies of any depth of an unchanged original, by induction (`C104_copies`). `C104_original_changed` shows three changes to the original that alter or break copying the copy |
| C105 | Python's binding of keyword arguments (`PyFun.call`) in front of a function body, assigned by `__setitem__` | TypeError on mismatch when all parents have outcomes, accepted otherwise, same CPD as the body on a match; the misplaced exception by a concrete history |
| C106 | table objects with their own `state_names`, `store_state_names`, `sync_state_names` (Model/Names.lean) | the position of a combination of values in `itertools.product` depends only on the positions of the values and the lengths of the lists (induction on the list of parents); meaning of a reversed list of names by a concrete network |
| C107 | pgmpy's `remove_node` with in-place `marginalize` of the children's CPDs and pycid's `remove_cpds` (Model/Remove.lean); `copy` afterwards | invariant of the loop over the children; a sum over a normalised column for leaves; induction over the copied roles for KeyError; a column of the child's function is always evaluated |
| C108 | columns within 0.01 of 1: query results against the network with rescaled columns (`PRescaled`), without assuming `Normalised` | the joint is the rescaled joint times the product of the column sums, each in [0.99, 1.01]; the rescaled network is a probability model, so unconnected parts can be dropped; counterexamples for spreading rounding and negative tables |
| C109 | `macid_to_gambit_file` on a dictionary of files, with the disk at every moment of the call (Model/Export.lean); pygambit's `Game.write` is a parameter | C66 for the game; induction over the pieces in which the text is written; counterexamples for the emptied file and for a player without utility |
| C110 | query, intervene and d-connection as in C38–C41; entries of answers by assignment (Spec/Answers.lean) | every entry is a ratio of truncated factorisations (C39); algebra, fibre sums, the global Markov property of the mutilated network, and restriction to an ancestral set |
| C111 | iterables as a collection or an iterator with its remaining elements; the functions that read such an argument more than once, read by read (Model/OneShot.lean) | equality with the other models for collections; for iterators, what is left after each read |
| C112 | what is handed to networkx and matplotlib for each node: colour (name or place on the scale), shape, text and its place (Model/Draw.lean); the layout is a parameter | case distinction on the role; injectivity of `linspace`; SCCs by their classes |
| C113 | no new model: `add_cpds` and CPD construction are those of C23–C34; when a relationship respects announced outcomes is said in Spec/Total.lean | the CPDs are found by induction on the depth of a node, parents first; the result on runs of `add_cpds` in any order turns them into a successful run |
| C114 | the five two-player games of `story_macids.py` and the body they share, for any payoff tables (Model/Games); choices `"c"`/`"d"`, … are written 0 and 1, agents are numbers; `NoGain` and `SubgamePerfect` are the definitions used for `get_ne` and `get_spe` | the game is built by the model's constructor and `add_cpds` and shown to be a board of two decisions and two utilities; expected utility is computed by marginalising the joint to the two choices; deviations are realised by relationships; reliance between the decisions is computed by the model's reachability query and its correctness theorem; the 2×2 games are then solved by real arithmetic |
| C115 | the analysis functions of C51, C52, C54, C55 and C56, already modelled | d-connection uses only edges into ancestors of the ends and of the observed nodes (reachability by Bayes ball); two decisions of one agent above one utility, neither above the other, rely on each other, so with sufficient recall the treatment of other decisions than those below `d` has no influence on what is requisite for `d`; uniqueness of the requisite graph by induction on the number of descendants; the relations from the graphical criteria |
| C116 | `policiesOk` and the mechanism graph of Model/Query.lean; specification in Spec/Regime.lean | soundness: a d-separated new parent leaves the conditional distribution unchanged (`BN.irrelevant` applied to the network after the intervention); completeness: along an active trail from the new parent all CPDs are chosen as in C94 (Lemmas/Regime.lean), with the intervened nodes cut off, so that with one rule an outcome is impossible and with another it is possible |
| C117 | `query` with context and intervention, as in C39 | each rule is an identity about the factorised distribution after the intervention: (1) conditional independence from d-separation, (2) the network in which the children of the variable act as if it had the value, (3) irrelevant mechanisms; the textbook condition of (3) from the form of active paths out of a new parent; (2) for several variables by induction, using weak union (C118) and that edges out of observed nodes carry nothing, (3) with one new parent of all of them |
| C118 | `is_dconnected` as in C08, in an arbitrary acyclic graph | induction over the states of the search: what happens to an active trail when observations are added or dropped, and when two trails meet; moralisation in both directions by induction over trail and undirected path. Separation of sets means that every pair is separated, so decomposition and composition hold by definition |
| C119 | `impute_conditional_expectation_decision` (C88) followed by `introduced_total_effect` (C45) | the imputed rule is E[y given the parents]; without a back-door trail this is the conditional expectation under the intervention (C95), and averaging it over the parents gives the expectation of y (tower property in the mutilated network). The network after the imputation is assumed ready to be queried: its other CPDs are functions the user wrote, recomputed for the new outcomes of d |
| C120 | `get_ne` (C78), `optimal_pure_policies` (C46), `expected_utility` | the rules of one network can be put into another network of the same game (`blend`), and expected utility depends only on the game and the kernels; the inequalities of the two equilibria then give value, exchange and security. `ConstantSum` speaks about expected utilities under all usable rules, not about the utility tables. In C120_agrees_with_optimal the optimal policies are evaluated in the network `Reference` describes, whose kernels are those of the net |
| C121 | the models of C43, C58, C76 applied to two networks related by `Rescaled` (same nodes, edges, roles; outcomes and kernels related by the change of scale) | the sum over assignments is reindexed by the change of scale; rules are carried from one game to the other (`blendAt`) because the decisions and what they observe have the same outcomes. The two networks are arbitrary usable networks in this relation; the theorem does not construct the second from the first. quantitative_voi for one decision, quantitative_voc under the recall hypotheses of C58 |
| C122 | the models of `query`, `is_active_backdoor_trail` and `total_effect` (C11, C37, C44); the condition on the paths is `FrontDoor` in Spec/FrontDoor | rules 2 and 3 of the do-calculus (C117) for the two halves of the path, the back-door adjustment (C95) with x as the adjusted variable, and total probability over m. One mediator and one outcome variable |
| C123 | the models of `admits_voi`, `quantitative_voi` and the maximal expected utility (C52, C53, C58); `Informed` relates the versions of a diagram | monotonicity from `IsMaxEU.mono`; the comparison from C53 applied to the diagram that observes y; the chain rule because the maximum depends only on who observes what. The statements about `quantitative_voi` assume one agent and recall in the versions compared, which one decision always has |
| C124 | the models of `get_ne` (C78), `expected_utility` and the table games (C114); `Informed` (C123) relates the versions of a game | the rules of the agent who sees more are carried from the game with fewer observations, those of the other agent from the game with more; both mixtures have the same kernels, so the same expected utilities, and the two equilibrium conditions give the inequality. The leader's bound and the counterexample from C114_subgame_perfect and the solved 2×2 games |
| C125 | the builders as `tableGame` (C114) or, with TabularCPD utilities, `tabularGame`; `"T"`, `"M"`, … are the numbers 0, 1, … | the builder runs on its literals, which gives the payoff functions; from there the equilibrium conditions are inequalities in the probabilities of arbitrary mixed strategies, solved by (non)linear arithmetic. For three actions iterated dominance: a deviation from C to R, then to T, then to L |
| C126 | the builder with its seven lambdas, each of them a sign times a product of arguments or of `1 - 2 * argument` | C113 gives the CPDs; decisions without parents are independent, so expected utilities are products; each pair of agents plays matching pennies, which forces one half, and then agent 1 gains by 1. In a subgame the decisions an agent relies on belong to the subgame (C18), so the same computation applies |
| C127 | the two builders with their lambdas, as CIDs (agent 0) | C113 gives the CPDs; the mean of anything depending on `S1`, `D1`, `D2` is a finite sum over their values (`S2` is a copy); linear inequalities in the probabilities of the rules. Recall by C19, which makes the answer independent of networkx; C100 and C48 for `impute_optimal_policy` |
| C128 | the builder with its lambdas, as a CID (agent 0) | C113 gives the CPDs; means of quantities that depend on `Z`, `X` and `D`, with `A` random or fixed by intervention, are finite sums over `A`, `Z` and the options of `D`, whatever these are; C44 and C45 turn means into reported effects; C88 describes the imputed predictor. That the calls return is shown for concrete choices in `C128_example` |
| C129 | the six builders of `story_cids` that add no CPDs | the lists are computed for one order of networkx; C52, C54, C56 and the completeness theorems C84, C85, C93, whose right-hand sides do not mention any order, carry them over to all orders and say what they mean; C86 and C87 for the statements about all CPDs |
| C130 | `requisite_graph`, `get_trim_example_cid` | an optimal policy is replaced by the rules of the network trimmed as in C75, which are played in the original diagram as in C87; for the example the graph is computed for one order and C115 carries it over |
| C131 | the seven multi-agent builders of `simple_macids` and `story_macids` that add no CPDs and number their agents | the answers are computed for one order; C18, C19, C21 and C94, whose right-hand sides do not mention any order, carry them over to all orders and say what they mean |
| C132 | six builders of `simple_cids` with their CPDs (Model/SmallCids); floats are rationals | one run is computed in the kernel; C100, whose right-hand sides do not mention the orders, gives success of every run; C48 and C58 with uniqueness of the maximum give the value of every run; C43 gives what `expected_utility` returns |
| C133 | the four builders of `simple_cbns` (Model/SimpleCbns) | C101 reduces `expected_value` to the mean of the truncated factorisation, which is computed in the kernel |
| C134 | `intervene` called repeatedly (`interveneCalls` in Props/Repeated runs the model of C36 and C101 once per call) | induction over the calls: a cut of a cut is a cut with the last values |

Properties that are false as documented are stated as negations with a concrete run of the model, together with the strongest statement
that does hold.

## Disagreements between code and documentation found while modelling

1. `CausalBayesianNetwork.query` without intervention works on `self` and removes nodes outside the query's connected component (C37).
2. `query([])` removes every node and raises; `impute_optimal_decision` hits this for decisions without descendant utilities (C50, C47).
3. A context with probability zero, or one that lies in another component, is not rejected (C38).
4. `expected_value` depends on the order of the variables in the factor pgmpy returns (C43).
5. `MechanismGraph` tests `node[:-3] == "mec"` instead of `node[-3:]` (C17).
6. `check_function_arguments_match_parent_names` never raises (C30).
7. `copy_without_cpds` uses the utility agents only and loses decisions of other agents (C16); copying a copy can fail (C35).
8. A failing `model[...] = ...` is not atomic (C34).
9. `get_motif` at index 0 compares with the last node of the path (C05).
10. `find_active_path` does not reject an observed start, `is_dconnected` does (C09).
11. `discrete_uniform` with duplicates does not sum to one (C26).
12. `optimal_pure_policies` with a negative tolerance returns nothing, with a large one everything; it fails for utilities in another
    component (C46).
13. `requisite_graph` raises for agents without utilities (C51); `admits_voi` accepts nodes that are not decisions (C52).
14. `quantitative_voc` changes its argument and can be slightly negative (C58).
15. `signaling` and `revealing_or_denying` differ from their documentation and can raise, depending on set order (C61).
16. `create_subgame`: CPDs of cut-off nodes are averaged uniformly, not marginalised by probability; values can be misaligned for unsorted
    domains; a decision without relevant utility is lost; plain tables raise (C63).
17. `macid_to_efg`: information-set keys omit the decision, so two decisions of an agent with equal parents share them (C67); decisions
    that nobody observes are left out of the tree (C66); impossible instantiations raise (C66).
18. `random_dag` ignores `max_in_degree` in its second phase and can loop for ever (C70, C71).
19. `random_macidbase` with `sufficient_recall=True` can return a game without sufficient recall (C79); with one node it raises (C72).
20. `RandomCPD` and `add_random_cpds` raise for negative hashes or seeds out of range (C74, C80). numpy may produce NaN for tiny
    `smoothness`, which exact arithmetic does not show.
21. `is_structural_causal_model` accepts tables that are within numpy's tolerance of being deterministic (C89).
22. After `remove_cpds` of a parent, assigning its child again raises AttributeError, while on a fresh network it is deferred (C90).
23. The constructors keep the caller's list objects: diagrams built from one mapping corrupt each other's roles (C92).
24. `get_ne_in_sg` says decision rules already present are "not changed". It returns rules for all given decisions, and raises whenever a
   rule present excludes an action; `get_spe` then finds nothing (C98).
25. `get_spe` can succeed or raise depending on the order in which the agents are listed (C98).
26. `add_edge` and `remove_edge` silently leave a child whose CPD was given as a function with its old CPD; the network cannot be queried until the child is assigned again (C99).
27. An assignment that raises can leave another node with a CPD for the old domain of its parent; repeating the assignment of the parent does not repair it (C33).
28. A plain `CausalBayesianNetwork` rejects a list with ValueError but keeps it in the model: `copy`, queries with interventions and assignments to parents raise afterwards (C101).
29. `compute_label` looks for the variable's name anywhere in the line: `cid.add_cpds(A=lambda: 0, d=lambda: 1)` labels `d` with `0`, because `cid` contains a `d`; without a space after the colon the first character of the body is lost (C102).
30. A callable without `__name__` such as a `functools.partial` raises TypeError in the constructor, although any callable is documented (C102).
31. A copy is not independent of the original: its CPD objects still refer to the original, so changing the original's domains or edges changes or breaks `copy()` of the copy and queries on it with interventions (C104).
32. A function whose parameters do not match the parents raises TypeError instead of the documented ValueError, and only once all parents have CPDs, from the assignment of the last parent (C105).
33. The outcome names a user gives for the parents of a TabularCPD are ignored; the table is read by position (C106).
34. `remove_node` and the constructor leave roles of nodes that are not in the graph; such a diagram cannot be copied (C107).
35. Columns within 0.01 of 1 are accepted (cpd.py:112) and not rescaled, so the rounding of a CPD changes the distribution of its ancestors: a fair coin can be reported as 0.4975/0.5025 (`C108_rounding_spreads`). The range check of cpd.py:114 is not applied to TabularCPD objects, negative entries are accepted and queries return numbers outside 0 to 1 (`C108_negative_table`).
36. `macid_to_gambit_file` empties an existing file before the new text is written, a crash loses both (`C109_killed_counterexample`). `agents` lists only owners of utility nodes, so games with a player without utility raise KeyError in `macid_to_efg` (`C109_player_without_utility`).
37. Signatures say `Iterable`, but edges, queried variables, nodes, decisions and agents are read more than once: an iterator is empty at the second read (C111).
38. A MACID with a decision of an agent without utility cannot be drawn: `agents.index(agent)` raises ValueError (C112).
39. `battle_of_the_sexes`: the docstring gives the mixed equilibrium as (0.4, 0.6), (0.6, 0.4); the row player chooses the opera with probability 0.6 and the column player with probability 0.4. The agent named "M" owns `D_F` and `U_F`, the agent named "F" owns `D_M` and `U_M` (C114_battle_of_the_sexes).
40. `taxi_competition`: the docstring says 3 pure and 1 mixed NE; there are infinitely many mixed ones: after (expensive, cheap) the reply to the cheap hotel is free (C114_taxi_competition).
41. `modified_taxi_competition`: the docstring says taxi 2 is indifferent if taxi 1 stops at the expensive hotel; the table makes it indifferent after the cheap one (C114_modified_taxi_competition).
42. The docstrings of `admits_indir_voc` and `admits_dir_voc` present direct and indirect value of control as the two cases of value of control; a node can have value of control and be False for both (C115_neither).

import Verif.Model.Topo
import Verif.Model.DSep

/-!
# The structural part of pycid/core/macid_base.py and pycid/core/relevance_graph.py

Graph, roles, orders, reachability.  Parameters (CPDs) are in `Model/Net.lean`.
-/

namespace Verif

/-- Agent labels.  Simplification: any hashable in Python, natural numbers here. -/
abbrev Agent := Nat

/-- The graph and the four role dictionaries of a `MACIDBase` (macid_base.py:38-54). -/
structure Macid where
  g : Graph
  agentDecisions : Dict Agent (List Node)
  agentUtilities : Dict Agent (List Node)
  decisionAgent : Dict Node Agent
  utilityAgent : Dict Node Agent
  deriving DecidableEq, Repr

namespace Macid

/-- `{node: agent for agent, nodes in d.items() for node in nodes}` (macid_base.py:92-93). -/
def invert (d : Dict Agent (List Node)) : Dict Node Agent :=
  d.foldl (fun acc p => p.2.foldl (fun acc n => acc.set n p.1) acc) []

/-- `MACIDBase.__init__` (macid_base.py:68-93).  Simplification: the lists are copied, whereas the
Python constructor keeps references to the caller's list objects; see Model/Alias.lean for these. -/
def init (edges : List (Node × Node)) (ad au : Dict Agent (List Node)) : Py Macid :=
  match Graph.ofEdges edges with
  | .error e => .error e
  | .ok g => .ok ⟨g, ad, au, invert ad, invert au⟩

/-- `MACIDBase()` (macid_base.py:68-93 without arguments). -/
def new : Macid := ⟨Graph.empty, [], [], [], []⟩

/-- `CID()` (cid.py:13-38 without arguments): agent 0 with empty lists. -/
def newCid : Macid := ⟨Graph.empty, [(0, [])], [(0, [])], [], []⟩

/-- `decisions` (macid_base.py:95-98) -/
def decisions (m : Macid) : List Node := m.decisionAgent.keys

/-- `utilities` (macid_base.py:100-103) -/
def utilities (m : Macid) : List Node := m.utilityAgent.keys

/-- `agents` (macid_base.py:105-108) -/
def agents (m : Macid) : List Agent := m.agentUtilities.keys

/-- `make_chance` (macid_base.py:130-139): the state afterwards and the outcome of the call. -/
def makeChance (m : Macid) (node : Node) : Macid × Py Unit :=
  if node ∉ m.g.nodes then (m, .error .key)
  else
    match m.decisionAgent.get? node with
    | some a =>
      let m := { m with decisionAgent := m.decisionAgent.erase node }
      match m.agentDecisions.get? a with
      | none => (m, .error .key)
      | some l =>
        if node ∈ l then ({ m with agentDecisions := m.agentDecisions.set a (l.erase node) }, .ok ())
        else (m, .error .value)
    | none =>
      match m.utilityAgent.get? node with
      | some a =>
        let m := { m with utilityAgent := m.utilityAgent.erase node }
        match m.agentUtilities.get? a with
        | none => (m, .error .key)
        | some l =>
          if node ∈ l then ({ m with agentUtilities := m.agentUtilities.set a (l.erase node) }, .ok ())
          else (m, .error .value)
      | none => (m, .ok ())

/-- Append to `d[a]`, creating the entry if missing (macid_base.py:115-118, 124-127). -/
def appendRole (d : Dict Agent (List Node)) (a : Agent) (node : Node) : Dict Agent (List Node) :=
  match d.get? a with
  | none => d.set a [node]
  | some l => d.set a (l ++ [node])

/-- `make_decision` (macid_base.py:110-119). -/
def makeDecision (m : Macid) (node : Node) (a : Agent) : Macid × Py Unit :=
  match m.makeChance node with
  | (m, .error e) => (m, .error e)
  | (m, .ok _) =>
    ({ m with agentDecisions := appendRole m.agentDecisions a node,
              decisionAgent := m.decisionAgent.set node a }, .ok ())

/-- `make_utility` (macid_base.py:121-128). -/
def makeUtility (m : Macid) (node : Node) (a : Agent) : Macid × Py Unit :=
  match m.makeChance node with
  | (m, .error e) => (m, .error e)
  | (m, .ok _) =>
    ({ m with agentUtilities := appendRole m.agentUtilities a node,
              utilityAgent := m.utilityAgent.set node a }, .ok ())

/-- The loops of `copy_without_cpds` over one list of nodes. -/
def makeAll (mk : Macid → Node → Macid × Py Unit) : Macid → List Node → Py Macid
  | m, [] => .ok m
  | m, n :: ns =>
    match mk m n with
    | (_, .error e) => .error e
    | (m', .ok _) => makeAll mk m' ns

/-- Loop of `copy_without_cpds` over `self.agents` (macid_base.py:429-433). -/
def copyRoles (m : Macid) : Macid → List Agent → Py Macid
  | acc, [] => .ok acc
  | acc, a :: as =>
    match m.agentDecisions.get a with
    | .error e => .error e
    | .ok ds =>
      match makeAll (fun m n => m.makeDecision n a) acc ds with
      | .error e => .error e
      | .ok acc =>
        match m.agentUtilities.get a with
        | .error e => .error e
        | .ok us =>
          match makeAll (fun m n => m.makeUtility n a) acc us with
          | .error e => .error e
          | .ok acc => copyRoles m acc as

/-- `copy_without_cpds` (macid_base.py:424-434, cid.py:79-91, macid.py `copy_without_cpds`).
`base` is the freshly constructed object: `new` for MACIDBase and MACID, `newCid` for CID. -/
def copyWithoutCpds (base : Macid) (m : Macid) : Py Macid :=
  match (base.g.addNodes m.g.nodes).addEdges m.g.edgesView with
  | .error e => .error e
  | .ok g => copyRoles m { base with g := g } m.agents

/-- `get_valid_order` (macid_base.py:205-221). `pick`: networkx's choice among sources. -/
def getValidOrder (pick : List Node → Nat) (m : Macid) (nodes : Option (List Node)) : Py (List Node) :=
  if isDag pick m.g.nodes m.g.edges = false then .error .value
  else
    match nodes with
    | none =>
      match topoSort pick m.g.nodes m.g.edges with
      | .error e => .error e
      | .ok out => .ok (out.filter (fun n => decide (n ∈ m.decisions)))
    | some ns =>
      match checkAll ns m.g.hasNode .key with
      | .error e => .error e
      | .ok _ =>
        match topoSort pick m.g.nodes m.g.edges with
        | .error e => .error e
        | .ok out => .ok (out.filter (fun n => decide (n ∈ ns)))

/-- The name `node + "mec"`. -/
def mec (n : Node) : Node := n ++ "mec"

/-- `node[:-3]` -/
def dropLast3 (n : Node) : Node := String.ofList (n.toList.take (n.toList.length - 3))

/-- The loop of `MechanismGraph.__init__` (macid_base.py:474-478). -/
def mechLoop : Graph → List Node → Py Graph
  | mg, [] => .ok mg
  | mg, n :: ns =>
    if dropLast3 n = "mec" then .error .value
    else
      match (mg.addNode (mec n)).addEdge (mec n) n with
      | .error e => .error e
      | .ok mg => mechLoop mg ns

/-- The graph of `MechanismGraph(cid)` (macid_base.py:464-479).  The roles are those of `cid`. -/
def mechGraph (g : Graph) : Py Graph :=
  match Graph.ofEdges g.edgesView with
  | .error e => .error e
  | .ok mg => mechLoop mg g.nodes

/-- `for utility in ...: if mg.is_dconnected(node + "mec", utility, con_nodes): return True`
(macid_base.py:252-254). -/
def rReachUtil (pick : Pick) (mg : Graph) (node : Node) (con : List Node) (us : List Node) : Py Bool :=
  anyM (fun u => isDConnected pick mg (mec node) u con) us

/-- Body of the double loop of `is_r_reachable` (macid_base.py:248-254). The iteration order of the
set `set(agent_utilities) & descendants` is that of the list; it cannot matter for the result. -/
def rReachPair (pick : Pick) (m : Macid) (mg : Graph) (d n : Node) : Py Bool :=
  if d ∉ m.g.nodes then .error .nx
  else
    match m.decisionAgent.get d with
    | .error e => .error e
    | .ok a =>
      match m.agentUtilities.get a with
      | .error e => .error e
      | .ok us =>
        rReachUtil pick mg n (d :: m.g.parents d)
          (us.dedup.filter (fun u => decide (u ∈ m.g.descendants d)))

/-- `is_r_reachable` (macid_base.py:235-255); a single string is passed as a one-element list. -/
def isRReachable (pick : Pick) (m : Macid) (ds ns : List Node) : Py Bool :=
  match mechGraph m.g with
  | .error e => .error e
  | .ok mg => anyM (fun d => anyM (fun n => rReachPair pick m mg d n) ns) ds

/-- `is_s_reachable` (macid_base.py:223-233) for a single `d2`.  (A list `d2` raises TypeError in
Python because lists are not hashable.) -/
def isSReachable (pick : Pick) (m : Macid) (ds : List Node) (d2 : Node) : Py Bool :=
  if d2 ∉ m.decisions then .error .assertion else isRReachable pick m ds [d2]

/-- `itertools.permutations(l, 2)` : ordered pairs of elements at different positions. -/
def perms2 (l : List Node) : List (Node × Node) :=
  l.zipIdx.flatMap (fun x =>
    (l.zipIdx.filter (fun y => decide (y.2 ≠ x.2))).map (fun y => (x.1, y.1)))

/-- Loop of `RelevanceGraph.__init__` (relevance_graph.py:30-34). -/
def relevanceLoop (pick : Pick) (m : Macid) : Graph → List (Node × Node) → Py Graph
  | rg, [] => .ok rg
  | rg, (a, b) :: ps =>
    match isSReachable pick m [a] b with
    | .error e => .error e
    | .ok r => relevanceLoop pick m (if r then rg.nxAddEdge a b else rg) ps

/-- `RelevanceGraph(cid, decisions)` (relevance_graph.py:24-34). -/
def relevanceGraph (pick : Pick) (m : Macid) (ds : List Node) : Py Graph :=
  relevanceLoop pick m (Graph.empty.addNodes ds) (perms2 ds)

/-- Loop of `sufficient_recall` (macid_base.py:276-280). -/
def recallLoop (pick : Pick) (tpick : List Node → Nat) (m : Macid) : List Agent → Py Bool
  | [] => .ok true
  | a :: as =>
    match m.agentDecisions.get a with
    | .error e => .error e
    | .ok ds =>
      match relevanceGraph pick m ds with
      | .error e => .error e
      | .ok rg =>
        if isDag tpick rg.nodes rg.edges = false then .ok false else recallLoop pick tpick m as

/-- `sufficient_recall` (macid_base.py:257-280). -/
def sufficientRecall (pick : Pick) (tpick : List Node → Nat) (m : Macid) (agent : Option Agent) : Py Bool :=
  match agent with
  | none => recallLoop pick tpick m m.agents
  | some a => if a ∉ m.agents then .error .value else recallLoop pick tpick m [a]

/-! ### CondensedRelevanceGraph (relevance_graph.py:79-118) -/

/-- `nx.condensation(rg)` given the enumeration `sccs` of the strongly connected components:
`mapping` in the order `mapping.update((n, i) for n in component)`. -/
def sccMapping (sccs : List (List Node)) : Dict Node Nat :=
  sccs.zipIdx.flatMap (fun c => c.1.map (fun n => (n, c.2)))

/-- Edges of the condensation: `(mapping[u], mapping[v])` for edges between different components,
without duplicates (DiGraph). -/
def sccEdges (rg : Graph) (mapping : Dict Node Nat) : List (Nat × Nat) :=
  ((rg.edges.filterMap (fun e =>
    match mapping.get? e.1, mapping.get? e.2 with
    | some i, some j => if i = j then none else some (i, j)
    | _, _ => none))).dedup

/-- `get_decisions_in_scc` (relevance_graph.py:109-118). -/
def decisionsInScc (mapping : Dict Node Nat) : Dict Nat (List Node) :=
  mapping.foldl (fun acc p => acc.set p.2 ((acc.get? p.2).getD [] ++ [p.1])) []

/-- `get_scc_topological_ordering` (relevance_graph.py:101-107) of `CondensedRelevanceGraph(macid)`
(relevance_graph.py:87-93); `sccs` is what `nx.strongly_connected_components` enumerates. -/
def sccTopologicalOrdering (tpick : List Nat → Nat) (rg : Graph) (sccs : List (List Node)) :
    Py (List (List Node)) :=
  match topoSort tpick (List.range sccs.length) (sccEdges rg (sccMapping sccs)) with
  | .error e => .error e
  | .ok order => mapPy (fun i => (decisionsInScc (sccMapping sccs)).get i) order

/-! ### decs_in_each_maid_subgame (macid.py:176-197) -/

/-- `itertools.combinations(l, r)` -/
def combinations {α : Type} : List α → Nat → List (List α)
  | _, 0 => [[]]
  | [], _ + 1 => []
  | x :: xs, r + 1 => (combinations xs r).map (x :: ·) ++ combinations xs (r + 1)

/-- The powerset of macid.py:182-186: combinations of sizes 1, 2, ..., n. -/
def powerset1 {α : Type} (l : List α) : List (List α) :=
  (List.range l.length).flatMap (fun r => combinations l (r + 1))

/-- `nx.descendants(con_rel, i)` on the condensation with `n` nodes. -/
def sccDescendants (n : Nat) (edges : List (Nat × Nat)) (i : Nat) : List Nat :=
  (Graph.closure (fun u => (edges.filter (fun e => e.1 == u)).map (·.2)) n [i]).filter
    (fun x => decide (x ≠ i))

/-- The inner loop of macid.py:189-191 for one `subset`. -/
def pruneSubset (desc : Nat → List Nat) (subset : List Nat) :
    List (List Nat) → List Nat → List (List Nat)
  | sub, [] => sub
  | sub, node :: ns =>
    if ¬ ((desc node).all (fun x => decide (x ∈ subset)) = true) ∧ subset ∈ sub then
      pruneSubset desc subset (sub.erase subset) ns
    else pruneSubset desc subset sub ns

/-- `decs_in_each_maid_subgame` (macid.py:176-197); a Python set of decisions is a list here. -/
def decsInEachSubgame (rg : Graph) (sccs : List (List Node)) : Py (List (List Node)) :=
  let edges := sccEdges rg (sccMapping sccs)
  let nodes := List.range sccs.length
  let desc := sccDescendants sccs.length edges
  let pw := powerset1 nodes
  let subgames := pw.foldl (fun acc subset => pruneSubset desc subset acc subset) pw
  mapPy (fun sg =>
    match mapPy (fun scc => (decisionsInScc (sccMapping sccs)).get scc) sg with
    | .error e => .error e
    | .ok ls => .ok ls.flatten.dedup) subgames

end Macid
end Verif

import Verif.Model.Py
import Mathlib.Data.List.Dedup

/-!
# The directed graph underneath a `CausalBayesianNetwork`

Models the part of networkx.DiGraph / pgmpy.BayesianNetwork that pycid uses
(pinned: pgmpy 0.1.17).  Nodes and edges are kept in insertion order, which is
the order networkx iterates in.
-/

namespace Verif

/-- networkx `DiGraph` (`_node`, `_succ`, `_pred` dictionaries) as two insertion ordered lists. -/
structure Graph where
  nodes : List Node
  edges : List (Node × Node)
  deriving DecidableEq, Repr

namespace Graph

/-- The empty graph: `CausalBayesianNetwork()` (pycid/core/causal_bayesian_network.py:83-95). -/
def empty : Graph := ⟨[], []⟩

/-- `node in cbn.nodes()` -/
def hasNode (g : Graph) (v : Node) : Bool := decide (v ∈ g.nodes)

/-- `cbn.has_edge(u, v)` -/
def hasEdge (g : Graph) (u v : Node) : Bool := decide ((u, v) ∈ g.edges)

/-- `cbn.get_children(u)` : pgmpy `DAG.get_children` = `list(self.successors(u))`.
Simplification: the NetworkXError for an unknown node is not raised here; callers check. -/
def children (g : Graph) (u : Node) : List Node :=
  (g.edges.filter (fun e => e.1 == u)).map (·.2)

/-- `cbn.get_parents(v)` : pgmpy `DAG.get_parents` = `list(self.predecessors(v))`.
Simplification: as for `children`. -/
def parents (g : Graph) (v : Node) : List Node :=
  (g.edges.filter (fun e => e.2 == v)).map (·.1)

/-- `cbn.edges` iteration order of networkx: by tail in node order, then by edge insertion. -/
def edgesView (g : Graph) : List (Node × Node) :=
  g.nodes.flatMap (fun u => (g.children u).map (fun v => (u, v)))

/-- One round of breadth first search: add all neighbours. -/
def expand {α : Type} [DecidableEq α] (nbrs : α → List α) (s : List α) : List α :=
  s ++ (s.flatMap nbrs).filter (fun x => decide (x ∉ s))

/-- `n` rounds of breadth first search from the set `s`. -/
def closure {α : Type} [DecidableEq α] (nbrs : α → List α) : Nat → List α → List α
  | 0, s => s
  | n + 1, s => closure nbrs n ((expand nbrs s).dedup)

/-- `nx.has_path(g, u, v)` on nodes of the graph: `v` is reachable from `u` (reflexive). -/
def hasPath (g : Graph) (u v : Node) : Bool :=
  decide (v ∈ closure g.children g.nodes.length [u])

/-- `nx.descendants(g, v)` : nodes reachable from `v`, without `v` (a Python set; the list order
here is one of the possible iteration orders). -/
def descendants (g : Graph) (v : Node) : List Node :=
  (closure g.children g.nodes.length [v]).filter (fun x => decide (x ≠ v))

/-- `nx.ancestors(g, v)` : nodes from which `v` is reachable, without `v`. -/
def ancestors (g : Graph) (v : Node) : List Node :=
  (closure g.parents g.nodes.length [v]).filter (fun x => decide (x ≠ v))

/-- pgmpy 0.1.17 `DAG._get_ancestors_of(nodes)` : the nodes and all their ancestors.
Simplification: the ValueError for unknown nodes is raised by the caller. -/
def ancestorsOf (g : Graph) (s : List Node) : List Node :=
  closure g.parents g.nodes.length s

/-- `cbn.add_node(v)` (networkx): no effect if present. -/
def addNode (g : Graph) (v : Node) : Graph :=
  if v ∈ g.nodes then g else { g with nodes := g.nodes ++ [v] }

/-- networkx `DiGraph.add_edge`: add missing end points (tail first), then the edge if absent. -/
def nxAddEdge (g : Graph) (u v : Node) : Graph :=
  let g' := (g.addNode u).addNode v
  if (u, v) ∈ g'.edges then g' else { g' with edges := g'.edges ++ [(u, v)] }

/-- `CausalBayesianNetwork.add_edge` (pycid/core/causal_bayesian_network.py:103-107) on the graph,
through pgmpy 0.1.17 `BayesianNetwork.add_edge`: ValueError for a self loop and for an edge that
would close a directed cycle. -/
def addEdge (g : Graph) (u v : Node) : Py Graph :=
  if u = v then .error .value
  else if u ∈ g.nodes ∧ v ∈ g.nodes ∧ g.hasPath v u = true then .error .value
  else .ok (g.nxAddEdge u v)

/-- `add_edges_from` (pgmpy: `add_edge` one by one, the first exception propagates). -/
def addEdges (g : Graph) : List (Node × Node) → Py Graph
  | [] => .ok g
  | (u, v) :: es =>
    match g.addEdge u v with
    | .error e => .error e
    | .ok g' => g'.addEdges es

/-- `add_nodes_from` -/
def addNodes (g : Graph) (vs : List Node) : Graph := vs.foldl addNode g

/-- `CausalBayesianNetwork(edges)` (pycid/core/causal_bayesian_network.py:83-95; the ValueError for
edges that are not pairs of strings is ruled out by typing). -/
def ofEdges (es : List (Node × Node)) : Py Graph := empty.addEdges es

/-- `CausalBayesianNetwork.remove_edge` (pycid/core/causal_bayesian_network.py:97-101) on the graph;
networkx raises NetworkXError if the edge is absent. -/
def removeEdge (g : Graph) (u v : Node) : Py Graph :=
  if (u, v) ∈ g.edges then .ok { g with edges := g.edges.filter (fun e => decide (e ≠ (u, v))) }
  else .error .nx

/-- `remove_node` on the graph (pgmpy 0.1.17 `BayesianNetwork.remove_node`, which pycid inherits):
pgmpy asks for the node's CPD first, which raises ValueError if the node is absent. -/
def removeNode (g : Graph) (v : Node) : Py Graph :=
  if v ∈ g.nodes then
    .ok { nodes := g.nodes.filter (fun x => decide (x ≠ v)),
          edges := g.edges.filter (fun e => decide (e.1 ≠ v ∧ e.2 ≠ v)) }
  else .error .value

end Graph
end Verif

namespace Verif

/-- The public graph-editing calls. -/
inductive Edit
  | addNode (v : Node)
  | addEdge (u v : Node)
  | removeEdge (u v : Node)
  | removeNode (v : Node)
  deriving DecidableEq, Repr

/-- Effect of an editing call on the graph, and its outcome.  All four raise before changing
anything (causal_bayesian_network.py:97-107 call the pgmpy/networkx methods first). -/
def Graph.apply (g : Graph) : Edit → Graph × Py Unit
  | .addNode v => (g.addNode v, .ok ())
  | .addEdge u v =>
    match g.addEdge u v with
    | .ok g' => (g', .ok ())
    | .error e => (g, .error e)
  | .removeEdge u v =>
    match g.removeEdge u v with
    | .ok g' => (g', .ok ())
    | .error e => (g, .error e)
  | .removeNode v =>
    match g.removeNode v with
    | .ok g' => (g', .ok ())
    | .error e => (g, .error e)

/-- A history of editing calls, exceptions being caught by the caller. -/
def Graph.applyAll (g : Graph) (es : List Edit) : Graph := es.foldl (fun g e => (g.apply e).1) g

end Verif

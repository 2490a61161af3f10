import Verif.Model.Graph

/-!
# networkx `topological_sort`

pycid uses it in `MACIDBase.get_valid_order` (pycid/core/macid_base.py:205-221), in
`CondensedRelevanceGraph.get_scc_topological_ordering` (pycid/core/relevance_graph.py:101-107) and,
through `nx.is_directed_acyclic_graph`, in `RelevanceGraph.is_acyclic` (relevance_graph.py:36-40).
networkx is a dependency that is not in /repo.  Its versions differ in the order in which nodes
with in-degree zero are emitted (first-in-first-out by generations since 2.6, last-in-first-out
before), so the choice is an arbitrary function `pick`.
-/

namespace Verif

variable {α : Type} [DecidableEq α]

/-- Loop state of Kahn's algorithm: `zero_indegree`, `indegree_map`, nodes yielded so far. -/
structure KahnSt (α : Type) where
  zero : List α
  indeg : Dict α Nat
  out : List α

/-- `G.in_degree(v)` -/
def inDegree (edges : List (α × α)) (v : α) : Nat := (edges.filter (fun e => decide (e.2 = v))).length

/-- The two comprehensions before the loop. -/
def kahnInit (nodes : List α) (edges : List (α × α)) : KahnSt α :=
  ⟨nodes.filter (fun v => decide (inDegree edges v = 0)),
   (nodes.filter (fun v => decide (inDegree edges v ≠ 0))).map (fun v => (v, inDegree edges v)), []⟩

/-- Body of the inner loop: `indegree_map[child] -= 1`, and move the child to `zero_indegree` when
zero is reached.  (The KeyError of a missing child cannot occur; the state is then left alone.) -/
def kahnChild (st : KahnSt α) (c : α) : KahnSt α :=
  match st.indeg.get? c with
  | none => st
  | some k =>
    if k = 1 then { st with zero := st.zero ++ [c], indeg := st.indeg.erase c }
    else { st with indeg := st.indeg.set c (k - 1) }

/-- Emit `x` and process its children. -/
def kahnStep (edges : List (α × α)) (x : α) (st : KahnSt α) : KahnSt α :=
  ((edges.filter (fun e => decide (e.1 = x))).map (·.2)).foldl kahnChild
    { st with zero := st.zero.erase x, out := st.out ++ [x] }

/-- `while zero_indegree:`; fuel is the number of nodes. -/
def kahnRun (pick : List α → Nat) (edges : List (α × α)) : Nat → KahnSt α → KahnSt α
  | 0, st => st
  | k + 1, st =>
    match st.zero[pick st.zero % st.zero.length]? with
    | none => st
    | some x => kahnRun pick edges k (kahnStep edges x st)

/-- `list(nx.topological_sort(G))`; NetworkXUnfeasible if a cycle remains. -/
def topoSort (pick : List α → Nat) (nodes : List α) (edges : List (α × α)) : Py (List α) :=
  let st := kahnRun pick edges nodes.length (kahnInit nodes edges)
  if st.indeg = [] then .ok st.out else .error .nx

/-- `nx.is_directed_acyclic_graph(G)`: does the topological sort succeed? -/
def isDag (pick : List α → Nat) (nodes : List α) (edges : List (α × α)) : Bool :=
  match topoSort pick nodes edges with
  | .ok _ => true
  | .error _ => false

end Verif

import Verif.Model.Random
import Verif.Spec.Prob
import Verif.Spec.Macid

/-!
# Random graphs

Specification vocabulary.
-/

namespace Verif
namespace Random

/-- the graph has exactly the nodes X0, …, X(n-1), is acyclic, all its edges lead from a lower to a higher number, and any two of its
nodes are joined by a path -/
structure IsRandomDag (n : Nat) (g : Graph) : Prop where
  wf : g.WF
  nodes : g.nodes.Perm ((List.range n).map (fun i => "X" ++ toString i))
  edges : ∀ u v, g.Edge u v → ∃ i j : Nat, i < j ∧ j < n ∧ u = "X" ++ toString i ∧ v = "X" ++ toString j
  joined : ∀ u ∈ g.nodes, ∀ v ∈ g.nodes, Relation.ReflTransGen g.Adj u v

/-- how many edges fit if no node may have more than `k` parents -/
def capacity (n k : Nat) : Nat := ((List.range n).map (fun i => min i k)).sum

/-- what is promised of a random game: the roles are consistent, there are as many nodes as wanted and any two of them are joined by a
path; the agents are numbered from 0 and have as many decisions and utilities as wanted, named D^a_i and U^a_i; all other nodes
are named X_i; no utility has a child; every decision has a utility of its owner downstream -/
structure IsRandomGame (w : Wanted) (mb : Macid) : Prop where
  consistent : mb.Consistent
  size : mb.g.nodes.length = w.nodes
  joined : ∀ u ∈ mb.g.nodes, ∀ v ∈ mb.g.nodes, Relation.ReflTransGen mb.g.Adj u v
  decAgents : mb.agentDecisions.keys = List.range w.decs.length
  utilAgents : mb.agentUtilities.keys = List.range w.decs.length
  decs : ∀ (a : Nat) k, w.decs[a]? = some k →
    mb.agentDecisions.get? a = some ((List.range k).map (fun i => "D^" ++ toString a ++ "_" ++ toString i))
  utils : ∀ (a : Nat) k, w.utils[a]? = some k →
    mb.agentUtilities.get? a = some ((List.range k).map (fun i => "U^" ++ toString a ++ "_" ++ toString i))
  chance : ∀ v ∈ mb.g.nodes, mb.role v = .chance → ∃ i : Nat, v = "X_" ++ toString i
  barren : ∀ u a, mb.role u = .utility a → ∀ c, ¬ mb.g.Edge u c
  useful : ∀ d a, mb.role d = .decision a → ∃ u, mb.role u = .utility a ∧ mb.g.Desc d u

/-- what is promised of a random CID: the roles are consistent, there are as many nodes as wanted and any two of them are joined by a
path; the decisions are D0, D1, …, the utilities U0, U1, …, as many as wanted, all of agent 0; the other nodes are named X_i; no
utility has a child; every decision has a utility downstream -/
structure IsRandomCid (n decs utils : Nat) (cid : Macid) : Prop where
  consistent : cid.Consistent
  size : cid.g.nodes.length = n
  joined : ∀ u ∈ cid.g.nodes, ∀ v ∈ cid.g.nodes, Relation.ReflTransGen cid.g.Adj u v
  decs : cid.agentDecisions = [(0, (List.range decs).map (fun i => "D" ++ toString i))]
  utils : cid.agentUtilities = [(0, (List.range utils).map (fun i => "U" ++ toString i))]
  chance : ∀ v ∈ cid.g.nodes, cid.role v = .chance → ∃ i : Nat, v = "X_" ++ toString i
  barren : ∀ u, cid.role u = .utility 0 → ∀ c, ¬ cid.g.Edge u c
  useful : ∀ d, cid.role d = .decision 0 → ∃ u, cid.role u = .utility 0 ∧ cid.g.Desc d u

end Random
end Verif

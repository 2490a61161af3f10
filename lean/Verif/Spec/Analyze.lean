import Verif.Spec.Net
import Verif.Spec.Prob
import Verif.Spec.Policy

/-!
# Vocabulary for incentives
-/

namespace Verif

namespace Macid

/-- `x` is a requisite observation of the decision `d`: it is observed, and d-connected to a utility of the owner of `d` below
`d`, given the other observations and `d` itself. -/
def Requisite (m : Macid) (d x : Node) : Prop :=
  m.g.Edge x d ∧ ∃ a u, m.role d = .decision a ∧ m.role u = .utility a ∧ m.g.Desc d u ∧
    ∃ Z, (∀ z, z ∈ Z ↔ z ≠ x ∧ (z = d ∨ m.g.Edge z d)) ∧ m.g.DConn x u Z

/-- the same roles over another graph -/
def onGraph (m : Macid) (g : Graph) : Macid := { m with g := g }

end Macid

/-- `g`, but into the nodes listed in `later` only the edges that `H` has too -/
def Graph.trimmed (g H : Graph) (later : List Node) : Graph :=
  ⟨g.nodes, g.edges.filter (fun e => decide (e.2 ∈ later → e ∈ H.edges))⟩

/-- `g` and the edge `u → v` -/
def Graph.plus (g : Graph) (u v : Node) : Graph := ⟨g.nodes, (u, v) :: g.edges⟩

namespace Macid

/-- sufficient recall: no agent has a cycle of reliance among its decisions -/
def Recalls (m : Macid) : Prop := ∀ a ds, (∀ d, d ∈ ds ↔ m.role d = .decision a) → m.NoRelianceCycle ds

/-- `H` is `m`'s graph with the nonrequisite observations removed, the decisions being treated from the last to the first:
same nodes, only edges into decisions are missing, and an observation of `d` is kept exactly if it is requisite in the graph
where the observations of the decisions after `d` have been reduced already. -/
structure IsRequisiteGraph (m : Macid) (order : List Node) (H : Graph) : Prop where
  nodes : H.nodes = m.g.nodes
  sub : ∀ u v, H.Edge u v → m.g.Edge u v
  other : ∀ u v, m.g.Edge u v → v ∉ order → H.Edge u v
  obs : ∀ l d r, order = l ++ d :: r → ∀ x, H.Edge x d ↔ (m.onGraph (m.g.trimmed H r)).Requisite d x

/-- the decisions, each once, none before one of its ancestors -/
structure IsOrder (m : Macid) (order : List Node) : Prop where
  nodup : order.Nodup
  all : ∀ d, d ∈ order ↔ ∃ a, m.role d = .decision a
  sorted : order.Pairwise (fun a b => ¬ m.g.Desc b a)

end Macid

namespace Net

/-- A diagram the analysis functions are meant for: consistent roles, every agent with decisions has utilities and vice versa,
and either no CPDs at all or a sound set of them for all nodes. -/
structure Analysable (net : Net) : Prop where
  roles : net.m.Consistent
  base : net.base = Macid.new ∨ net.base = Macid.newCid
  staffed : net.Staffed
  params : net.rels = [] ∨ net.Good

/-- `r` is the maximal expected utility of the agent: some rules for the decisions reach it, none exceed it -/
structure IsMaxEU (net : Net) (agent : Agent) (r : Rat) : Prop where
  reached : ∃ net', net'.Usable ∧ OnlyRules net net.m.decisions net' ∧ net'.EU agent = r
  bound : ∀ net', net'.Usable → OnlyRules net net.m.decisions net' → net'.EU agent ≤ r

/-- The same nodes, outcomes and roles, and the same distribution given the parents at all nodes outside `ds`.  The graphs may
differ. -/
structure SameWorld (ds : Node → Prop) (n1 n2 : Net) : Prop where
  nodes : ∀ v, v ∈ n2.g.nodes ↔ v ∈ n1.g.nodes
  roles : ∀ v, n2.m.role v = n1.m.role v
  outcomes : ∀ v ∈ n1.g.nodes, n2.dom v = n1.dom v
  kernels : ∀ v ∈ n1.g.nodes, ¬ ds v → ∀ a, n1.InDom a → n2.kernel v a = n1.kernel v a

/-- a version of `cid` in which `d` observes `x` and everything but the decision rules is as in `cid` -/
structure Observing (cid : Net) (d x : Node) (n : Net) : Prop where
  usable : n.Usable
  same : SameWorld (· ∈ cid.m.decisions) cid n
  edges : ∀ u v, n.g.Edge u v ↔ cid.g.Edge u v ∨ (u = x ∧ v = d)

/-- a version of `cid` in which `d` does not observe `x` and everything but the decision rules is as in `cid` -/
structure NotObserving (cid : Net) (d x : Node) (n : Net) : Prop where
  usable : n.Usable
  same : SameWorld (· ∈ cid.m.decisions) cid n
  edges : ∀ u v, n.g.Edge u v ↔ cid.g.Edge u v ∧ ¬ (u = x ∧ v = d)

/-- a version of `cid` in which agent 0 decides about `x`; everything but the decision rules is as in `cid` -/
structure Controlling (cid : Net) (x : Node) (n : Net) : Prop where
  usable : n.Usable
  nodes : ∀ v, v ∈ n.g.nodes ↔ v ∈ cid.g.nodes
  edges : ∀ u v, n.g.Edge u v ↔ cid.g.Edge u v
  roles : ∀ v, n.m.role v = if v = x then .decision 0 else cid.m.role v
  outcomes : ∀ v ∈ cid.g.nodes, n.dom v = cid.dom v
  kernels : ∀ v ∈ cid.g.nodes, v ∉ cid.m.decisions → v ≠ x → ∀ a, cid.InDom a → n.kernel v a = cid.kernel v a

end Net
end Verif

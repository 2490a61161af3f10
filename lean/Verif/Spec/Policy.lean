import Verif.Spec.Prob
import Verif.Spec.Macid
import Verif.Model.Policy

/-!
# What changes of decision rules should do
-/

namespace Verif
namespace Net

/-- Nothing but the CPDs of the listed nodes differs: same graph, roles, domains, and the same
CPD and relationship at every other node. -/
structure OnlyRules (net : Net) (ds : List Node) (net' : Net) : Prop where
  m : net'.m = net.m
  base : net'.base = net.base
  domain : net'.domain = net.domain
  cpds : ∀ w, w ∉ ds → net'.cpds.get? w = net.cpds.get? w
  rels : ∀ w, w ∉ ds → net'.rels.get? w = net.rels.get? w

/-- expected utility of an agent: the sum of the expectations of its utility nodes -/
def EU (net : Net) (agent : Agent) : Rat := (((net.m.agentUtilities.get? agent).getD []).map (net.Mean [] [])).sum

/-- the rule of `d` is deterministic: given the values of the parents it picks the outcome `φ` says -/
def Pure (net : Net) (d : Node) (φ : List Outcome → Outcome) : Prop :=
  ∀ a, net.InDom a → net.kernel d a = if a d = φ ((net.g.parents d).map a) then 1 else 0

/-- the CPD of `v` is an object of one of pycid's own classes -/
def Own (net : Net) (v : Node) : Prop := ∀ c, net.cpds.get? v = some c → c.kind ≠ .tabular

/-- `base` is the situation in which `optimal_pure_policies` compares policies for `ds`: the same network, where those
decisions without rule that no decision in `ds` relies on choose uniformly. -/
structure Reference (net : Net) (ds : List Node) (base : Net) : Prop where
  nodes : base.g.nodes = net.g.nodes
  edges : ∀ u v, base.g.Edge u v ↔ net.g.Edge u v
  domain : ∀ v ∈ net.g.nodes, base.domain.get? v = net.domain.get? v
  roles : ∀ n, base.m.role n = net.m.role n
  mixed : ∀ v ∈ net.m.decisions, net.undecided v = true → v ∉ ds → (∀ d ∈ ds, ¬ net.m.RReach d v) →
    base.undecided v = false ∧ ∀ a, net.InDom a → base.kernel v a = 1 / ((net.dom v).length : Rat)
  same : ∀ v ∈ net.g.nodes, ¬ (v ∈ net.m.decisions ∧ net.undecided v = true ∧ v ∉ ds ∧ ∀ d ∈ ds, ¬ net.m.RReach d v) →
    base.undecided v = net.undecided v ∧ ∀ a, net.InDom a → base.kernel v a = net.kernel v a

end Net
end Verif

import Verif.Model.Infer
import Verif.Spec.Graph
import Verif.Spec.Macid
import Verif.Spec.Cpd

/-!
# What a parameterised network should satisfy
-/

namespace Verif

/-- the number of outcomes of a variable according to the table of domains -/
def cardOf (domain : Dict Node (List Outcome)) (p : Node) : Py Nat :=
  match domain.get? p with
  | some d => .ok d.length
  | none => .error .attribute

/-- The CPD a relationship stands for in a graph, given the domains of the variables. -/
def computed (g : Graph) (domain : Dict Node (List Outcome)) (v : Node) : Rel → Py Cpd
  | .tab c => .ok c
  | .func f => mkCpd .stochastic v f none (g.parents v) domain (cardOf domain)
  | .dist d => mkCpd .constant v (constFunc d) none (g.parents v) domain (cardOf domain)
  | .seq l => mkCpd .decision v (constFunc []) (some l) (g.parents v) domain (cardOf domain)

/-- does a relationship have to look at the parents' domains -/
def Rel.isTab : Rel → Bool
  | .tab _ => true
  | _ => false

/-- What pgmpy guarantees about every TabularCPD object (its constructor checks the shape of the table
and that state names and evidence are not repeated). -/
structure Cpd.WellFormed (c : Cpd) : Prop where
  nodup : c.domain.Nodup
  nonempty : c.domain ≠ []
  evidence : c.evidence.Nodup
  columns : c.table.length = c.evCard.prod
  column : ∀ col ∈ c.table, col.length = c.domain.length

/-- A CPD fits its place in a graph, what pgmpy's `check_model` demands: its evidence variables are the
parents, it has a column for each combination of their outcomes, and the columns sum to 1 (within
pgmpy's tolerance of 0.01). -/
structure Cpd.Fits (c : Cpd) (g : Graph) (domain : Dict Node (List Outcome)) (v : Node) : Prop where
  var : c.var = v
  parents : ∀ p, p ∈ c.evidence ↔ g.Edge p v
  cards : c.evCard = c.evidence.map (fun p => ((domain.get? p).getD []).length)
  sums : c.table.all colClose = true

namespace Net

/-- Every instantiated CPD is the one its current relationship and the current domains of its
parents determine, and the recorded domain is that of the CPD. -/
def Reflects (net : Net) : Prop :=
  ∀ v c, net.cpds.get? v = some c → net.domain.get? v = some c.domain ∧
    ∃ r, net.rels.get? v = some r ∧ computed net.g net.domain v r = .ok c

/-- no parameters yet -/
def Fresh (net : Net) : Prop := net.rels = [] ∧ net.domain = [] ∧ net.cpds = []

/-- What users have to respect: a function does not itself raise pycid's internal
ParentsNotReadyException, a table object is well formed. -/
def Honest : Rel → Prop
  | .func f => ∀ pv, f pv ≠ .error .parentsNotReady
  | .tab c => c.WellFormed
  | _ => True

/-- model dictionary operations -/
inductive Op
  | set (v : Node) (r : Rel)
  | del (v : Node)

/-- the relationship an operation assigns is honest -/
def Op.Honest : Op → Prop
  | .set _ r => Net.Honest r
  | .del _ => True

/-- run one operation -/
def run (net : Net) : Op → Net × Py Unit
  | .set v r => net.set v r
  | .del v => net.del v

/-- `Runs net ops net'`: the operations were executed one after the other without exception. -/
inductive Runs : Net → List Op → Net → Prop
  | nil (net) : Runs net [] net
  | cons {net net1 net2 op ops} : net.run op = (net1, .ok ()) → Runs net1 ops net2 →
      Runs net (op :: ops) net2

/-- Every node has a CPD and a domain. -/
def Complete (net : Net) : Prop :=
  ∀ v ∈ net.g.nodes, ∃ c, net.cpds.get? v = some c ∧ net.domain.get? v = some c.domain

/-- every node takes a value of its domain -/
def InDom (net : Net) (a : Assign) : Prop := ∀ v ∈ net.g.nodes, a v ∈ net.dom v

/-- Two CPDs say the same: same outcomes, same probability of every outcome under every assignment. -/
def SameCpd (net : Net) (c c' : Cpd) : Prop :=
  c'.domain = c.domain ∧ ∀ a, net.InDom a → ∀ x,
    c'.prob net.domain (c'.evidence.map a) x = c.prob net.domain (c.evidence.map a) x

/-- A fully parameterised network in a sound state: what `C33` and `C32` establish for every history,
and CPD *objects* built by pycid (`StochasticFunctionCPD` and subclasses stored as such) are in line
with the network they are stored in. -/
structure Good (net : Net) : Prop where
  wf : net.g.WF
  keys : net.rels.keys.Nodup
  relNodes : ∀ v ∈ net.rels.keys, v ∈ net.g.nodes
  reflects : net.Reflects
  complete : net.Complete
  fits : ∀ v c, net.cpds.get? v = some c → c.Fits net.g net.domain v
  cpdOk : ∀ v c, net.cpds.get? v = some c → c.WellFormed
  tabs : ∀ v c, net.rels.get? v = some (.tab c) → c.kind ≠ .tabular →
    ∃ c', mkCpd c.kind c.var c.func c.force (net.g.parents v) net.domain (cardOf net.domain) = .ok c' ∧
      net.SameCpd c c'

/-- is only the domain of a decision specified -/
def undecided (net : Net) (v : Node) : Bool :=
  match net.cpds.get? v with
  | some c => decide (c.kind = .decision)
  | none => false

/-- Two networks a user cannot tell apart: nodes, edges, domains, which decisions are unspecified,
and every probability of an outcome given the parents. -/
structure Equiv (net net' : Net) : Prop where
  nodes : net'.g.nodes = net.g.nodes
  edges : ∀ u v, net'.g.Edge u v ↔ net.g.Edge u v
  domain : ∀ v ∈ net.g.nodes, net'.domain.get? v = net.domain.get? v
  undecided : ∀ v ∈ net.g.nodes, net'.undecided v = net.undecided v
  kernel : ∀ v ∈ net.g.nodes, ∀ a, net.InDom a → net'.kernel v a = net.kernel v a

/-- `net'` is `net` with the variables listed in `ints` cut off from their parents and fixed:
the truncated factorisation, node by node. -/
structure Cut (net : Net) (ints : List (Node × Outcome)) (net' : Net) : Prop where
  nodes : net'.g.nodes = net.g.nodes
  edges : ∀ u w, net'.g.Edge u w ↔ net.g.Edge u w ∧ w ∉ ints.map (·.1)
  domain : ∀ w ∈ net.g.nodes, (net'.dom w).Perm (net.dom w)
  domainSame : ∀ w, w ∉ ints.map (·.1) → net'.dom w = net.dom w
  roles : ∀ n, net'.m.role n = net.m.role n
  undecided : ∀ w ∈ net.g.nodes, w ∉ ints.map (·.1) → net'.undecided w = net.undecided w
  others : ∀ w ∈ net.g.nodes, w ∉ ints.map (·.1) → ∀ a, net.InDom a → net'.kernel w a = net.kernel w a
  fixed : ∀ x v, (x, v) ∈ ints → ∀ a, net.InDom a → net'.kernel x a = if a x = v then 1 else 0

/-- Copies of copies work: every agent has entries in both dictionaries, and owns at least one decision
and one utility node (agent 0 of a CID need not). -/
structure Staffed (net : Net) : Prop where
  both : ∀ a, a ∈ net.m.agentUtilities.keys ↔ a ∈ net.m.agentDecisions.keys
  owns : ∀ a, a ∈ net.m.agentUtilities.keys → ((∃ n, net.m.role n = .decision a) ∧ ∃ n, net.m.role n = .utility a) ∨
    (net.base = Macid.newCid ∧ a = 0)

/-- Interventions on `x` are handled correctly: its outcomes are listed in increasing order, or no
child of `x` is given as a table object. -/
def Tame (net : Net) (x : Node) : Prop :=
  (net.dom x).Pairwise (· ≤ ·) ∨ ∀ y c, net.g.Edge x y → net.rels.get? y ≠ some (.tab c)

end Net
end Verif

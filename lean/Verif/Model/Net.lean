import Verif.Model.Cpd
import Verif.Model.Macid

/-!
# Parameterised networks: the `Model` dictionary, copy, intervene
(pycid/core/causal_bayesian_network.py, pycid/core/macid_base.py)

A method that mutates the network and may raise is a function to `Net × Py _`: the state is what the
caller sees afterwards, also when the call raised.
-/

namespace Verif

/-- What may be assigned to a node (`Relationship`, causal_bayesian_network.py:16;
macid_base.py:56-66). -/
inductive Rel
  | tab (c : Cpd)                          -- a TabularCPD object (or subclass)
  | func (f : Func)                        -- a callable
  | dist (d : Dict Outcome (Option Rat))   -- a Mapping
  | seq (l : List Outcome)                 -- a Sequence: the domain of a decision

/-- A `MACIDBase` object; a plain `CausalBayesianNetwork` is one without roles.
`rels` is the `Model` dictionary itself, `domain` is `model.domain`, `cpds` is the list of CPDs kept
by pgmpy, indexed by their variable.  Simplification: the `state_names` attribute of every CPD is
`domain`, as established by `sync_state_names` (causal_bayesian_network.py:70-73) at the end of every
assignment.  `base` is a fresh instance of the same class. -/
structure Net where
  m : Macid
  rels : Dict Node Rel
  domain : Dict Node (List Outcome)
  cpds : Dict Node Cpd
  base : Macid

namespace Net

/-- the graph -/
abbrev g (net : Net) : Graph := net.m.g

/-- `cbn.get_cpds(node)` (pgmpy): ValueError if the node is not in the graph, else CPD or None. -/
def getCpd (net : Net) (v : Node) : Py (Option Cpd) :=
  if v ∈ net.g.nodes then .ok (net.cpds.get? v) else .error .value

/-- `cbn.get_cardinality(p)` (pgmpy): `self.get_cpds(p).cardinality[0]`. -/
def card (net : Net) (p : Node) : Py Nat :=
  match net.getCpd p with
  | .error e => .error e
  | .ok none => .error .attribute
  | .ok (some c) => .ok c.domain.length

/-- `Model.to_tabular_cpd` (causal_bayesian_network.py:75-81, macid_base.py:62-66).
`get_parents` raises NetworkXError for a variable that is not a node. -/
def toCpd (net : Net) (v : Node) : Rel → Py Cpd
  | .tab c => .ok c
  | .func f =>
    if v ∈ net.g.nodes then mkCpd .stochastic v f none (net.g.parents v) net.domain net.card
    else .error .nx
  | .dist d =>
    if v ∈ net.g.nodes then mkCpd .constant v (constFunc d) none (net.g.parents v) net.domain net.card
    else .error .nx
  | .seq l =>
    if v ∈ net.g.nodes then
      mkCpd .decision v (constFunc []) (some l) (net.g.parents v) net.domain net.card
    else .error .nx

/-- `del self.model[v]` for a present key (causal_bayesian_network.py:63-68). -/
def delKey (net : Net) (v : Node) : Net :=
  { net with rels := net.rels.erase v, cpds := net.cpds.erase v }

/-- `for child in children: if child in self.keys(): self[child] = self[child]`
(causal_bayesian_network.py:57-59). -/
def setLoop (step : Net → Node → Rel → Net × Py Unit) : Net → List Node → Net × Py Unit
  | net, [] => (net, .ok ())
  | net, c :: cs =>
    match net.rels.get? c with
    | none => setLoop step net cs
    | some r =>
      match step net c r with
      | (net', .error e) => (net', .error e)
      | (net', .ok _) => setLoop step net' cs

/-- `Model.__setitem__` (causal_bayesian_network.py:38-61).  The recursion over descendants is
bounded by the fuel; `setItem_fuel` shows that it never runs out on acyclic graphs. -/
def setItem : Nat → Net → Node → Rel → Net × Py Unit
  | 0, net, _, _ => (net, .error .runtime)
  | n + 1, net, v, r =>
    let net1 : Net := { net with rels := net.rels.erase v ++ [(v, r)], cpds := net.cpds.erase v }
    match net1.toCpd v r with
    | .error .parentsNotReady => (net1, .ok ())
    | .error e => (net1, .error e)
    | .ok c =>
      if (c.var :: c.evidence).all (fun x => decide (x ∈ net.g.nodes)) = false then (net1, .error .value)
      else
        let net2 : Net := { net1 with cpds := net1.cpds.set c.var c }
        if c.var ≠ v then (net2, .error .key)   -- cpd.state_names[variable]
        else
          let old := net2.domain.get? v
          let net3 : Net := { net2 with domain := net2.domain.set v c.domain }
          if c.domain ≠ [] ∧ old = some c.domain then (net3, .ok ())
          else setLoop (setItem n) net3 (net.g.children v)

/-- `model[v] = r` -/
def set (net : Net) (v : Node) (r : Rel) : Net × Py Unit := setItem (net.g.nodes.length + 1) net v r

/-- `del model[v]`: KeyError if absent. -/
def del (net : Net) (v : Node) : Net × Py Unit :=
  if v ∈ net.rels.keys then (net.delKey v, .ok ()) else (net, .error .key)

/-- `add_cpds` (causal_bayesian_network.py:109-115): one assignment after the other, the first
exception propagates. -/
def addCpds : Net → List (Node × Rel) → Net × Py Unit
  | net, [] => (net, .ok ())
  | net, (v, r) :: rs =>
    match net.set v r with
    | (net', .error e) => (net', .error e)
    | (net', .ok _) => net'.addCpds rs

/-- `self.model[v].copy() if hasattr(self.model[v], "copy") else self.model[v]`
(causal_bayesian_network.py:251).  Functions have no `copy`; dicts and lists are copied; copying a
StochasticFunctionCPD evaluates its function again (cpd.py:187-194) and gives a
StochasticFunctionCPD also for a ConstantCPD, while DecisionDomain has its own `copy`
(cpd.py:252-256).  Simplification: the network a CPD object refers to is the one it is stored in. -/
def copyRel (net : Net) (v : Node) : Rel → Py Rel
  | .func f => .ok (.func f)
  | .dist d => .ok (.dist d)
  | .seq l => .ok (.seq l)
  | .tab c =>
    match c.kind with
    | .tabular => .ok (.tab c)
    | .decision =>
      match mkCpd .decision c.var c.func c.force (net.g.parents v) net.domain net.card with
      | .error e => .error e
      | .ok c => .ok (.tab c)
    | _ =>
      match mkCpd .stochastic c.var c.func c.force (net.g.parents v) net.domain net.card with
      | .error e => .error e
      | .ok c => .ok (.tab c)

/-- The loop of `copy` (causal_bayesian_network.py:250-251). -/
def copyLoop (net : Net) : Net → List (Node × Rel) → Py Net
  | acc, [] => .ok acc
  | acc, (v, r) :: rs =>
    match net.copyRel v r with
    | .error e => .error e
    | .ok r' =>
      match acc.set v r' with
      | (_, .error e) => .error e
      | (acc', .ok _) => copyLoop net acc' rs

/-- `copy` (causal_bayesian_network.py:247-252). -/
def copy (net : Net) : Py Net :=
  match Macid.copyWithoutCpds net.base net.m with
  | .error e => .error e
  | .ok m => copyLoop net ⟨m, [], [], [], net.base⟩ net.rels

/-- Replace the graph. -/
def withGraph (net : Net) (g : Graph) : Net := { net with m := { net.m with g := g } }

/-- `intervene({x: v})` for one variable (causal_bayesian_network.py:189-195).  Removing the ingoing
edges does not touch the model because the variable has just been deleted from it. -/
def interveneOne (net : Net) (x : Node) (v : Outcome) : Net × Py Unit :=
  if x ∉ net.rels.keys then (net, .error .key)
  else
    let net1 := net.delKey x
    if x ∉ net1.g.nodes then (net1, .error .nx)
    else
      let net2 := net1.withGraph { net1.g with edges := net1.g.edges.filter (fun e => decide (e.2 ≠ x)) }
      match net2.domain.get? x with
      | none => (net2, .error .key)
      | some d =>
        let dist : Dict Outcome (Option Rat) := d.foldl (fun acc o => acc.set o (some 0)) []
        net2.set x (.dist (dist.set v (some 1)))

/-- `intervene` (causal_bayesian_network.py:180-195). -/
def intervene : Net → List (Node × Outcome) → Net × Py Unit
  | net, [] => (net, .ok ())
  | net, (x, v) :: rest =>
    match net.interveneOne x v with
    | (net', .error e) => (net', .error e)
    | (net', .ok _) => net'.intervene rest

/-- `isinstance(self.get_cpds(v), ConstantCPD)` (DecisionDomain is a subclass). -/
def isConstant (net : Net) (v : Node) : Bool :=
  match net.cpds.get? v with
  | some c => decide (c.kind = .constant ∨ c.kind = .decision)
  | none => false

/-- Re-assign a constant CPD after its parents changed (causal_bayesian_network.py:100-101, 106-107). -/
def refresh (net : Net) (v : Node) : Net × Py Unit :=
  match net.rels.get? v with
  | some r => if net.isConstant v then net.set v r else (net, .ok ())
  | none => (net, .ok ())

/-- `remove_edge` (causal_bayesian_network.py:97-101). -/
def removeEdge (net : Net) (u v : Node) : Net × Py Unit :=
  match net.g.removeEdge u v with
  | .error e => (net, .error e)
  | .ok g => (net.withGraph g).refresh v

/-- `add_edge` (causal_bayesian_network.py:103-107). -/
def addEdge (net : Net) (u v : Node) : Net × Py Unit :=
  match net.g.addEdge u v with
  | .error e => (net, .error e)
  | .ok g => (net.withGraph g).refresh v

end Net
end Verif

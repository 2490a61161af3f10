import Verif.Model.Infer

/-!
# Plain causal Bayesian networks (pycid/core/causal_bayesian_network.py)

`CausalBayesianNetwork` is the base class of `MACIDBase`.  A plain network is a `Net` without roles; what
differs is `to_tabular_cpd`, which does not know lists, and everything that calls it.
-/

namespace Verif
namespace Cbn

/-- `CausalBayesianNetwork(edges)` (causal_bayesian_network.py:83-95). Simplification: edges are pairs of
strings by type, so the check of lines 90-93 never fails. -/
def init (edges : List (Node × Node)) : Py Net :=
  match Macid.init edges [] [] with
  | .error e => .error e
  | .ok m => .ok ⟨m, [], [], [], Macid.new⟩

/-- `Model.to_tabular_cpd` (causal_bayesian_network.py:75-81): for a list none of the cases applies, so the
method returns None, which pgmpy's `add_cpds` rejects with ValueError. -/
def toCpd (net : Net) (v : Node) : Rel → Py Cpd
  | .seq _ => .error .value
  | r => net.toCpd v r

/-- `Model.__setitem__` (causal_bayesian_network.py:38-61) with the method above; see `Net.setItem`. -/
def setItem : Nat → Net → Node → Rel → Net × Py Unit
  | 0, net, _, _ => (net, .error .runtime)
  | n + 1, net, v, r =>
    let net1 : Net := { net with rels := net.rels.erase v ++ [(v, r)], cpds := net.cpds.erase v }
    match toCpd net1 v r with
    | .error .parentsNotReady => (net1, .ok ())
    | .error e => (net1, .error e)
    | .ok c =>
      if (c.var :: c.evidence).all (fun x => decide (x ∈ net.g.nodes)) = false then (net1, .error .value)
      else
        let net2 : Net := { net1 with cpds := net1.cpds.set c.var c }
        if c.var ≠ v then (net2, .error .key)   -- cpd.state_names[variable]
        else
          let old := net2.domain.get? v
          let net3 : Net := { net2 with domain := net2.domain.set v c.domain }
          if c.domain ≠ [] ∧ old = some c.domain then (net3, .ok ())
          else Net.setLoop (setItem n) net3 (net.g.children v)

/-- `model[v] = r` -/
def set (net : Net) (v : Node) (r : Rel) : Net × Py Unit := setItem (net.g.nodes.length + 1) net v r

/-- `add_cpds` (causal_bayesian_network.py:109-115). -/
def addCpds : Net → List (Node × Rel) → Net × Py Unit
  | net, [] => (net, .ok ())
  | net, (v, r) :: rs =>
    match set net v r with
    | (net', .error e) => (net', .error e)
    | (net', .ok _) => addCpds net' rs

/-- The loop of `copy` (causal_bayesian_network.py:250-251). -/
def copyLoop (net : Net) : Net → List (Node × Rel) → Py Net
  | acc, [] => .ok acc
  | acc, (v, r) :: rs =>
    match net.copyRel v r with
    | .error e => .error e
    | .ok r' =>
      match set acc v r' with
      | (_, .error e) => .error e
      | (acc', .ok _) => copyLoop net acc' rs

/-- `copy_without_cpds` (causal_bayesian_network.py:240-245). -/
def copyWithoutCpds (net : Net) : Py Net :=
  match (Macid.new.g.addNodes net.g.nodes).addEdges net.g.edgesView with
  | .error e => .error e
  | .ok g => .ok ⟨{ Macid.new with g := g }, [], [], [], Macid.new⟩

/-- `copy` (causal_bayesian_network.py:247-252). -/
def copy (net : Net) : Py Net :=
  match copyWithoutCpds net with
  | .error e => .error e
  | .ok c => copyLoop net c net.rels

/-- `intervene({x: v})` for one variable (causal_bayesian_network.py:189-195); see `Net.interveneOne`. -/
def interveneOne (net : Net) (x : Node) (v : Outcome) : Net × Py Unit :=
  if x ∉ net.rels.keys then (net, .error .key)
  else
    let net1 := net.delKey x
    if x ∉ net1.g.nodes then (net1, .error .nx)
    else
      let net2 := net1.withGraph { net1.g with edges := net1.g.edges.filter (fun e => decide (e.2 ≠ x)) }
      match net2.domain.get? x with
      | none => (net2, .error .key)
      | some d =>
        let dist : Dict Outcome (Option Rat) := d.foldl (fun acc o => acc.set o (some 0)) []
        set net2 x (.dist (dist.set v (some 1)))

/-- `intervene` (causal_bayesian_network.py:180-195). -/
def intervene : Net → List (Node × Outcome) → Net × Py Unit
  | net, [] => (net, .ok ())
  | net, (x, v) :: rest =>
    match interveneOne net x v with
    | (net', .error e) => (net', .error e)
    | (net', .ok _) => intervene net' rest

/-- `query` (causal_bayesian_network.py:135-178). -/
def query (ord : List Node → List Node) (net : Net) (q : List Node) (ctx int : List (Node × Outcome)) :
    Net × Py Net.Factor :=
  match net.checkContextCbn ctx with
  | .error e => (net, .error e)
  | .ok _ =>
    match int with
    | [] => net.queryOn ord q ctx
    | _ :: _ =>
      match copy net with
      | .error e => (net, .error e)
      | .ok c =>
        match intervene c int with
        | (_, .error e) => (net, .error e)
        | (c', .ok _) => (net, (c'.queryOn ord q ctx).2)

/-- `expected_value` (causal_bayesian_network.py:197-231). -/
def expectedValue (ord : List Node → List Node) (net : Net) (vars : List Node) (ctx int : List (Node × Outcome)) :
    Net × Py (List Rat) :=
  match query ord net vars ctx int with
  | (net', .error e) => (net', .error e)
  | (net', .ok f) => (net', Net.evOf f)

end Cbn
end Verif

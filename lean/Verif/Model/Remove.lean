import Verif.Model.Infer

/-!
# `remove_node` on a parameterised network

pycid does not override pgmpy's `BayesianNetwork.remove_node` (pgmpy 0.1.17), which works on the CPD
objects and calls pycid's `remove_cpds` (causal_bayesian_network.py:117-119).  The role dictionaries
(macid_base.py:38-54) and `model.domain` (causal_bayesian_network.py:36) are not touched.
-/

namespace Verif

/-- pgmpy `TabularCPD.marginalize([v], inplace=True)`: the columns that differ only in the value of
`v` are added and the results normalised; ValueError if `v` is not an evidence variable. -/
def Cpd.margOut (c : Cpd) (dom : Dict Node (List Outcome)) (v : Node) : Py Cpd :=
  if v ∉ c.evidence then .error .value
  else
    let names : Node → List Outcome := fun p => (dom.get? p).getD []
    let ps := c.evidence.filter (fun p => decide (p ≠ v))
    let weight : List Outcome → Outcome → Rat := fun vals y => ((names v).map (fun x =>
      (c.prob dom (c.evidence.map (fun p => if p = v then x else (pvOf ps vals p).getD 0)) y).getD 0)).sum
    .ok { c with
      evidence := ps
      evCard := ((c.evidence.zip c.evCard).filter (fun p => decide (p.1 ≠ v))).map (·.2)
      table := (product (ps.map names)).map (fun vals =>
        c.domain.map (fun y => weight vals y / (c.domain.map (weight vals)).sum)) }

namespace Net

/-- The relationship after its object was changed in place; the other relationships are not CPD
objects. -/
def touch (c : Cpd) : Rel → Rel
  | .tab _ => .tab c
  | r => r

/-- `for affected_node in affected_nodes: node_cpd.marginalize([node], inplace=True)` in pgmpy's
`remove_node`. If the relationship is the CPD object itself (causal_bayesian_network.py:75-77), it
changes too. -/
def averageOut (v : Node) : Net → List Node → Net × Py Unit
  | net, [] => (net, .ok ())
  | net, w :: ws =>
    match net.cpds.get? w with
    | none => averageOut v net ws
    | some c =>
      match c.margOut net.domain v with
      | .error e => (net, .error e)
      | .ok c' =>
        averageOut v { net with
          cpds := net.cpds.set w c'
          rels := net.rels.map (fun p => if p.1 = w then (p.1, touch c' p.2) else p) } ws

/-- `remove_node(v)` (pgmpy 0.1.17; pycid's `remove_cpds`, causal_bayesian_network.py:117-119, deletes
the relationship of a node that has a CPD). -/
def removeNode (net : Net) (v : Node) : Net × Py Unit :=
  match averageOut v net (net.g.children v) with
  | (n1, .error e) => (n1, .error e)
  | (n1, .ok _) =>
    match n1.getCpd v with
    | .error e => (n1, .error e)
    | .ok o =>
      match (match o with | some _ => n1.del v | none => (n1, .ok ())) with
      | (n2, .error e) => (n2, .error e)
      | (n2, .ok _) =>
        match n2.g.removeNode v with
        | .error e => (n2, .error e)
        | .ok g => (n2.withGraph g, .ok ())

end Net
end Verif

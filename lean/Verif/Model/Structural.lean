import Verif.Model.Infer
import Verif.Model.Topo

/-!
# `is_structural_causal_model`, `remove_cpds`, `sample`
(pycid/core/causal_bayesian_network.py:117-133, 233-238)
-/

namespace Verif

/-- `np.isclose(p, c)` with numpy's default tolerances: `|p - c| ≤ 1e-8 + 1e-5 * |c|`. -/
def npClose (p c : Rat) : Bool := decide (|p - c| ≤ 1 / 100000000 + 1 / 100000 * |c|)

namespace Net

/-- The loop of `is_structural_causal_model` (causal_bayesian_network.py:128-132): the first node with parents that has no
CPD raises AttributeError (`None.values`), the first entry that is neither close to 0 nor to 1 ends the loop with False.
The table is a list of columns; pgmpy flattens the same entries in a different order, which does not matter. -/
def structuralLoop (net : Net) : List Node → Py Bool
  | [] => .ok true
  | v :: vs =>
    if net.g.parents v = [] then structuralLoop net vs
    else
      match net.getCpd v with
      | .error e => .error e
      | .ok none => .error .attribute
      | .ok (some c) =>
        if c.table.flatten.all (fun p => npClose p 0 || npClose p 1) then structuralLoop net vs else .ok false

/-- `is_structural_causal_model` (causal_bayesian_network.py:121-133) -/
def isStructural (net : Net) : Py Bool := structuralLoop net net.g.nodes

/-- `remove_cpds` (causal_bayesian_network.py:117-119): one `del` after the other, the first KeyError propagates. A CPD object
stands for its variable. -/
def removeCpds : Net → List Node → Net × Py Unit
  | net, [] => (net, .ok ())
  | net, v :: vs =>
    match net.del v with
    | (net', .error e) => (net', .error e)
    | (net', .ok _) => net'.removeCpds vs

/-- The entry of the column of `v`'s CPD that the values drawn so far select (pgmpy's `forward_sample` looks up the sampled
values of the evidence). -/
def drawProb (net : Net) (s : Dict Node Outcome) (v : Node) (x : Outcome) : Rat :=
  match net.cpds.get? v with
  | none => 0
  | some c => (c.prob net.domain (c.evidence.map (fun u => (Dict.get? s u).getD 0)) x).getD 0

/-- One round of pgmpy's `BayesianModelSampling.forward_sample` after another, as called by `sample`
(causal_bayesian_network.py:237): the next variable is drawn from the column of its CPD that the values drawn so far select.
The random generator is modelled by listing all draws with their probabilities. -/
def draws (net : Net) : List Node → Dict Node Outcome → List (Dict Node Outcome × Rat)
  | [], s => [(s, 1)]
  | v :: vs, s => (net.dom v).flatMap (fun x =>
      (draws net vs (s ++ [(v, x)])).map (fun p =>
        (p.1, net.drawProb s v x * p.2)))

/-- `sample` (causal_bayesian_network.py:233-238): every dictionary it may return together with the probability of its being
returned.  `BayesianModelSampling` runs pgmpy's `check_model` (ValueError) and visits the variables in a topological order;
`pick` resolves the choices of networkx. -/
def sample (pick : List Node → Nat) (net : Net) : Py (List (Dict Node Outcome × Rat)) :=
  if net.checkModel = false then .error .value
  else
    match topoSort pick net.g.nodes net.g.edges with
    | .error e => .error e
    | .ok order => .ok (net.draws order [])

end Net
end Verif

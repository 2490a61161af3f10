import Verif.Model.Cbn
import Verif.Model.SimpleCids

/-!
# The causal Bayesian networks of `pycid.examples.simple_cbns`
-/

namespace Verif

/-- `CausalBayesianNetwork(edges)` followed by `add_cpds` (simple_cbns.py:6-7, 12-13, 18-19, 24-25) -/
def cbnOf (edges : List (Node × Node)) (rels : List (Node × Rel)) : Py Net :=
  match Cbn.init edges with
  | .error e => .error e
  | .ok net0 =>
    match Cbn.addCpds net0 rels with
    | (_, .error e) => .error e
    | (net, .ok _) => .ok net

/-- `lambda S: S + 1` (simple_cbns.py:7); a missing argument is a TypeError -/
def succFunc (x : Node) : Func := fun pv =>
  match pv x with
  | some u => .ok (.val (u + 1))
  | none => .error .type

/-- simple_cbns.py:7 -/
def threeCbnRels : List (Node × Rel) :=
  [("S", .dist (discreteUniform [-1, 1])), ("D", .func (succFunc "S")), ("U", .func (factorsFunc 1 false ["S", "D"]))]

/-- `get_3node_cbn` (simple_cbns.py:5-8) -/
def threeCbn : Py Net := cbnOf [("S", "D"), ("S", "U"), ("D", "U")] threeCbnRels

/-- simple_cbns.py:13 -/
def uniformCbnRels : List (Node × Rel) :=
  [("A", .dist (bernoulli (1 / 2))), ("B", .dist (bernoulli (1 / 2))), ("C", .func (factorsFunc 1 false ["A", "B"]))]

/-- `get_3node_uniform_cbn` (simple_cbns.py:11-14) -/
def uniformCbn : Py Net := cbnOf [("A", "C"), ("A", "B"), ("B", "C")] uniformCbnRels

/-- simple_cbns.py:19 -/
def minimalCbnRels : List (Node × Rel) := [("A", .dist (discreteUniform [0, 1])), ("B", .func (copyFunc "A"))]

/-- `get_minimal_cbn` (simple_cbns.py:17-20) -/
def minimalCbn : Py Net := cbnOf [("A", "B")] minimalCbnRels

/-- simple_cbns.py:25 -/
def forkCbnRels : List (Node × Rel) :=
  [("A", .dist (discreteUniform [1, 2])), ("B", .dist (discreteUniform [3, 4])), ("C", .func (factorsFunc 1 false ["A", "B"]))]

/-- `get_fork_cbn` (simple_cbns.py:23-26) -/
def forkCbn : Py Net := cbnOf [("A", "C"), ("B", "C")] forkCbnRels

end Verif

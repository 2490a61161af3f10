import Verif.Model.Net

/-!
# CPD objects refer to the network they were made for

A `StochasticFunctionCPD` keeps the network given to its constructor as `self.cbn`
(cpd.py:45-124), and its `copy` hands the same network on (cpd.py:187-194, and cpd.py:252-253 for
`DecisionDomain`).  So the CPD objects stored in a copy refer to the original.  `Net.copyRel` takes
the network a CPD object refers to as the one that it is stored in; here it is explicit.
-/

namespace Verif
namespace Net

/-- `copy` of one relationship (causal_bayesian_network.py:251, cpd.py:187-194) when the CPD object
refers to the network `home`: parents, domains and cardinalities are looked up there, NetworkXError if
the variable is no node of it.  Functions, distributions, lists and plain tables refer to no network. -/
def copyRelAt (home : Net) (v : Node) : Rel → Py Rel
  | .tab c =>
    if c.kind = .tabular then .ok (.tab c)
    else if v ∈ home.g.nodes then home.copyRel v (.tab c)
    else .error .nx
  | r => .ok r

/-- The loop of `copy` (causal_bayesian_network.py:250-251) with the network each stored CPD object
refers to. -/
def copyLoopWith (home : Node → Net) : Net → List (Node × Rel) → Py Net
  | acc, [] => .ok acc
  | acc, (v, r) :: rs =>
    match (home v).copyRelAt v r with
    | .error e => .error e
    | .ok r' =>
      match acc.set v r' with
      | (_, .error e) => .error e
      | (acc', .ok _) => copyLoopWith home acc' rs

/-- `copy` (causal_bayesian_network.py:247-252), where the CPD object stored for `v` refers to the
network whose present state is `home v`. -/
def copyWith (home : Node → Net) (net : Net) : Py Net :=
  match Macid.copyWithoutCpds net.base net.m with
  | .error e => .error e
  | .ok m => copyLoopWith home ⟨m, [], [], [], net.base⟩ net.rels

end Net
end Verif

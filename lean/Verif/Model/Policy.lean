import Verif.Model.Infer

/-!
# Imputing decision rules (pycid/core/macid_base.py:362-381)
-/

namespace Verif
namespace Net

/-- `lambda **pv: {outcome: 1 / len(domain) for outcome in domain}` (macid_base.py:370) -/
def randomFunc (domain : List Outcome) : Func := fun _ => .ok (.dist (discreteUniform domain))

/-- `StochasticFunctionCPD(v, f, self, domain=domain)`: `get_parents` raises NetworkXError for a variable
that is not a node. -/
def newRule (net : Net) (v : Node) (f : Func) (domain : List Outcome) : Py Cpd :=
  if v ∈ net.g.nodes then mkCpd .stochastic v f (some domain) (net.g.parents v) net.domain net.card
  else .error .nx

/-- `impute_random_decision` (macid_base.py:362-371) -/
def imputeRandom (net : Net) (d : Node) : Net × Py Unit :=
  match net.domain.get? d with
  | none => (net, .error .value)
  | some dom =>
    match net.newRule d (randomFunc dom) dom with
    | .error e => (net, .error e)
    | .ok c => net.set d (.tab c)

/-- a loop over nodes whose body changes the network and may raise -/
def forNet (f : Net → Node → Net × Py Unit) : Net → List Node → Net × Py Unit
  | net, [] => (net, .ok ())
  | net, d :: ds =>
    match f net d with
    | (net', .error e) => (net', .error e)
    | (net', .ok _) => forNet f net' ds

/-- `impute_fully_mixed_policy_profile` (macid_base.py:373-376) and `CID.impute_random_policy`
(cid.py:55-58) -/
def imputeMixed (net : Net) : Net × Py Unit := forNet imputeRandom net net.m.decisions

/-- `self.model[d] = self.model.domain[d]` (macid_base.py:381) -/
def removeRule (net : Net) (d : Node) : Net × Py Unit :=
  match net.domain.get? d with
  | none => (net, .error .key)
  | some dom => net.set d (.seq dom)

/-- `remove_all_decision_rules` (macid_base.py:378-381) -/
def removeRules (net : Net) : Net × Py Unit := forNet removeRule net net.m.decisions

end Net
end Verif

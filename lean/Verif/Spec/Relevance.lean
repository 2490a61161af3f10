import Verif.Spec.Policy

/-!
# What it means that a decision need not know a CPD
-/

namespace Verif
namespace Net

/-- what a decision sees: the values of its parents -/
def seenBy (net : Net) (d : Node) (z : Assign) : List (Node × Outcome) := (net.g.parents d).map (fun p => (p, z p))

/-- what the agent can expect if its decision `d` is set to `x` when it sees `z` -/
def Prospect (net : Net) (agent : Agent) (d : Node) (z : Assign) (x : Outcome) : Rat :=
  (((net.m.agentUtilities.get? agent).getD []).map (net.Mean [(d, x)] (net.seenBy d z))).sum

/-- With the CPDs of `net` the action `x` is better than `y` when the agent sees `z`, which may happen. -/
def Prefers (net : Net) (agent : Agent) (d : Node) (z : Assign) (x y : Outcome) : Prop :=
  net.P (Ctx (net.seenBy d z)) ≠ 0 ∧ net.Prospect agent d z y < net.Prospect agent d z x

/-- the rule of `d` in `net` is a best response: no other rule gives the agent more -/
def BestRule (net : Net) (agent : Agent) (d : Node) : Prop :=
  ∀ net', net'.Usable → OnlyRules net [d] net' → net'.EU agent ≤ net.EU agent

/-- There is a rule for `d` that is a best response with the CPDs of `N` and with those of `N'`. -/
def CommonRule (N N' : Net) (agent : Agent) (d : Node) : Prop :=
  ∃ n n', n.Usable ∧ OnlyRules N [d] n ∧ n'.Usable ∧ OnlyRules N' [d] n' ∧ (∀ a, N.InDom a → n.kernel d a = n'.kernel d a) ∧
    n.BestRule agent d ∧ n'.BestRule agent d

end Net
end Verif

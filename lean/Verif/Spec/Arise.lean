import Verif.Spec.Policy

/-!
# Which observations can arise

Specification for C100: what a decision may have to react to.
-/

namespace Verif
namespace Net

/-- some policy gives positive probability to the decision `d` observing, at its parents, the values `a` gives them -/
def Arises (net : Net) (d : Node) (a : Assign) : Prop :=
  ∃ n', n'.Usable ∧ OnlyRules net net.m.decisions n' ∧ 0 < n'.P (Has (net.g.parents d) ((net.g.parents d).map a))

/-- every decision can influence a utility of the agent, and whatever values its parents may have, they can arise -/
def Optimisable (net : Net) (agent : Agent) : Prop :=
  ∀ d ∈ net.m.decisions, (∃ u, net.m.role u = .utility agent ∧ net.g.Desc d u) ∧ ∀ a, net.InDom a → net.Arises d a

end Net
end Verif

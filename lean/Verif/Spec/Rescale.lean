import Verif.Spec.Analyze

/-!
# Games that differ in the scale of the utilities
-/

namespace Verif
namespace Net

/-- the outcome `x` of the node `v` on the new scale: utilities of agent `a` are multiplied by `k a` and moved by `c a`, other
outcomes stay -/
def onScale (net : Net) (k c : Agent → Rat) (v : Node) (x : Outcome) : Outcome :=
  match net.m.role v with
  | .utility a => k a * x + c a
  | _ => x

/-- all outcomes of an assignment on the new scale -/
def onScales (net : Net) (k c : Agent → Rat) (a : Assign) : Assign := fun v => net.onScale k c v (a v)

/-- The same diagram with the utilities of every agent on another scale: the same nodes, edges and roles, the outcomes on the new
scale, and, except at the nodes `ds`, the same probabilities. -/
structure Rescaled (ds : Node → Prop) (k c : Agent → Rat) (net net' : Net) : Prop where
  nodes : ∀ v, v ∈ net'.g.nodes ↔ v ∈ net.g.nodes
  edges : ∀ u v, net'.g.Edge u v ↔ net.g.Edge u v
  roles : ∀ v, net'.m.role v = net.m.role v
  outcomes : ∀ v ∈ net.g.nodes, net'.dom v = (net.dom v).map (net.onScale k c v)
  kernels : ∀ v ∈ net.g.nodes, ¬ ds v → ∀ a, net.InDom a → net'.kernel v (net.onScales k c a) = net.kernel v a

/-- the number of utility nodes of an agent -/
def utilityCount (net : Net) (agent : Agent) : Nat := ((net.m.agentUtilities.get? agent).getD []).length

/-- no decision observes a utility -/
def BlindToUtility (net : Net) : Prop := ∀ d a, net.m.role d = .decision a → ∀ u, net.g.Edge u d → ∀ b, net.m.role u ≠ .utility b

end Net
end Verif

import Verif.Spec.Efg

/-!
# Values of games
-/

namespace Verif
namespace Net

/-- the same game, the CPDs aside: nodes, edges, domains and roles agree -/
structure SameGame (net net' : Net) : Prop where
  nodes : net'.g.nodes = net.g.nodes
  edges : ∀ u v, net'.g.Edge u v ↔ net.g.Edge u v
  domain : ∀ v ∈ net.g.nodes, net'.domain.get? v = net.domain.get? v
  roles : ∀ n, net'.m.role n = net.m.role n

/-- whatever rules the decisions follow, the expected utilities of the two agents add up to `c` -/
def ConstantSum (net : Net) (decs : List Node) (a b : Agent) (c : Rat) : Prop :=
  ∀ n, n.Usable → OnlyRules net decs n → n.EU a + n.EU b = c

/-- the decisions of an agent -/
def decsOf (net : Net) (decs : List Node) (agent : Agent) : List Node := decs.filter (fun d => decide (net.m.role d = .decision agent))

/-- the listed decisions of `n` choose as in `n'` -/
def PlaysLike (n n' : Net) (ds : List Node) : Prop := ∀ d ∈ ds, ∀ a, n.InDom a → n.kernel d a = n'.kernel d a

end Net
end Verif

import Verif.Spec.Prob
import Verif.Spec.Macid

/-!
# What a change of one CPD can reach
-/

namespace Verif
namespace Net

/-- After cutting the edges into `I`, a new parent of `v` is d-connected to `y` given `Z` and `I`: what is known about `y` when `Z` is
observed and `I` is set may depend on the CPD of `v`. -/
def MechConn (net : Net) (I Z : List Node) (v y : Node) : Prop :=
  ∃ n, n ∉ net.g.nodes ∧ ((CutGraph net.g I).withParent n v).DConn n y (Z ++ I)

/-- the distribution of the variables `q`, given the context and the intervention -/
def Given (net : Net) (int ctx : List (Node × Outcome)) (q : List Node) (xs : List Outcome) : Rat :=
  net.PDo int (fun a => Has q xs a && Ctx ctx a) / net.PDo int (Ctx ctx)

/-- the graph without the edges that leave `x` -/
def Silent (g : Graph) (x : Node) : Graph := ⟨g.nodes, g.edges.filter (fun e => decide (e.1 ≠ x))⟩

/-- the graph without the edges that leave one of `X` -/
def SilentAll (g : Graph) (X : List Node) : Graph := ⟨g.nodes, g.edges.filter (fun e => decide (e.1 ∉ X))⟩

end Net
end Verif

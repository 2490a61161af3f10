import Verif.Spec.Prob

/-!
# How a relationship was given
-/

namespace Verif
namespace Net

/-- the relationship of `d` was given as a distribution or as a list of actions, and not as a function or an object that refers to the
parents -/
def Direct (net : Net) (d : Node) : Prop := (∃ t, net.rels.get? d = some (.dist t)) ∨ ∃ l, net.rels.get? d = some (.seq l)

open Classical in
/-- what the mechanism of `d` sees of an assignment: the outcomes of the parents of `d` -/
noncomputable def view (net : Net) (d : Node) (a : Assign) : Assign := fun p => if net.g.Edge p d then a p else 0

end Net
end Verif

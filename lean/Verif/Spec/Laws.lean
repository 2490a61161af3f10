import Verif.Model.DSep
import Verif.Spec.Graph

/-!
# Vocabulary for the laws of d-separation
-/

namespace Verif

/-- `is_dconnected` answers False for every node of `X` and every node of `Y`, given `Z` -/
def Apart (pick : Pick) (g : Graph) (X Y Z : List Node) : Prop := ∀ x ∈ X, ∀ y ∈ Y, isDConnected pick g x y Z = .ok false

namespace Graph

/-- Neighbours in the moral graph of the nodes in `A`: joined by an edge, or two parents of the same node of `A`. -/
def Moral (g : Graph) (A : Node → Prop) (u w : Node) : Prop :=
  A u ∧ A w ∧ (g.Edge u w ∨ g.Edge w u ∨ ∃ c, A c ∧ g.Edge u c ∧ g.Edge w c)

/-- the parents, the children and the other parents of the children -/
def InBlanket (g : Graph) (x v : Node) : Prop := v ≠ x ∧ (g.Edge v x ∨ g.Edge x v ∨ ∃ c, g.Edge x c ∧ g.Edge v c)

end Graph
end Verif

import Verif.Model.Cbn
import Verif.Spec.Prob

/-!
# Plain causal Bayesian networks
-/

namespace Verif
namespace Cbn

/-- the model contains no list -/
def ListFree (rels : List (Node × Rel)) : Prop := ∀ v l, (v, Rel.seq l) ∉ rels

/-- an object of class `CausalBayesianNetwork` whose relationships are functions, distributions or tables -/
structure Plain (net : Net) : Prop where
  roles : net.m = ⟨net.g, [], [], [], []⟩
  base : net.base = Macid.new
  lists : ListFree net.rels

/-- ready to be queried: a sound CPD at every node, exact probabilities -/
structure Ready (net : Net) : Prop where
  plain : Plain net
  good : net.Good
  normalised : net.Normalised

end Cbn
end Verif

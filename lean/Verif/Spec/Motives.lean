import Verif.Spec.Policy
import Verif.Spec.Patterns

/-!
# Vocabulary for what reasoning patterns say about utilities
-/

namespace Verif
namespace Net

/-- expected utility of an agent after an intervention: the sum of the expectations of its utility nodes -/
def EUDo (net : Net) (int : List (Node × Outcome)) (agent : Agent) : Rat :=
  (((net.m.agentUtilities.get? agent).getD []).map (net.Mean int [])).sum

/-- the rule of `e` pays no attention to what `e` observes -/
def Ignores (net : Net) (e : Node) : Prop := ∀ a b, net.InDom a → net.InDom b → a e = b e → net.kernel e a = net.kernel e b

end Net
end Verif

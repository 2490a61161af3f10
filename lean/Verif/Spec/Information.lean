import Verif.Spec.Analyze

/-!
# Diagrams with additional observations
-/

namespace Verif
namespace Net

/-- a version of `cid` with additional observations: for each pair `(x, d)` of `obs` the decision `d` observes `x`; everything but the decision
rules is as in `cid` -/
structure Informed (cid : Net) (obs : List (Node × Node)) (n : Net) : Prop where
  usable : n.Usable
  same : SameWorld (· ∈ cid.m.decisions) cid n
  edges : ∀ u v, n.g.Edge u v ↔ cid.g.Edge u v ∨ (u, v) ∈ obs

/-- sufficient recall with these additional observations -/
def RecallWith (cid : Net) (obs : List (Node × Node)) : Prop := ∀ n, Informed cid obs n → n.m.NoRelianceCycle n.m.decisions

/-- `d` is the only decision, it belongs to agent 0 -/
def OneDecision (cid : Net) (d : Node) : Prop := ∀ e b, cid.m.role e = .decision b ↔ e = d ∧ b = 0

end Net
end Verif

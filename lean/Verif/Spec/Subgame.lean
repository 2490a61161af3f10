import Verif.Spec.Prob

/-!
# What a subgame should be
-/

namespace Verif

namespace Macid

/-- relevant to one of the active decisions -/
def RelevantTo (m : Macid) (active : List Node) (v : Node) : Prop := ∃ d ∈ active, m.RReach d v

/-- an active decision, or relevant to one -/
def InGame (m : Macid) (active : List Node) (v : Node) : Prop := v ∈ active ∨ m.RelevantTo active v

/-- `sg` has the structure of the subgame of `m` with the given active decisions -/
structure IsSubgame (m : Macid) (active : List Node) (sg : Macid) : Prop where
  edges : ∀ u v, sg.g.Edge u v ↔ m.g.Edge u v ∧ m.InGame active v
  nodes : ∀ v, v ∈ sg.g.nodes ↔ ∃ w, sg.g.Edge v w ∨ sg.g.Edge w v
  wf : sg.g.WF
  decision : ∀ v a, sg.role v = .decision a ↔ v ∈ active ∧ m.role v = .decision a
  utility : ∀ v a, sg.role v = .utility a ↔ m.RelevantTo active v ∧ m.role v = .utility a

end Macid

namespace Net

/-- a decision without rule that is not relevant to the active decisions -/
def Unplayed (net : Net) (active : List Node) (v : Node) : Prop :=
  v ∈ net.m.decisions ∧ net.undecided v = true ∧ ¬ net.m.RelevantTo active v

open Classical in
/-- the probabilities before the parents are cut off: those of the network, and a uniformly random choice for
unplayed decisions -/
noncomputable def start (net : Net) (active : List Node) (v : Node) (a : Assign) : Rat :=
  if net.Unplayed active v then 1 / ((net.dom v).length : Rat) else net.kernel v a

/-- the average of `k` over the combinations of outcomes of the parents of `v`, each combination counting the same -/
def average (net : Net) (v : Node) (k : Assign → Rat) (a : Assign) : Rat :=
  sumOver net.dom (net.g.parents v) k a / sumOver net.dom (net.g.parents v) (fun _ => 1) a

/-- `sg` has the probabilities of the subgame: those of `net` for the members of the game, averages for the
others -/
structure SubgameProbs (net : Net) (active : List Node) (sg : Net) : Prop where
  domain : ∀ v ∈ sg.g.nodes, sg.dom v = net.dom v
  kept : ∀ v ∈ sg.g.nodes, net.m.InGame active v → ∀ a, net.InDom a → sg.kernel v a = net.start active v a
  averaged : ∀ v ∈ sg.g.nodes, ¬ net.m.InGame active v → ∀ a, net.InDom a →
    sg.kernel v a = net.average v (net.start active v) a
  undecided : ∀ v ∈ sg.g.nodes, sg.undecided v = true ↔
    net.m.InGame active v ∧ net.undecided v = true ∧ ¬ net.Unplayed active v

end Net
end Verif

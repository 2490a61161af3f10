import Verif.Spec.Existence

/-!
# When the search for equilibria returns
-/

namespace Verif
namespace Net

/-- solvers that never raise -/
def NeverRaises (run : Efg → Solver → Py (List Behavior)) : Prop := ∀ t s, ∃ bs, run t s = .ok bs

/-- the choices of solver that are accepted -/
def Known (override : Option String) : Prop := ∀ name, override = some name → name ∈ ["enumpure", "enummixed", "lcp", "lp", "simpdiv", "ipa", "gnm"]

/-- What the search in the subgame of the decisions `decs` needs of the decisions and of what they observe.  Those that are members of
the subgame depend only on each other and give positive probability to every outcome, whatever the outcomes of the parents are.  Those
that are cut off can have every outcome. -/
structure Searchable (net : Net) (decs : List Node) : Prop where
  closed : ∀ v, net.InTree decs v → net.m.InGame decs v → ∀ p, net.g.Edge p v → net.InTree decs p
  members : ∀ v, net.InTree decs v → net.m.InGame decs v → ∀ a, net.InDom a → net.start decs v a ≠ 0
  others : ∀ v, net.InTree decs v → ¬ net.m.InGame decs v → ∀ x ∈ net.dom v, ∃ a, net.InDom a ∧ a v = x ∧ net.start decs v a ≠ 0

/-- What backward induction needs.  No decision has a rule that excludes an action.  For every group of decisions that rely on each
other, what is observed and belongs to the subgame depends on nothing that is not observed; chance events in it that are observed give
positive probability to every outcome, and other observed chance events can have every outcome; other decisions that are observed do
not matter, and rely on the group, so that they have no new rules yet when the group is solved. -/
structure Tractable (net : Net) : Prop where
  mixed : ∀ d ∈ net.m.decisions, ∀ a, net.InDom a → net.kernel d a ≠ 0
  closed : ∀ group, net.m.IsGroup group → ∀ v, net.InTree group v → net.m.InGame group v → ∀ p, net.g.Edge p v → net.InTree group p
  members : ∀ group, net.m.IsGroup group → ∀ v, net.InTree group v → v ∉ net.m.decisions → net.m.InGame group v →
    ∀ a, net.InDom a → net.kernel v a ≠ 0
  others : ∀ group, net.m.IsGroup group → ∀ v, net.InTree group v → v ∉ net.m.decisions → ¬ net.m.InGame group v →
    ∀ x ∈ net.dom v, ∃ a, net.InDom a ∧ a v = x ∧ net.kernel v a ≠ 0
  later : ∀ group, net.m.IsGroup group → ∀ v, net.InTree group v → v ∈ net.m.decisions → v ∉ group →
    ¬ net.m.RelevantTo group v ∧ ∃ d ∈ group, Relation.ReflTransGen net.m.Linked v d

end Net
end Verif

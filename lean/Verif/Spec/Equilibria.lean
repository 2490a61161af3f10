import Verif.Model.Efg
import Verif.Spec.Policy
import Verif.Spec.Macid
import Verif.Spec.Subgame
import Verif.Spec.Efg

/-!
# Backward induction over groups of decisions
-/

namespace Verif

/-- the solvers of the library by the names under which a user can ask for them -/
def solverNames : List (String × Solver) := [("enummixed", .enummixed), ("enumpure", .enumpure), ("lcp", .lcp), ("lp", .lp),
  ("simpdiv", .simpdiv), ("ipa", .ipa), ("gnm", .gnm)]

namespace Macid

/-- one decision relies on a different one -/
def Linked (m : Macid) (a b : Node) : Prop := a ∈ m.decisions ∧ b ∈ m.decisions ∧ a ≠ b ∧ m.RReach a b

/-- a group of decisions that rely on each other, directly or through others, with all decisions of this kind in it -/
structure IsGroup (m : Macid) (c : List Node) : Prop where
  nonempty : c ≠ []
  nodup : c.Nodup
  decisions : ∀ x ∈ c, x ∈ m.decisions
  classes : ∀ x ∈ c, ∀ y ∈ m.decisions, (y ∈ c ↔ Relation.ReflTransGen m.Linked x y ∧ Relation.ReflTransGen m.Linked y x)

/-- a set of decisions that contains every decision its members rely on: the decisions of a subgame -/
def SelfContained (m : Macid) (S : List Node) : Prop := ∀ x ∈ S, ∀ y ∈ m.decisions, m.RReach x y → y ∈ S

end Macid

namespace Net

/-- The rules of `net` form a subgame perfect equilibrium: in every subgame, however the decisions outside it are taken, no agent gains by
other rules for their own decisions in the subgame.  The whole game is one of the subgames. -/
def SubgamePerfect (net : Net) : Prop :=
  ∀ S : List Node, net.m.SelfContained S → ∀ n, n.Usable → OnlyRules net (net.m.decisions.filter (fun d => decide (d ∉ S))) n →
    ∀ agent n', n'.Usable → OnlyRules n (S.filter (fun d => decide (net.m.role d = .decision agent))) n' → n'.EU agent ≤ n.EU agent

/-- What the search needs of a game, apart from its rules: CPDs made by the library with sorted outcomes; every decision can influence a
utility of its owner; utilities are not observed; and for every group of decisions that rely on each other the subgame is connected and
no two decisions of one agent have the same parents. -/
structure Solvable (net : Net) : Prop where
  usable : net.Usable
  names : Macid.NamesOk net.g
  own : ∀ v ∈ net.g.nodes, net.Own v ∧ (net.dom v).Pairwise (· ≤ ·)
  goal : ∀ d ∈ net.m.decisions, ∃ a u, net.m.role d = .decision a ∧ net.m.role u = .utility a ∧ net.g.Desc d u
  leaf : ∀ u a, net.m.role u = .utility a → ∀ w, ¬ net.g.Edge u w
  joined : ∀ group sg, net.m.IsGroup group → net.m.IsSubgame group sg → Joined sg.g
  distinct : ∀ group, net.m.IsGroup group → ∀ d ∈ group, ∀ d' ∈ group, net.m.role d = net.m.role d' →
    (∀ p, net.g.Edge p d ↔ net.g.Edge p d') → d = d'

/-- `n` is `macid` with the rules of the profile `p` put in and nothing else changed -/
structure WithRules (macid : Net) (p : List Cpd) (n : Net) : Prop where
  m : n.m = macid.m
  base : n.base = macid.base
  new : ∀ c ∈ p, n.cpds.get? c.var = some c
  rels : ∀ v, v ∉ p.map (·.var) → n.rels.get? v = macid.rels.get? v

/-- backward induction: the profiles of a level are extended by everything the solver `ne` finds for the next group when the
profile is put in -/
inductive Induction (ne : Net → List Node → Py (List (List Cpd))) (macid : Net) :
    List (List Node) → List (List Cpd) → List (List Cpd) → Prop
  | done {level : List (List Cpd)} : Induction ne macid [] level level
  | step {group : List Node} {groups : List (List Node)} {level out : List (List Cpd)} {founds : List (List (List Cpd))} :
      List.Forall₂ (fun p found => ∃ n, WithRules macid p n ∧ ne n group = .ok found) level founds →
      Induction ne macid groups ((List.zipWith (fun p found => found.map (fun q => p ++ q)) level founds).flatten) out →
      Induction ne macid (group :: groups) level out

end Net
end Verif

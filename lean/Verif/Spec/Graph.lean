import Verif.Model.Paths
import Mathlib.Logic.Relation
import Mathlib.Data.List.Chain
import Mathlib.Data.List.Nodup

/-!
# Specification vocabulary: graphs, paths, activity, d-connection

Only the edge relation of a graph is used here, none of the model's algorithms.
-/

namespace Verif
namespace Graph

/-- There is an edge from `u` to `v`. -/
def Edge (g : Graph) (u v : Node) : Prop := (u, v) ∈ g.edges

/-- `u` and `v` are joined by an edge, in either direction. -/
def Adj (g : Graph) (u v : Node) : Prop := g.Edge u v ∨ g.Edge v u

/-- `v` is a proper descendant of `u`. -/
def Desc (g : Graph) (u v : Node) : Prop := Relation.TransGen g.Edge u v

/-- `v` is `u` or a descendant of `u`. -/
def DescEq (g : Graph) (u v : Node) : Prop := Relation.ReflTransGen g.Edge u v

/-- No node is its own proper descendant. -/
def Acyclic (g : Graph) : Prop := ∀ v, ¬ g.Desc v v

/-- The representation invariant of a networkx DiGraph that is a DAG. -/
structure WF (g : Graph) : Prop where
  nodesNodup : g.nodes.Nodup
  edgesNodup : g.edges.Nodup
  edgeNodes : ∀ u v, g.Edge u v → u ∈ g.nodes ∧ v ∈ g.nodes
  acyclic : g.Acyclic

/-- `p` is a directed path from `s` to `t`: it starts at `s`, ends at `t` and every step follows
an edge. -/
def IsDirPath (g : Graph) (s t : Node) (p : List Node) : Prop :=
  p.head? = some s ∧ p.getLast? = some t ∧ p.IsChain g.Edge

/-- `p` is a simple undirected path from `s` to `t`: starts at `s`, ends at `t`, every step joins
adjacent nodes, no node is repeated. -/
def IsUndirPath (g : Graph) (s t : Node) (p : List Node) : Prop :=
  p.head? = some s ∧ p.getLast? = some t ∧ p.IsChain g.Adj ∧ p.Nodup

/-- Textbook activity of a path given the observed set `Z`: for every three consecutive nodes
`a, b, c`: if both edges point into `b` (collider), then `b` or a descendant of `b` is observed;
otherwise `b` is not observed. -/
def Active (g : Graph) (Z : List Node) (p : List Node) : Prop :=
  ∀ l a b c r, p = l ++ a :: b :: c :: r →
    (g.Edge a b ∧ g.Edge c b → ∃ z ∈ Z, g.DescEq b z) ∧
    (¬ (g.Edge a b ∧ g.Edge c b) → b ∉ Z)

/-- Textbook d-connection: both ends unobserved, and some simple path between them is active. -/
def DConn (g : Graph) (s t : Node) (Z : List Node) : Prop :=
  s ∉ Z ∧ t ∉ Z ∧ ∃ p, g.IsUndirPath s t p ∧ g.Active Z p

/-- The classification of an interior node by the directions of its two edges. -/
def MotifOf (g : Graph) (a b c : Node) : Motif → Prop
  | .forward => g.Edge a b ∧ g.Edge b c
  | .backward => g.Edge b a ∧ g.Edge c b
  | .collider => g.Edge a b ∧ g.Edge c b
  | .fork => g.Edge b a ∧ g.Edge b c
  | .endpoint => False

end Graph
end Verif

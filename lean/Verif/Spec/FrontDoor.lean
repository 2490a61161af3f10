import Verif.Spec.Prob
import Verif.Model.Paths

/-!
# The front-door formula
-/

namespace Verif
namespace Net

/-- P(m | x = v) and P(y = w | x', m) P(x') summed over the values of `m` and `x'`: all of it is about the distribution without interventions -/
def frontDoor (net : Net) (x m y : Node) (v w : Outcome) : Rat :=
  ((net.dom m).map (fun μ => net.P (Ctx [(x, v), (m, μ)]) / net.P (Ctx [(x, v)]) *
    ((net.dom x).map (fun v' => net.P (Ctx [(x, v'), (m, μ), (y, w)]) / net.P (Ctx [(x, v'), (m, μ)]) * net.P (Ctx [(x, v')]))).sum)).sum

/-- What the package and the graph must say: different nodes; without the edges into `m`, `y` is not a descendant of `x`; no active back-door trail
from `x` to `m`, and none from `m` to `y` when `x` is observed. -/
structure FrontDoor (so : SetOrder) (net : Net) (x m y : Node) : Prop where
  nodes : x ∈ net.g.nodes ∧ m ∈ net.g.nodes ∧ y ∈ net.g.nodes
  apart : m ≠ x ∧ y ≠ x ∧ y ≠ m
  through : ¬ (CutGraph net.g [m]).DescEq x y
  first : isActiveBackdoorTrail so net.g x m [] = .ok false
  second : isActiveBackdoorTrail so net.g m y [x] = .ok false

end Net
end Verif

import Verif.Model.Home
import Verif.Spec.Net

/-!
# Copies of copies
-/

namespace Verif
namespace Net

/-- The CPD object stored for `v` would be evaluated alike in `home`: same parents of `v`, with the
same domains. -/
structure Alike (home net : Net) (v : Node) : Prop where
  node : v ∈ home.g.nodes
  simple : home.g.edges.Nodup
  parents : ∀ p, home.g.Edge p v ↔ net.g.Edge p v
  domain : ∀ p, net.g.Edge p v → home.domain.get? p = net.domain.get? p
  card : ∀ p, net.g.Edge p v → home.card p = net.card p

/-- Copies, copies of copies, and so on, of a network that has not changed in the meantime: the first
copy evaluates the CPD objects of the original; all later copies go back to the original as well, as
every copied CPD object refers to it. -/
inductive CopyOf (a : Net) : Net → Prop
  | one {b : Net} : a.copy = .ok b → CopyOf a b
  | more {b c : Net} : CopyOf a b → b.copyWith (fun _ => a) = .ok c → CopyOf a c

end Net
end Verif

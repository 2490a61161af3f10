import Verif.Spec.Prob

/-! Networks whose columns sum to 1 only approximately. -/

namespace Verif
namespace Net

/-- no CPD has a negative entry -/
def NoNegative (net : Net) : Prop := ∀ v c, net.cpds.get? v = some c → ∀ col ∈ c.table, ∀ y ∈ col, 0 ≤ y

/-- the CPD of `v` has a column that does not sum to 1 exactly -/
def isInexact (net : Net) (v : Node) : Bool := match net.cpds.get? v with
  | some c => c.table.any (fun col => decide (col.sum ≠ 1))
  | none => false

/-- the nodes whose CPD has a column that does not sum to 1 exactly -/
def inexact (net : Net) : List Node := net.g.nodes.filter net.isInexact

/-- the sum of the column of `v` for the values the parents have in `a` -/
def colSum (net : Net) (v : Node) (a : Assign) : Rat := ((net.dom v).map (fun x => net.kernel v (Assign.upd a v x))).sum

/-- the probability of an event after every column has been divided by its sum -/
def PRescaled (net : Net) (E : Assign → Bool) : Rat :=
  sumOver net.dom net.g.nodes (fun a => if E a then (net.g.nodes.map (fun v => net.kernel v a / net.colSum v a)).prod else 0)
    (fun _ => 0)

end Net
end Verif

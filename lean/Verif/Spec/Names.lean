import Verif.Model.Names

/-!
# Names and positions of outcomes
-/

namespace Verif

/-- the value with the same position -/
def sameSpot (from_ to_ : List Outcome) (x : Outcome) : Outcome := to_.getD (from_.idxOf x) 0

/-- The names of a table object are as pgmpy checks them: no repetition, as many as the table has
columns for. -/
structure Table.Sound (t : Table) : Prop where
  nodup : ∀ p ∈ t.cpd.evidence, (t.at_ p).Nodup
  cards : t.cpd.evCard = t.cpd.evidence.map (fun p => (t.at_ p).length)
  own : t.names.get? t.cpd.var = some t.cpd.domain

end Verif

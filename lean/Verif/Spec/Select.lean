import Mathlib.Algebra.Order.Ring.Rat
import Mathlib.Algebra.Order.Group.Abs

/-!
# Choosing the best of a list
-/

namespace Verif

/-- equal up to a relative tolerance -/
def Close (tol a b : Rat) : Prop := |a - b| ≤ tol * max |a| |b|

/-- `p` is best in the list for the utility `u` -/
def IsBest {α : Type} (u : α → Rat) (l : List α) (p : α) : Prop := p ∈ l ∧ ∀ q ∈ l, u q ≤ u p

end Verif

import Verif.Spec.Equilibria

/-!
# When equilibria are found
-/

namespace Verif
namespace Net

/-- a behaviour strategy profile that leaves nothing to chance -/
def Sharp (t : Efg) (b : Behavior) : Prop := ∀ (i : Nat) (s : Infoset), t.infosets[i]? = some s → ∀ x ∈ b i, x = 0 ∨ x = 1

/-- what the two solvers that `get_ne` and `get_spe` use by default are trusted to do: when the game has an equilibrium in pure strategies,
they find some equilibrium -/
def FindsPure (run : Efg → Solver → Py (List Behavior)) : Prop :=
  ∀ t s bs, s = .enumpure ∨ s = .enummixed → run t s = .ok bs → (∃ b, IsBehavior t b ∧ Sharp t b ∧ IsNash t b) → bs ≠ []

/-- the rules of the decisions `decs` are deterministic -/
def Deterministic (net : Net) (decs : List Node) : Prop := ∀ d ∈ decs, ∃ φ, net.Pure d φ

/-- the choices of solver for which the default solvers, or for other than two players `enumpure`, are used -/
def Standard (override : Option String) : Prop := override = none ∨ override = some "enumpure" ∨ override = some "enummixed"

end Net
end Verif

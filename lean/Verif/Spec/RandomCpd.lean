import Verif.Model.RandomCpd

/-!
# Random distributions

Specification vocabulary.
-/

namespace Verif
namespace Random

/-- what numpy promises of `dirichlet(alpha)` for a non-empty list of positive numbers: it does not raise, whatever the state of the
generator, and returns as many non-negative numbers, which sum to 1 -/
def Rng.Sound {σ : Type} (rng : Rng σ) : Prop :=
  ∀ alpha s, alpha ≠ [] → (∀ x ∈ alpha, 0 < x) → ∃ probs, (rng.dirichlet alpha s).1 = .ok probs ∧ probs.length = alpha.length ∧
    (∀ p ∈ probs, 0 ≤ p) ∧ probs.sum = 1

/-- no seed that will be drawn leads to an illegal seed: no hash is a multiple of 2^31, or 0 is not drawn -/
def SeedsFine {σ : Type} (rng : Rng σ) (hash : PV → Int) : Prop :=
  (∀ pv, hash pv % 2 ^ 31 ≠ 0) ∨ ∀ s, (rng.next s).1 % 10000 ≠ 0

/-- a program that leaves numpy's generator as it was, also when it raises -/
def Untouched {σ α : Type} (p : Prog σ α) : Prop := ∀ s, (p s).2 = s

/-- a program whose result, or exception, does not depend on numpy's generator -/
def Reproducible {σ α : Type} (p : Prog σ α) : Prop := ∀ s s', (p s).1 = (p s').1

/-- calls of several random CPDs, one after the other: the results and exceptions, and the final state -/
def calls {σ : Type} (rng : Rng σ) (hash : PV → Int) : List (RandomCpd × PV) → σ → List (Py (Dict Outcome (Option Rat))) × σ
  | [], s => ([], s)
  | (c, pv) :: rest, s =>
    let (r, s) := c.call rng hash pv s
    let (rs, s) := calls rng hash rest s
    (r :: rs, s)

end Random
end Verif

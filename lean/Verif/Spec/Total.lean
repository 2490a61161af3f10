import Verif.Spec.Net
import Verif.Spec.Cpd

/-!
# Relationships that always make sense
-/

namespace Verif

/-- A dictionary that is a distribution: distinct outcomes, no negative probability, and a total of one, where the total may fall
short of one if some outcome is listed without a probability (`None`). -/
structure ProperDist (d : Dict Outcome (Option Rat)) : Prop where
  keys : d.keys.Nodup
  nonneg : ∀ x p, given d x = some p → 0 ≤ p
  mass : givenMass d = 1 ∨ (givenMass d ≤ 1 ∧ ∃ x ∈ d.keys, given d x = none)

/-- the values the parents of `v` are called with: one outcome from `T` for every parent, and nothing else -/
def CalledWith (g : Graph) (T : Node → List Outcome) (v : Node) (pv : PV) : Prop :=
  ∀ p, (g.Edge p v → ∃ x ∈ T p, pv p = some x) ∧ (¬ g.Edge p v → pv p = none)

/-- Outcomes are announced in advance: `T v` are those the node `v` may take.  The relationship respects this: whatever
announced values the parents take it returns an announced outcome, or a distribution over announced outcomes. -/
def Rel.Respects (g : Graph) (T : Node → List Outcome) (v : Node) : Rel → Prop
  | .tab _ => False
  | .func f => ∀ pv, CalledWith g T v pv → ∃ d, Returns f pv d ∧ ProperDist d ∧ ∀ x ∈ d.keys, x ∈ T v
  | .dist d => ProperDist d ∧ ∀ x ∈ d.keys, x ∈ T v
  | .seq l => l ≠ [] ∧ l.Nodup ∧ ∀ x ∈ l, x ∈ T v

/-- the probability the distribution `d` gives to `x` when the outcomes are those in `domain`: the one stated, or an even share of
what the stated ones leave -/
def share (domain : List Outcome) (d : Dict Outcome (Option Rat)) (x : Outcome) : Rat :=
  (given d x).getD ((1 - givenMass d) / (unspecified domain d).length)

/-- the arguments a function of `v` gets under the assignment `a` -/
def argsOf (g : Graph) (v : Node) (a : Assign) : PV := fun p => if p ∈ g.parents v then some (a p) else none

/-- the distribution a relationship stands for, given the values of the parents; a list of outcomes says nothing about them -/
def Rel.Says : Rel → PV → Dict Outcome (Option Rat) → Prop
  | .tab _, _, _ => False
  | .func f, pv, d => Returns f pv d
  | .dist d0, _, d => d = d0
  | .seq _, _, d => d = []

end Verif

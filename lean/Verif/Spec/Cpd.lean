import Verif.Model.Cpd

/-!
# What CPDs should be, independently of how they are built
-/

namespace Verif

/-- the user function returns the distribution `d` (a bare outcome is the point mass on it) -/
def Returns (f : Func) (pv : PV) (d : Dict Outcome (Option Rat)) : Prop :=
  f pv = .ok (.dist d) ∨ ∃ o, f pv = .ok (.val o) ∧ d = [(o, some 1)]

/-- the dictionaries a function returns have distinct keys (true of every Python dict) -/
def DictOk (f : Func) : Prop := ∀ pv d, f pv = .ok (.dist d) → d.keys.Nodup

/-- one value for each parent, taken from the parent's domain -/
def Instantiation (ps : List Node) (dom : Dict Node (List Outcome)) (vals : List Outcome) : Prop :=
  List.Forall₂ (fun p x => ∃ d, dom.get? p = some d ∧ x ∈ d) ps vals

/-- the probability a dictionary specifies for an outcome; a missing or `None` entry specifies nothing -/
def given (d : Dict Outcome (Option Rat)) (x : Outcome) : Option Rat := (d.get? x).join

/-- total mass a dictionary specifies -/
def givenMass (d : Dict Outcome (Option Rat)) : Rat := (d.map (fun p => p.2.getD 0)).sum

/-- outcomes of the domain for which the dictionary specifies nothing -/
def unspecified (domain : List Outcome) (d : Dict Outcome (Option Rat)) : List Outcome :=
  domain.filter (fun x => (given d x).isNone)

/-- the CPD plays the pure rule `φ` -/
def Plays (c : Cpd) (dom : Dict Node (List Outcome)) (φ : List Outcome → Outcome) : Prop :=
  ∀ vals, Instantiation c.evidence dom vals → ∀ x ∈ c.domain,
    c.prob dom vals x = some (if x = φ vals then 1 else 0)

end Verif

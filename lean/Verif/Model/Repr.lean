import Verif.Model.Cpd

/-!
# How relationships are printed (pycid/core/cpd.py: StochasticFunctionCPD.__repr__)

The text has one line `key  ->  value` for each entry of a dictionary from parent assignments to what is shown.  Only this dictionary is
modelled: keys are the values of the parents instead of `str(pv)`, and the sorting of the lines is left out.
-/

namespace Verif

/-- what is printed after the arrow -/
inductive Shown
  | outcome (o : Outcome)
  | dist (d : Dict Outcome (Option Rat))
  deriving DecidableEq, Repr

/-- the first outcome with probability 1, otherwise all probabilities (cpd.py:201-206) -/
def shown (d : Dict Outcome (Option Rat)) : Shown :=
  match d.find? (fun p => decide (p.2 = some 1)) with
  | some p => .outcome p.1
  | none => .dist d

/-- the loop (cpd.py:199-208), which ParentsNotReadyException ends -/
def reprLoop (f : Func) (ps : List Node) : Dict (List Outcome) Shown → List (List Outcome) → Py (Dict (List Outcome) Shown)
  | acc, [] => .ok acc
  | acc, vals :: rest =>
    match stochasticFunction f (pvOf ps vals) with
    | .error .parentsNotReady => .ok acc
    | .error e => .error e
    | .ok d => reprLoop f ps (acc.set vals (shown d)) rest

/-- `__repr__` (cpd.py:196-210); `ps` and `dom` are the parents and domains in the network at the time -/
def reprMap (f : Func) (ps : List Node) (dom : Dict Node (List Outcome)) : Py (Dict (List Outcome) Shown) :=
  match parentDoms ps dom with
  | .error .parentsNotReady => .ok []
  | .error e => .error e
  | .ok ds => reprLoop f ps [] (product ds)

end Verif

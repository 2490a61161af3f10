import Verif.Model.Net

/-!
# Calling a Python function with the parents' values as keyword arguments
-/

namespace Verif

/-- a Python function as `cpd.py` calls it: names of the parameters without and with a default value, whether it has a `**kwargs`
parameter, and what it does with the keyword arguments -/
structure PyFun where
  required : List Node
  optional : List Node
  kwargs : Bool
  body : Func

/-- `self.func(**pv)` (cpd.py:127): TypeError for a missing or an unexpected argument.  `names` are all the names that may be passed, the
nodes of the network. -/
def PyFun.call (f : PyFun) (names : List Node) : Func := fun pv =>
  if f.required.any (fun r => decide (pv r = none)) then .error .type
  else if !f.kwargs && names.any (fun n => decide (pv n ≠ none ∧ n ∉ f.required ++ f.optional)) then .error .type
  else f.body pv

end Verif

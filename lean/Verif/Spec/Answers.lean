import Verif.Spec.Prob

/-! Reading the answers of queries. -/

namespace Verif

namespace Net

/-- the number a factor lists for the values that `a` gives to its variables; `none` for NaN -/
def Factor.entry (f : Factor) (a : Assign) : Option Rat := (Dict.get? ((product f.states).zip f.values) (f.vars.map a)).join

end Net

/-- `a` with the listed variables set to the listed values -/
def Assign.setAll (a : Assign) (vs : List Node) (xs : List Outcome) : Assign := fun v => (Dict.get? (vs.zip xs) v).getD (a v)

end Verif

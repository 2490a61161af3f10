import Verif.Model.Optimal

/-!
# Imputing a conditional expectation (pycid/core/macid_base.py:402-414)
-/

namespace Verif
open Macid
namespace Net

/-- `cond_exp_policy(**pv)` (macid_base.py:407-412): the value of `y` if it is observed, else its expectation. `copy` changes with
every query. -/
def condExp (pick : Pick) (ord : List Node → List Node) (y : Node) (ps : List Node) (copy : Net) (vals : List Outcome) :
    Net × Py Outcome :=
  if y ∈ ps then (copy, .ok ((pvOf ps vals y).getD 0))
  else
    match copy.expectedValue pick ord [y] (ps.zip vals) [] with
    | (copy, .error e) => (copy, .error e)
    | (copy, .ok l) => (copy, match l.head? with | some x => .ok x | none => .error .index)

/-- The calls of `cond_exp_policy` made by `StochasticFunctionCPD.__init__`, one for every context in product order, up to the first
exception. The results are kept by `lru_cache(maxsize=1000)`. -/
def condTable (pick : Pick) (ord : List Node → List Node) (y : Node) (ps : List Node) :
    Net → List (List Outcome) → Net × List (List Outcome × Outcome)
  | copy, [] => (copy, [])
  | copy, vals :: rest =>
    match condExp pick ord y ps copy vals with
    | (copy, .error _) => (copy, [])
    | (copy, .ok x) =>
      match condTable pick ord y ps copy rest with
      | (copy, t) => (copy, (vals, x) :: t)

/-- `cond_exp_policy` as a function: the cached results; other contexts are evaluated on what is left of the copy. Simplification: what
these later calls remove from the copy is not tracked. -/
def condFunc (pick : Pick) (ord : List Node → List Node) (y : Node) (ps : List Node) (copy : Net) (t : List (List Outcome × Outcome)) :
    Func := fun pv =>
  let vals := ps.map (fun p => (pv p).getD 0)
  match Dict.get? t vals with
  | some x => .ok (.val x)
  | none =>
    match (condExp pick ord y ps copy vals).2 with
    | .error e => .error e
    | .ok x => .ok (.val x)

/-- `impute_conditional_expectation_decision` (macid_base.py:402-414) -/
def imputeCondExp (pick : Pick) (ord : List Node → List Node) (net : Net) (d y : Node) : Net × Py Unit :=
  match net.copy with
  | .error e => (net, .error e)
  | .ok copy =>
    let ps := net.g.parents d
    match parentDoms ps net.domain with
    | .error _ => net.set d (.func (condFunc pick ord y ps copy []))
    | .ok ds =>
      match condTable pick ord y ps copy (product ds) with
      | (copy, t) => net.set d (.func (condFunc pick ord y ps copy t))

end Net
end Verif

import Verif.Model.Net

/-!
# The state names of table objects (pycid/core/causal_bayesian_network.py:70-73)

A pgmpy `TabularCPD` carries names for the outcomes of its variable and of its evidence variables.
The user chooses them when constructing the object; an assignment replaces them.
-/

namespace Verif

/-- A pgmpy `TabularCPD` object together with its attribute `state_names`. -/
structure Table where
  cpd : Cpd
  names : Dict Node (List Outcome)

namespace Table

/-- The names of the outcomes of a variable. -/
def at_ (t : Table) (p : Node) : List Outcome := (t.names.get? p).getD []

/-- pgmpy `cpd.get_value(variable=x, evidence=vals)`: every name is translated to a position with
`state_names`, the positions select the entry. -/
def value (t : Table) (vals : List Outcome) (x : Outcome) : Option Rat :=
  (Dict.get? ((product (t.cpd.evidence.map t.at_)).zip t.cpd.table) vals).bind
    (fun col => Dict.get? ((t.at_ t.cpd.var).zip col) x)

/-- pgmpy `store_state_names(None, None, state_names)`: ValueError if the names of some variable
repeat, TypeError for an empty dictionary (`enumerate(None)`), else the names are replaced. -/
def storeStateNames (t : Table) (domain : Dict Node (List Outcome)) : Py Table :=
  if domain.isEmpty then .error .type
  else if domain.all (fun p => decide p.2.Nodup) = false then .error .value
  else .ok { t with names := domain }

/-- `sync_state_names` (causal_bayesian_network.py:70-73). -/
def sync (domain : Dict Node (List Outcome)) : List Table → Py (List Table)
  | [] => .ok []
  | t :: ts =>
    match t.storeStateNames domain with
    | .error e => .error e
    | .ok t' =>
      match sync domain ts with
      | .error e => .error e
      | .ok ts' => .ok (t' :: ts')

end Table
end Verif

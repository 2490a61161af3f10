import Verif.Model.Paths

/-!
# pgmpy 0.1.17 `DAG.active_trail_nodes` / `DAG.is_dconnected`

pycid calls these through `MACIDBase.active_trail_nodes` (pycid/core/macid_base.py:416-422) and
`is_dconnected` (used in macid_base.py:173, 253, requisite_graph.py, value_of_information.py,
random_macidbase.py).  pgmpy is a dependency that is not in /repo; the algorithm is modelled here
because every graphical criterion of pycid rests on it.
-/

namespace Verif

/-- Direction tag of the work list ("up": arrived from a child, "down": arrived from a parent). -/
inductive Dir | up | down
  deriving DecidableEq, Repr

abbrev BState := Node × Dir

/-- The pairs added to `visit_list` when `(node, direction)` is processed. -/
def ballNext (g : Graph) (Z anc : List Node) : BState → List BState
  | (v, .up) =>
    if v ∈ Z then []
    else (g.parents v).map (fun p => (p, Dir.up)) ++ (g.children v).map (fun c => (c, Dir.down))
  | (v, .down) =>
    (if v ∈ Z then [] else (g.children v).map (fun c => (c, Dir.down))) ++
    (if v ∈ anc then (g.parents v).map (fun p => (p, Dir.up)) else [])

/-- Loop state: `visit_list`, `traversed_list`, `active_nodes` (Python sets). -/
structure BallSt where
  visit : List BState
  trav : List BState
  active : List Node
  deriving DecidableEq, Repr

/-- What `set.pop()` returns: an arbitrary element, possibly depending on the history. -/
abbrev Pick := Nat → List BState → Nat

/-- One turn of `while visit_list:`; `x` is the popped element. -/
def ballStep (g : Graph) (Z anc : List Node) (x : BState) (st : BallSt) : BallSt :=
  let rest := st.visit.filter (fun y => decide (y ≠ x))
  if x ∈ st.trav then { st with visit := rest }
  else
    { visit := rest ++ ((ballNext g Z anc x).dedup).filter (fun y => decide (y ∉ rest)),
      trav := x :: st.trav,
      active := if x.1 ∈ Z then st.active else x.1 :: st.active }

/-- The loop.  The first argument is fuel. -/
def ballRun (pick : Pick) (g : Graph) (Z anc : List Node) : Nat → BallSt → BallSt
  | 0, st => st
  | k + 1, st =>
    match st.visit[pick k st.visit % st.visit.length]? with
    | none => st
    | some x => ballRun pick g Z anc k (ballStep g Z anc x st)

/-- Enough fuel for every schedule (theorem `ball_terminates`). -/
def ballFuel (g : Graph) : Nat := (2 * g.nodes.length) * (2 * g.nodes.length + 1) + 1

/-- `active_trail_nodes(start, observed)[start]`.  ValueError (from `_get_ancestors_of`) if an
observed node is unknown, NetworkXError if `start` is unknown. -/
def activeTrailNodes (pick : Pick) (g : Graph) (s : Node) (Z : List Node) : Py (List Node) :=
  match checkAll Z g.hasNode .value with
  | .error e => .error e
  | .ok _ =>
    if s ∉ g.nodes then .error .nx
    else .ok (ballRun pick g Z (g.ancestorsOf Z) (ballFuel g) ⟨[(s, .up)], [], []⟩).active

/-- `is_dconnected(start, end, observed)`. -/
def isDConnected (pick : Pick) (g : Graph) (s t : Node) (Z : List Node) : Py Bool :=
  match activeTrailNodes pick g s Z with
  | .error e => .error e
  | .ok act => .ok (decide (t ∈ act))

end Verif

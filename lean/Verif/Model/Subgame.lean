import Verif.Model.Analyze
import Verif.Model.Policy

/-!
# Subgames (pycid/core/macid.py:50-116)
-/

namespace Verif

/-- the loops that build `sg_agents_decs` and `sg_agents_utils` (macid.py:77-92): a list per owner, in order of appearance -/
def groupByAgent (owner : Dict Node Agent) : Dict Agent (List Node) → List Node → Py (Dict Agent (List Node))
  | acc, [] => .ok acc
  | acc, n :: ns =>
    match owner.get n with
    | .error e => .error e
    | .ok a => groupByAgent owner (acc.set a ((acc.get? a).getD [] ++ [n])) ns

/-- `r_nodes` (macid.py:68) -/
def relevantNodes (pick : Pick) (m : Macid) (active : List Node) : Py (List Node) :=
  filterM' (fun n => Macid.isRReachable pick m active [n]) m.g.nodes

/-- the skeleton `sg_macid` (macid.py:73-94); `setOrd` is the order in which a set is enumerated -/
def subgameSkeleton (setOrd : List Node → List Node) (m : Macid) (active relevant : List Node) : Py Macid :=
  match groupByAgent m.decisionAgent [] active with
  | .error e => .error e
  | .ok ad =>
    match groupByAgent m.utilityAgent [] (setOrd (relevant.filter (fun n => decide (n ∈ m.utilities)))) with
    | .error e => .error e
    | .ok au => Macid.init (m.g.edges.filter (fun e => decide (e.2 ∈ relevant ∨ e.2 ∈ active))) ad au

namespace Net

/-- one iteration of the loop that fixes the decisions that do not matter (macid.py:99-103) -/
def mixStep (pick : Pick) (active : List Node) (net : Net) (d : Node) : Net × Py Unit :=
  match Macid.isSReachable pick net.m active d with
  | .error e => (net, .error e)
  | .ok true => (net, .ok ())
  | .ok false =>
    match net.getCpd d with
    | .error e => (net, .error e)
    | .ok none => (net, .ok ())
    | .ok (some c) => if c.kind = .decision then net.imputeRandom d else (net, .ok ())

/-- `cpd.marginalize(parents)`, then `cpd.get_values()` flattened (macid.py:110-112): pgmpy adds up the columns and normalises.
Simplification: `evidence` lists no other variables than the parents (what pgmpy's `check_model` demands). -/
def _root_.Verif.Cpd.averaged (c : Cpd) : List Rat :=
  let sums := (List.range c.domain.length).map (fun i => (c.table.map (fun col => col.getD i 0)).sum)
  sums.map (fun s => s / sums.sum)

/-- the relationship given to a node whose parents are not in the subgame (macid.py:109-113).  pgmpy raises ValueError if a
parent is not in the scope of the CPD; a plain TabularCPD has no attribute `domain`. -/
def marginalRel (net : Net) (v : Node) : Py Rel :=
  match net.getCpd v with
  | .error e => .error e
  | .ok none => .error .attribute
  | .ok (some c) =>
    if (net.g.parents v).all (fun p => decide (p ∈ c.evidence)) = false then .error .value
    else if c.kind = .tabular then .error .attribute
    else .ok (.dist ((c.domain.zip c.averaged).map (fun p => (p.1, some p.2))))

/-- the relationship given to every other node (macid.py:116); `None` is rejected by pgmpy's `add_cpds` -/
def keptRel (net : Net) (v : Node) : Py Rel :=
  match net.getCpd v with
  | .error e => .error e
  | .ok none => .error .value
  | .ok (some c) => .ok (.tab c)

/-- `for node in nodes: sg_macid.model[node] = ...` -/
def fillLoop (rel : Node → Py Rel) : Net → List Node → Py Net
  | sg, [] => .ok sg
  | sg, v :: vs =>
    match rel v with
    | .error e => .error e
    | .ok r =>
      match sg.set v r with
      | (_, .error e) => .error e
      | (sg', .ok _) => fillLoop rel sg' vs

/-- `create_subgame` (macid.py:50-116).  `self` is not changed: all queries are about the graph, and the rest works on a copy. -/
def createSubgame (pick : Pick) (setOrd : List Node → List Node) (net : Net) (active : List Node) : Py Net :=
  match relevantNodes pick net.m active with
  | .error e => .error e
  | .ok relevant =>
    match subgameSkeleton setOrd net.m active relevant with
    | .error e => .error e
    | .ok skel =>
      match net.copy with
      | .error e => .error e
      | .ok copy =>
        match forNet (mixStep pick active) copy copy.m.decisions with
        | (_, .error e) => .error e
        | (copy', .ok _) =>
          match fillLoop copy'.marginalRel ⟨skel, [], [], [], Macid.new⟩
              (setOrd (skel.g.nodes.filter (fun v => decide (¬ (v ∈ relevant ∨ v ∈ active))))) with
          | .error e => .error e
          | .ok sg => fillLoop copy'.keptRel sg (setOrd (skel.g.nodes.filter (fun v => decide (v ∈ relevant ∨ v ∈ active))))

end Net
end Verif

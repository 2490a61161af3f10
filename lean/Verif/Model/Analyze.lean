import Verif.Model.Optimal
import Verif.Model.Paths

/-!
# Incentive analysis (pycid/analyze/requisite_graph.py, value_of_information.py, response_incentive.py,
instrumental_control_incentive.py, value_of_control.py)

`pick`, `tpick`, `sord` and `setOrd` are the iteration orders of Python sets and the choices of the topological sort, as in
the other models.
-/

namespace Verif
open Macid

/-- the order in which a Python set of nodes is listed -/
abbrev ListOrder := List Node → List Node

/-- `requisite` (requisite_graph.py:8-26): NetworkXError from `get_parents` for an unknown decision, KeyError if `x` is not a
parent or `d` is not a decision of a known agent. -/
def requisite (pick : Pick) (setOrd : ListOrder) (m : Macid) (d x : Node) : Py Bool :=
  if d ∉ m.g.nodes then .error .nx
  else if x ∉ m.g.parents d then .error .key
  else
    match m.decisionAgent.get d with
    | .error e => .error e
    | .ok agent =>
      match m.agentUtilities.get agent with
      | .error e => .error e
      | .ok utils =>
        anyM (fun u => isDConnected pick m.g x u ((d :: m.g.parents d).filter (fun i => decide (i ≠ x))))
          (setOrd (utils.filter (fun u => decide (u ∈ m.g.descendants d))).dedup)

/-- `requisite_list` (requisite_graph.py:29-31) -/
def requisiteList (pick : Pick) (setOrd : ListOrder) (m : Macid) (d : Node) : Py (List Node) :=
  if d ∉ m.g.nodes then .error .nx
  else filterM' (requisite pick setOrd m d) (m.g.parents d)

/-- the loop of `requisite_graph` (requisite_graph.py:46-49) over the reversed order -/
def requisiteLoop (pick : Pick) (setOrd : ListOrder) (cid : Macid) : Net → List Node → Py Net
  | rg, [] => .ok rg
  | rg, d :: ds =>
    match requisiteList pick setOrd rg.m d with
    | .error e => .error e
    | .ok req =>
      match Net.forNet (fun n nr => n.removeEdge nr d) rg
          (setOrd ((cid.g.parents d).dedup.filter (fun x => decide (x ∉ req)))) with
      | (_, .error e) => .error e
      | (rg, .ok _) => requisiteLoop pick setOrd cid rg ds

/-- `requisite_graph` (requisite_graph.py:34-50) -/
def requisiteGraph (pick : Pick) (tpick : List Node → Nat) (setOrd : ListOrder) (cid : Net) : Py Net :=
  match cid.copy with
  | .error e => .error e
  | .ok rg =>
    match cid.m.getValidOrder tpick none with
    | .error e => .error e
    | .ok decisions => requisiteLoop pick setOrd cid.m rg decisions.reverse

/-- `copy_without_cpds` as a network -/
def Net.copyWithoutCpds (net : Net) : Py Net :=
  match Macid.copyWithoutCpds net.base net.m with
  | .error e => .error e
  | .ok m => .ok ⟨m, [], [], [], net.base⟩

/-- the checks the functions begin with: one agent (ValueError), known nodes (KeyError) -/
def guards (cid : Net) (nodes : List Node) : Py Unit :=
  if 1 < cid.m.agents.length then .error .value
  else if nodes.all (fun n => decide (n ∈ cid.g.nodes)) then .ok () else .error .key

/-- `if not cid.sufficient_recall(): raise ValueError` -/
def recallGuard (pick : Pick) (tpick : List Node → Nat) (cid : Net) : Py Unit :=
  match cid.m.sufficientRecall pick tpick none with
  | .error e => .error e
  | .ok true => .ok ()
  | .ok false => .error .value

/-- `admits_voi` (value_of_information.py:9-34) -/
def admitsVoi (pick : Pick) (tpick : List Node → Nat) (setOrd : ListOrder) (cid : Net) (d x : Node) : Py Bool :=
  match guards cid [x, d] with
  | .error e => .error e
  | .ok _ =>
    match recallGuard pick tpick cid with
    | .error e => .error e
    | .ok _ =>
      if x ∈ cid.g.descendants d ∨ x = d then .ok false
      else
        match cid.copyWithoutCpds with
        | .error e => .error e
        | .ok cid2 =>
          match cid2.addEdge x d with
          | (_, .error e) => .error e
          | (cid2, .ok _) =>
            match requisiteGraph pick tpick setOrd cid2 with
            | .error e => .error e
            | .ok rg => .ok (decide (x ∈ rg.g.parents d))

/-- `admits_voi_list` (value_of_information.py:37-42): `nx.descendants` raises NetworkXError for an unknown node -/
def admitsVoiList (pick : Pick) (tpick : List Node → Nat) (setOrd : ListOrder) (cid : Net) (d : Node) : Py (List Node) :=
  if d ∉ cid.g.nodes then .error .nx
  else filterM' (admitsVoi pick tpick setOrd cid d)
    (setOrd (cid.g.nodes.filter (fun x => decide (x ∉ cid.g.descendants d ∧ x ≠ d))))

/-- `admits_ri` (response_incentive.py:8-35): is there a first element of `find_all_dir_paths` -/
def admitsRi (pick : Pick) (tpick : List Node → Nat) (setOrd : ListOrder) (cid : Net) (d x : Node) : Py Bool :=
  match guards cid [x, d] with
  | .error e => .error e
  | .ok _ =>
    match recallGuard pick tpick cid with
    | .error e => .error e
    | .ok _ =>
      if x = d then .ok false
      else
        match requisiteGraph pick tpick setOrd cid with
        | .error e => .error e
        | .ok rg =>
          match findAllDirPaths rg.g x d with
          | .error e => .error e
          | .ok ps => .ok (decide (ps ≠ []))

/-- `admits_ri_list` (response_incentive.py:38-42) -/
def admitsRiList (pick : Pick) (tpick : List Node → Nat) (setOrd : ListOrder) (cid : Net) (d : Node) : Py (List Node) :=
  filterM' (admitsRi pick tpick setOrd cid d) cid.g.nodes

/-- `admits_ici` (instrumental_control_incentive.py:7-29) -/
def admitsIci (cid : Net) (d x : Node) : Py Bool :=
  match guards cid [x, d] with
  | .error e => .error e
  | .ok _ =>
    match mapPy (fun u => findAllDirPaths cid.g d u) cid.m.utilities with
    | .error e => .error e
    | .ok pss => .ok (pss.flatten.any (fun p => decide (x ∈ p)))

/-- `admits_ici_list` (instrumental_control_incentive.py:32-36) -/
def admitsIciList (cid : Net) (d : Node) : Py (List Node) := filterM' (admitsIci cid d) cid.g.nodes

/-- `admits_voc` (value_of_control.py:10-36) -/
def admitsVoc (pick : Pick) (tpick : List Node → Nat) (setOrd : ListOrder) (cid : Net) (x : Node) : Py Bool :=
  match guards cid [x] with
  | .error e => .error e
  | .ok _ =>
    match recallGuard pick tpick cid with
    | .error e => .error e
    | .ok _ =>
      if x ∈ cid.m.decisions then .ok false
      else
        match requisiteGraph pick tpick setOrd cid with
        | .error e => .error e
        | .ok rg => .ok (cid.m.utilities.any (fun u => decide (x = u ∨ u ∈ rg.g.descendants x)))

/-- `admits_voc_list` (value_of_control.py:39-43) -/
def admitsVocList (pick : Pick) (tpick : List Node → Nat) (setOrd : ListOrder) (cid : Net) : Py (List Node) :=
  filterM' (admitsVoc pick tpick setOrd cid) cid.g.nodes

/-- body of the loop value_of_control.py:104-110 for one utility -/
def indirUtil (sord : SetOrder) (rg : Graph) (d x : Node) (con : List Node) (u : Node) : Py Bool :=
  if u ≠ x ∧ u ∉ rg.descendants x then .ok false
  else
    match isActiveBackdoorTrail sord rg x u con with
    | .error e => .error e
    | .ok false => .ok false
    | .ok true =>
      match findAllDirPaths rg x u with
      | .error e => .error e
      | .ok ps => .ok (ps.any (fun p => decide (d ∈ p)))

/-- `admits_indir_voc` (value_of_control.py:73-112) -/
def admitsIndirVoc (pick : Pick) (tpick : List Node → Nat) (sord : SetOrder) (setOrd : ListOrder) (cid : Net) (d x : Node) :
    Py Bool :=
  match guards cid [x, d] with
  | .error e => .error e
  | .ok _ =>
    match recallGuard pick tpick cid with
    | .error e => .error e
    | .ok _ =>
      match requisiteGraph pick tpick setOrd cid with
      | .error e => .error e
      | .ok rg =>
        let con := setOrd ((d :: cid.g.parents d).filter (fun i => decide (i ≠ x))).dedup
        match admitsVoc pick tpick setOrd cid x with
        | .error e => .error e
        | .ok false => .ok false
        | .ok true => anyM (indirUtil sord rg.g d x con) cid.m.utilities

/-- `admits_indir_voc_list` (value_of_control.py:115-119) -/
def admitsIndirVocList (pick : Pick) (tpick : List Node → Nat) (sord : SetOrder) (setOrd : ListOrder) (cid : Net) (d : Node) :
    Py (List Node) := filterM' (admitsIndirVoc pick tpick sord setOrd cid d) cid.g.nodes

/-- body of the loop value_of_control.py:147-152 for one utility -/
def dirUtil (rg : Graph) (decisions : List Node) (x u : Node) : Py Bool :=
  if u ≠ x ∧ u ∉ rg.descendants x then .ok false
  else
    match findAllDirPaths rg x u with
    | .error e => .error e
    | .ok ps => .ok (ps.any (fun p => p.all (fun v => decide (v ∉ decisions))))

/-- `admits_dir_voc` (value_of_control.py:122-155) -/
def admitsDirVoc (pick : Pick) (tpick : List Node → Nat) (setOrd : ListOrder) (cid : Net) (x : Node) : Py Bool :=
  match guards cid [x] with
  | .error e => .error e
  | .ok _ =>
    match requisiteGraph pick tpick setOrd cid with
    | .error e => .error e
    | .ok rg =>
      match admitsVoc pick tpick setOrd cid x with
      | .error e => .error e
      | .ok false => .ok false
      | .ok true => anyM (dirUtil rg.g cid.m.decisions x) cid.m.utilities

/-- `admits_dir_voc_list` (value_of_control.py:158-162) -/
def admitsDirVocList (pick : Pick) (tpick : List Node → Nat) (setOrd : ListOrder) (cid : Net) : Py (List Node) :=
  filterM' (admitsDirVoc pick tpick setOrd cid) cid.g.nodes

/-- impute an optimal policy and compute the expected utility of agent 0 (value_of_information.py:66-67, 70-71;
value_of_control.py:63-64, 68-69) -/
def optimalEU (pick : Pick) (tpick : List Node → Nat) (ord setOrd : ListOrder) (rnd : Nat) (net : Net) : Net × Py Rat :=
  match net.imputeOptimalPolicy pick tpick ord setOrd rnd with
  | (n, .error e) => (n, .error e)
  | (n, .ok _) => n.expectedUtility pick ord [] [] 0

/-- `quantitative_voi` (value_of_information.py:45-72): `nx.descendants` raises NetworkXError for an unknown decision.
Exact numbers instead of floats. -/
def quantitativeVoi (pick : Pick) (tpick : List Node → Nat) (ord setOrd : ListOrder) (rnd1 rnd2 : Nat) (cid : Net) (d x : Node) :
    Py Rat :=
  if x ∉ cid.g.nodes then .error .key
  else if d ∉ cid.g.nodes then .error .nx
  else if x = d ∨ x ∈ cid.g.descendants d then .error .value
  else
    match cid.copy with
    | .error e => .error e
    | .ok new =>
      match new.addEdge x d with
      | (_, .error e) => .error e
      | (new, .ok _) =>
        match optimalEU pick tpick ord setOrd rnd1 new with
        | (_, .error e) => .error e
        | (new, .ok ev1) =>
          match new.removeRules with
          | (_, .error e) => .error e
          | (new, .ok _) =>
            match new.removeEdge x d with
            | (_, .error e) => .error e
            | (new, .ok _) =>
              match optimalEU pick tpick ord setOrd rnd2 new with
              | (_, .error e) => .error e
              | (_, .ok ev2) => .ok (ev1 - ev2)

/-- `quantitative_voc` (value_of_control.py:46-70).  It works on the argument itself: the state afterwards is returned too. -/
def quantitativeVoc (pick : Pick) (tpick : List Node → Nat) (ord setOrd : ListOrder) (rnd1 rnd2 : Nat) (cid : Net) (x : Node) :
    Net × Py Rat :=
  if x ∉ cid.g.nodes then (cid, .error .key)
  else
    match optimalEU pick tpick ord setOrd rnd1 cid with
    | (n, .error e) => (n, .error e)
    | (n, .ok ev1) =>
      match n.m.makeDecision x 0 with
      | (m, .error e) => ({ n with m := m }, .error e)
      | (m, .ok _) =>
        match optimalEU pick tpick ord setOrd rnd2 { n with m := m } with
        | (n, .error e) => (n, .error e)
        | (n, .ok ev2) => (n, .ok (ev2 - ev1))

end Verif

import Verif.Model.Subgame
import Verif.Model.Optimal

/-!
# Extensive form games (pycid/export/gambit.py) and equilibria (pycid/core/macid.py)

pygambit is a compiled library.  Its trees are modelled as far as they are used here: a position is the list of
the branches taken from the root (`node_idx[1:]` in the code), a move belongs to an information set or to chance.
The solvers are arbitrary functions of the game.
-/

namespace Verif

/-- a pygambit information set: its player, its label, the labels of its actions (the outcome itself instead of its
`str`) -/
structure Infoset where
  player : Agent
  label : Node
  actions : List Outcome
  deriving DecidableEq, Repr

/-- a move at a position of the tree -/
inductive Move
  | decision (infoset : Nat)
  | chance (actions : List Outcome) (probs : List Rat)
  deriving DecidableEq, Repr

/-- what the code calls `parents_actions_tuple` (gambit.py:79): agent and parents' values -/
abbrev InfoKey := Agent × List (Node × Outcome)

/-- the game, `parents_to_infoset` and `node_idx_to_state` (gambit.py:52-61).  Infosets are numbered in order of creation. -/
structure Efg where
  players : List Agent
  infosets : List Infoset
  moves : Dict (List Nat) Move
  payoffs : Dict (List Nat) (List Rat)
  keys : Dict InfoKey Nat
  states : Dict (List Nat) (Dict Node Outcome)
  deriving DecidableEq, Repr

namespace Efg

/-- number of children of a position -/
def arity (t : Efg) (idx : List Nat) : Nat :=
  match t.moves.get? idx with
  | none => 0
  | some (.decision i) => ((t.infosets[i]?).map (fun s => s.actions.length)).getD 0
  | some (.chance as _) => as.length

/-- `_get_cur_node` (gambit.py:258-267): walk down from the root; IndexError if there is no such child -/
def walk (t : Efg) : List Nat → List Nat → Py Unit
  | _, [] => .ok ()
  | pos, i :: rest => if i < t.arity pos then walk t (pos ++ [i]) rest else .error .index

/-- `append_move` on a position that already has one raises pygambit's UndefinedOperationError, a ValueError -/
def appendMove (t : Efg) (idx : List Nat) (mv : Move) : Py Efg :=
  match t.moves.get? idx with
  | some _ => .error .value
  | none => .ok { t with moves := t.moves.set idx mv }

/-- `state_info = node_idx_to_state[node_idx].copy(); state_info.update({node: action});
node_idx_to_state[node_idx + (action_idx,)] = state_info` for all actions (gambit.py:92-96 and 104-108) -/
def addStates (node : Node) (idx : List Nat) : Efg → Nat → List Outcome → Efg
  | t, _, [] => t
  | t, i, x :: xs =>
    addStates node idx { t with states := t.states.set (idx ++ [i]) (((t.states.get? idx).getD []).set node x) } (i + 1) xs

/-- a decision at a position (gambit.py:76-96).  `cur_infoset.actions[action_idx].label = ...` raises IndexError if the
information set has fewer actions. -/
def decideAt (t : Efg) (agent : Agent) (node : Node) (idx : List Nat) (pa : List (Node × Outcome)) (actions : List Outcome) : Py Efg :=
  match t.keys.get? (agent, pa) with
  | some i =>
    match t.appendMove idx (.decision i) with
    | .error e => .error e
    | .ok t =>
      match t.infosets[i]? with
      | none => .error .index
      | some s =>
        if s.actions.length < actions.length then .error .index
        else .ok (addStates node idx { t with infosets := t.infosets.set i { s with actions := actions ++ s.actions.drop actions.length } } 0 actions)
  | none =>
    let i := t.infosets.length
    match t.appendMove idx (.decision i) with
    | .error e => .error e
    | .ok t =>
      .ok (addStates node idx { t with infosets := t.infosets ++ [⟨agent, node, actions⟩], keys := t.keys.set (agent, pa) i } 0 actions)

end Efg

namespace Net

/-- `{parent: node_idx_to_state[node_idx][parent] for parent in parents}` (gambit.py:71) -/
def parentsActions (net : Net) (t : Efg) (idx : List Nat) (node : Node) : Py (List (Node × Outcome)) :=
  if node ∉ net.g.nodes then .error .nx
  else mapPy (fun p =>
    match (((t.states.get? idx).getD []).get p) with
    | .error e => .error e
    | .ok x => .ok (p, x)) (net.g.parents node)

/-- one position (gambit.py:68-108).  The query may modify the network (C37).  A probability that is not a number is
rejected by pygambit. -/
def growAt (pick : Pick) (ord : List Node → List Node) (decs : List Node) (node : Node) (net : Net) (t : Efg) (idx : List Nat) :
    Net × Py Efg :=
  match t.walk [] idx with
  | .error e => (net, .error e)
  | .ok _ =>
    match net.parentsActions t idx node with
    | .error e => (net, .error e)
    | .ok pa =>
      if node ∈ decs then
        match net.m.decisionAgent.get node with
        | .error e => (net, .error e)
        | .ok agent =>
          if agent ∉ t.players then (net, .error .key)
          else
            match net.domain.get node with
            | .error e => (net, .error e)
            | .ok actions => (net, t.decideAt agent node idx pa actions)
      else
        match net.query pick ord [node] pa [] with
        | (net', .error e) => (net', .error e)
        | (net', .ok f) =>
          if f.values.any Option.isNone then (net', .error .value)
          else
            match net'.domain.get node with
            | .error e => (net', .error e)
            | .ok actions =>
              match t.appendMove idx (.chance actions (f.values.map (fun y => y.getD 0))) with
              | .error e => (net', .error e)
              | .ok t => (net', .ok (Efg.addStates node idx t 0 actions))

/-- a loop that changes the network and a further state -/
def loopNet {α β : Type} (f : Net → β → α → Net × Py β) : Net → β → List α → Net × Py β
  | net, t, [] => (net, .ok t)
  | net, t, x :: xs =>
    match f net t x with
    | (net', .error e) => (net', .error e)
    | (net', .ok t') => loopNet f net' t' xs

/-- the loop over the nodes (gambit.py:65-108); `done` are the ranges of the preceding nodes -/
def growNodes (pick : Pick) (ord : List Node → List Node) (decs : List Node) :
    Net → Efg → List (List Nat) → List (Node × Nat) → Net × Py Efg
  | net, t, _, [] => (net, .ok t)
  | net, t, done, (v, n) :: rest =>
    match loopNet (growAt pick ord decs v) net t (product done) with
    | (net', .error e) => (net', .error e)
    | (net', .ok t') => growNodes pick ord decs net' t' (done ++ [List.range n]) rest

/-- the payoffs of one leaf (gambit.py:245-253) -/
def leafPayoffs (pick : Pick) (ord : List Node → List Node) (ctx : List (Node × Outcome)) : Net → List Agent → Net × Py (List Rat)
  | net, [] => (net, .ok [])
  | net, a :: as =>
    match net.expectedUtility pick ord ctx [] a with
    | (net', .error e) => (net', .error e)
    | (net', .ok r) =>
      match leafPayoffs pick ord ctx net' as with
      | (net2, .error e) => (net2, .error e)
      | (net2, .ok rs) => (net2, .ok (r :: rs))

/-- one leaf of `_add_payoffs` (gambit.py:245-253) -/
def addPayoff (pick : Pick) (ord : List Node → List Node) (agents : List Agent) (net : Net) (t : Efg) (idx : List Nat) : Net × Py Efg :=
  match t.walk [] idx with
  | .error e => (net, .error e)
  | .ok _ =>
    match leafPayoffs pick ord ((t.states.get? idx).getD []) net agents with
    | (net', .error e) => (net', .error e)
    | (net', .ok rs) => (net', .ok { t with payoffs := t.payoffs.set idx rs })

/-- `macid_to_efg` (gambit.py:17-112) with both optional arguments given; `tpick` is the choice networkx makes among sources.
`_add_players` (gambit.py:227-234) makes one player per agent, in the given order; players are identified with agents. -/
def macidToEfg (pick : Pick) (tpick : List Node → Nat) (ord : List Node → List Node) (net : Net) (decs : List Node) (agents : List Agent) :
    Net × Py Efg :=
  if decs.all net.g.hasNode = false then (net, .error .nx)
  else
    match Macid.getValidOrder tpick net.m (some (decs ++ decs.flatMap net.g.parents)) with
    | .error e => (net, .error e)
    | .ok nodes =>
      match mapPy (fun v => net.domain.get v) nodes with
      | .error e => (net, .error e)
      | .ok doms =>
        let ns := nodes.zip (doms.map List.length)
        match growNodes pick ord decs net ⟨agents, [], [], [], [], []⟩ [] ns with
        | (net', .error e) => (net', .error e)
        | (net', .ok t) => loopNet (addPayoff pick ord agents) net' t (product (doms.map (fun d => List.range d.length)))

end Net

/-- the solvers of `pygambit.nash` -/
inductive Solver
  | enummixed | enumpure | lcp | lp | simpdiv | ipa | gnm
  deriving DecidableEq, Repr

/-- the names by which they are called (gambit.py:151-169) -/
def Solver.ofName : String → Option Solver
  | "enummixed" => some .enummixed
  | "enumpure" => some .enumpure
  | "lcp" => some .lcp
  | "lp" => some .lp
  | "simpdiv" => some .simpdiv
  | "ipa" => some .ipa
  | "gnm" => some .gnm
  | _ => none

/-- which solver is tried first (gambit.py:141-149) -/
def chooseSolver (twoPlayer : Bool) : Option String → String
  | none => if twoPlayer then "enummixed" else "enumpure"
  | some s => if s ∈ ["enummixed", "lcp", "lp"] ∧ twoPlayer = false then "enumpure" else s

/-- `pygambit_ne_solver` (gambit.py:128-173).  `run` is what the solvers return, `asBehavior` the conversion of the library, which
is skipped for two of the solvers. -/
def neSolver {σ : Type} (run : Solver → Py (List σ)) (asBehavior : σ → σ) (players : Nat) (override : Option String) : Py (List σ) :=
  let solver := chooseSolver (decide (players = 2)) override
  match Solver.ofName solver with
  | none => .error .value
  | some s =>
    match run s with
    | .error e => .error e
    | .ok found =>
      let res : Py (List σ) := if s = .enumpure ∧ found.length = 0 ∧ override = none then run .simpdiv else .ok found
      match res with
      | .error e => .error e
      | .ok l => .ok (l.map (fun x => if s = .lp ∨ s = .lcp then x else asBehavior x))

/-- a behaviour strategy profile: the probabilities of the actions of every information set -/
abbrev Behavior := Nat → List Rat

namespace Net

/-- `_action_prob_given_parents` (gambit.py:193-206): the probabilities of the information set with this key; an unknown key
gives the empty dictionary -/
def behaviorFunc (agent : Agent) (parents : List Node) (keys : Dict InfoKey Nat) (dom : List Outcome) (b : Behavior) : Func := fun pv =>
  match keys.get? (agent, parents.map (fun p => (p, (pv p).getD 0))) with
  | none => .ok (.dist [])
  | some i => if dom.length < (b i).length then .error .index else .ok (.dist ((dom.zip (b i)).map (fun p => (p.1, some p.2))))

/-- one CPD of `behavior_to_cpd` (gambit.py:215-223) -/
def behaviorCpd (net : Net) (keys : Dict InfoKey Nat) (b : Behavior) (d : Node) : Py Cpd :=
  match net.domain.get d with
  | .error e => .error e
  | .ok dom =>
    if d ∉ net.g.nodes then .error .nx
    else
      match net.m.decisionAgent.get d with
      | .error e => .error e
      | .ok agent => mkCpd .stochastic d (behaviorFunc agent (net.g.parents d) keys dom b) (some dom) (net.g.parents d) net.domain net.card

/-- `behavior_to_cpd` (gambit.py:176-224) -/
def behaviorToCpd (net : Net) (keys : Dict InfoKey Nat) (b : Behavior) (decs : List Node) : Py (List Cpd) :=
  mapPy (net.behaviorCpd keys b) decs

/-- `get_ne_in_sg` (macid.py:118-152).  `decs` and `agents` list the decisions and their owners in the order in which the sets
are enumerated; `run` is the external solver. -/
def getNeInSg (pick : Pick) (tpick : List Node → Nat) (ord setOrd : List Node → List Node) (agentOrd : List Agent → List Agent)
    (run : Efg → Solver → Py (List Behavior)) (asBehavior : Behavior → Behavior) (override : Option String) (net : Net) (decs : List Node) :
    Py (List (List Cpd)) :=
  match mapPy (fun d => net.m.decisionAgent.get d) decs with
  | .error e => .error e
  | .ok owners =>
    let agents := agentOrd owners.dedup
    match net.createSubgame pick setOrd decs with
    | .error e => .error e
    | .ok sg =>
      match sg.macidToEfg pick tpick ord decs agents with
      | (_, .error e) => .error e
      | (sg', .ok t) =>
        match neSolver (run t) asBehavior t.players.length override with
        | .error e => .error e
        | .ok bs => mapPy (fun b => sg'.behaviorToCpd t.keys b decs) bs

/-- `get_ne` (macid.py:21-48): `get_ne_in_sg` with `decisions_in_sg=None`, that is all decisions -/
def getNe (pick : Pick) (tpick : List Node → Nat) (ord setOrd : List Node → List Node) (agentOrd : List Agent → List Agent)
    (run : Efg → Solver → Py (List Behavior)) (asBehavior : Behavior → Behavior) (override : Option String) (net : Net) : Py (List (List Cpd)) :=
  getNeInSg pick tpick ord setOrd agentOrd run asBehavior override net net.m.decisions

/-- `for partial_profile in spes` (macid.py:168-172); the network keeps the CPDs added last -/
def speStep (ne : Net → List Node → Py (List (List Cpd))) (scc : List Node) : Net → List (List Cpd) → Py (Net × List (List Cpd))
  | net, [] => .ok (net, [])
  | net, p :: ps =>
    match net.addPolicy p with
    | (_, .error e) => .error e
    | (net', .ok _) =>
      match ne net' scc with
      | .error e => .error e
      | .ok found =>
        match speStep ne scc net' ps with
        | .error e => .error e
        | .ok (net2, rest) => .ok (net2, found.map (fun q => p ++ q) ++ rest)

/-- `for scc in reversed(...)` (macid.py:166-173) -/
def speLoop (ne : Net → List Node → Py (List (List Cpd))) : Net → List (List Cpd) → List (List Node) → Py (List (List Cpd))
  | _, spes, [] => .ok spes
  | net, spes, scc :: sccs =>
    match speStep ne scc net spes with
    | .error e => .error e
    | .ok (net', spes') => speLoop ne net' spes' sccs

/-- `get_spe` (macid.py:154-174).  `sccs` enumerates the strongly connected components of the relevance graph; `ne` is
`get_ne_in_sg`. -/
def getSpe (pick : Pick) (stpick : List Nat → Nat) (enumScc : Graph → List (List Node)) (ne : Net → List Node → Py (List (List Cpd)))
    (net : Net) : Py (List (List Cpd)) :=
  match net.copy with
  | .error e => .error e
  | .ok macid =>
    match Macid.relevanceGraph pick macid.m macid.m.decisions with
    | .error e => .error e
    | .ok rg =>
      match Macid.sccTopologicalOrdering stpick rg (enumScc rg) with
      | .error e => .error e
      | .ok order => speLoop ne macid [[]] order.reverse

/-- `joint_pure_policies` (macid.py:199-203) -/
def jointPurePolicies (net : Net) (decs : List Node) : Py (List (List Cpd)) := purePolicies net.pureRules decs

/-- `policy_profile_assignment` (macid.py:205-210) -/
def policyProfileAssignment (m : Macid) (partialPolicy : List Cpd) : Dict Node (Option Cpd) :=
  partialPolicy.foldl (fun d c => d.set c.var (some c)) (m.decisions.map (fun d => (d, none)))

end Net
end Verif

import Verif.Model.Subgame
import Verif.Model.Efg

/-!
# Arguments declared as `Iterable`

Python's `Iterable` covers lists, tuples and sets, which can be read as often as one likes, and generators, `map` and `filter`
objects, which can be read once.  These are the functions of pycid that read such an argument more than once, with the reads
made explicit.
-/

namespace Verif

/-- an iterable: a collection, or an iterator that still holds the given elements -/
inductive Iter (α : Type) where
  | list (l : List α)
  | once (l : List α)

namespace Iter
variable {α : Type}

/-- what a complete loop over it yields now -/
def elems : Iter α → List α
  | .list l => l
  | .once l => l

/-- after a complete loop over it -/
def spent : Iter α → Iter α
  | .list l => .list l
  | .once _ => .once []

/-- `for x in xs: if f(x): return True` over an iterator, with what is left in it -/
def anyRest (f : α → Py Bool) : List α → Py Bool × List α
  | [] => (.ok false, [])
  | x :: xs =>
    match f x with
    | .error e => (.error e, xs)
    | .ok true => (.ok true, xs)
    | .ok false => anyRest f xs

/-- `for x in xs: if f(x): return True` -/
def any (f : α → Py Bool) : Iter α → Py Bool × Iter α
  | .list l => (anyM f l, .list l)
  | .once l => ((anyRest f l).1, .once (anyRest f l).2)

end Iter

/-- `CausalBayesianNetwork(edges)` (causal_bayesian_network.py:90-95): a loop that looks at every edge, then pgmpy's constructor
(`add_edges_from(ebunch)`). -/
def Graph.ofIter (edges : Iter (Node × Node)) : Py Graph := Graph.ofEdges edges.spent.elems

/-- `MACIDBase(edges, agent_decisions, agent_utilities)` (macid_base.py:68-93) -/
def Macid.initIter (edges : Iter (Node × Node)) (ad au : Dict Agent (List Node)) : Py Macid := Macid.init edges.spent.elems ad au

namespace Macid

/-- the double loop of `is_r_reachable` (macid_base.py:248-254) where the decisions are given by a list: the nodes are read once
per decision -/
def pairsIter (pick : Pick) (m : Macid) (mg : Graph) : List Node → Iter Node → Py Bool
  | [], _ => .ok false
  | d :: ds, ns =>
    match ns.any (fun n => rReachPair pick m mg d n) with
    | (.error e, _) => .error e
    | (.ok true, _) => .ok true
    | (.ok false, ns') => pairsIter pick m mg ds ns'

/-- `is_r_reachable(decisions, nodes)` (macid_base.py:235-255) with a list of decisions and any iterable of nodes -/
def isRReachableNodes (pick : Pick) (m : Macid) (ds : List Node) (ns : Iter Node) : Py Bool :=
  match mechGraph m.g with
  | .error e => .error e
  | .ok mg => pairsIter pick m mg ds ns

/-- `is_r_reachable(decisions, node)` (macid_base.py:235-255) with any iterable of decisions and a single node, and what is left
of the iterable -/
def isRReachableDecs (pick : Pick) (m : Macid) (ds : Iter Node) (n : Node) : Py Bool × Iter Node :=
  match mechGraph m.g with
  | .error e => (.error e, ds)
  | .ok mg => ds.any (fun d => rReachPair pick m mg d n)

/-- `RelevanceGraph(cid, decisions)` (relevance_graph.py:24-34): the nodes are read for `add_nodes_from`, then for `permutations` -/
def relevanceGraphIter (pick : Pick) (m : Macid) (ds : Iter Node) : Py Graph :=
  relevanceLoop pick m (Graph.empty.addNodes ds.elems) (perms2 ds.spent.elems)

end Macid

/-- `[node for node in self.nodes if self.is_r_reachable(active_subgame_decs, node)]` (macid.py:68) -/
def relevantIter (pick : Pick) (m : Macid) : List Node → Iter Node → Py (List Node) × Iter Node
  | [], active => (.ok [], active)
  | v :: vs, active =>
    match Macid.isRReachableDecs pick m active v with
    | (.error e, rest) => (.error e, rest)
    | (.ok b, rest) =>
      match relevantIter pick m vs rest with
      | (.error e, rest') => (.error e, rest')
      | (.ok ns, rest') => (.ok (if b then v :: ns else ns), rest')

namespace Net

/-- The rest of `create_subgame` (macid.py:70-116).  `decs` is `set(active_subgame_decs)` (line 70), `rest` is what reading
`active_subgame_decs` yields afterwards (lines 77 and 99). -/
def subgameFrom (pick : Pick) (setOrd : List Node → List Node) (net : Net) (relevant decs rest : List Node) : Py Net :=
  match groupByAgent net.m.decisionAgent [] rest with
  | .error e => .error e
  | .ok ad =>
    match groupByAgent net.m.utilityAgent [] (setOrd (relevant.filter (fun n => decide (n ∈ net.m.utilities)))) with
    | .error e => .error e
    | .ok au =>
      match Macid.init (net.m.g.edges.filter (fun e => decide (e.2 ∈ relevant ∨ e.2 ∈ decs))) ad au with
      | .error e => .error e
      | .ok skel =>
        match net.copy with
        | .error e => .error e
        | .ok copy =>
          match forNet (mixStep pick rest) copy copy.m.decisions with
          | (_, .error e) => .error e
          | (copy', .ok _) =>
            match fillLoop copy'.marginalRel ⟨skel, [], [], [], Macid.new⟩
                (setOrd (skel.g.nodes.filter (fun v => decide (¬ (v ∈ relevant ∨ v ∈ decs))))) with
            | .error e => .error e
            | .ok sg => fillLoop copy'.keptRel sg (setOrd (skel.g.nodes.filter (fun v => decide (v ∈ relevant ∨ v ∈ decs))))

/-- `create_subgame(active_subgame_decs)` (macid.py:50-116) -/
def createSubgameIter (pick : Pick) (setOrd : List Node → List Node) (net : Net) (active : Iter Node) : Py Net :=
  match relevantIter pick net.m net.m.g.nodes active with
  | (.error e, _) => .error e
  | (.ok relevant, left) => subgameFrom pick setOrd net relevant left.elems left.spent.elems

/-- the policy check (macid_base.py:172-182): the queried nodes are read once per decision -/
def policiesIter (check : Node → Node → Py Unit) : List Node → Iter Node → Py (Iter Node)
  | [], q => .ok q
  | d :: ds, q =>
    match forPy (check d) q.elems with
    | .error e => .error e
    | .ok _ => policiesIter check ds q.spent

/-- `MACIDBase.query(query, context, intervention)` (macid_base.py:144-184).  Simplification: the reads of `super().query` after
the first are taken to yield the same as the first; this matters only for networks without decisions. -/
def queryIter (pick : Pick) (ord : List Node → List Node) (net : Net) (q : Iter Node) (ctx int : List (Node × Outcome)) :
    Net × Py Factor :=
  match net.checkContext ctx with
  | .error e => (net, .error e)
  | .ok _ =>
    match Macid.mechGraph net.g with
    | .error e => (net, .error e)
    | .ok mg =>
      match net.cutMech mg (int.map (·.1)) with
      | .error e => (net, .error e)
      | .ok mg =>
        match policiesIter (policyCheck pick net mg (ctx.map (·.1) ++ int.map (·.1))) net.m.decisions q with
        | .error e => (net, .error e)
        | .ok q' => net.queryCbn ord q'.elems ctx int

/-- `macid_to_efg` (gambit.py:17-112): the agents are read by `_add_players` (line 227) and for every leaf by `_add_payoffs`
(line 237) -/
def macidToEfgIter (pick : Pick) (tpick : List Node → Nat) (ord : List Node → List Node) (net : Net) (decs : List Node)
    (agents : Iter Agent) : Net × Py Efg :=
  if decs.all net.g.hasNode = false then (net, .error .nx)
  else
    match Macid.getValidOrder tpick net.m (some (decs ++ decs.flatMap net.g.parents)) with
    | .error e => (net, .error e)
    | .ok nodes =>
      match mapPy (fun v => net.domain.get v) nodes with
      | .error e => (net, .error e)
      | .ok doms =>
        let ns := nodes.zip (doms.map List.length)
        match growNodes pick ord decs net ⟨agents.elems, [], [], [], [], []⟩ [] ns with
        | (net', .error e) => (net', .error e)
        | (net', .ok t) => loopNet (addPayoff pick ord agents.spent.elems) net' t (product (doms.map (fun d => List.range d.length)))

end Net
end Verif

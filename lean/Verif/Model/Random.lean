import Verif.Model.Macid
import Mathlib.Data.Rat.Floor
import Mathlib.Algebra.Order.Floor.Ring

/-!
# Random graphs (pycid/random)

The random generators are modelled by a tape of draws.  A program that has used up its tape is still running; theorems
quantify over all tapes, so they hold for every sequence of random choices.
-/

namespace Verif

/-- the numbers the generators will return, each of them to be reduced to the range asked for -/
abbrev Draws := List Nat

/-- what a program does with a tape: `none` if it needs more draws, otherwise the result, or the exception, with the
draws left over -/
abbrev Run (α : Type) := Option (Py (α × Draws))

/-- `random.choice` for one draw: IndexError for an empty list -/
def choice {α : Type} (l : List α) (r : Nat) : Py α :=
  match l[r % l.length]? with
  | some x => .ok x
  | none => .error .index

/-- `random.sample(l, k)`: elements at `k` different positions, in any order; ValueError if there are not so many.
`np.random.shuffle(l)` is the case `k = len(l)`. -/
def sample {α : Type} : Nat → List α → Draws → Run (List α)
  | 0, _, ω => some (.ok ([], ω))
  | k + 1, l, ω =>
    if l.length < k + 1 then some (.error .value)
    else
      match ω with
      | [] => none
      | r :: ω =>
        match choice l r with
        | .error e => some (.error e)
        | .ok x =>
          match sample k (l.eraseIdx (r % l.length)) ω with
          | none => none
          | some (.error e) => some (.error e)
          | some (.ok (xs, ω)) => some (.ok (x :: xs, ω))

namespace Random

/-! ### random_dag.py -/

/-- `f"X{i}"` (random_dag.py:23) -/
def nodeName (i : Nat) : Node := "X" ++ toString i

/-- `node_names` (random_dag.py:23) -/
def nodeNames (n : Nat) : List Node := (List.range n).map nodeName

/-- `dag.in_degree(v)` -/
def inDegree (g : Graph) (v : Node) : Nat := (g.parents v).length

/-- `add_random_edge` (random_dag.py:7-17) for the two nodes sampled; `DAG.add_edge` does not look for cycles -/
def addRandomEdge (order : List Node) (maxIn : Int) (g : Graph) (n1 n2 : Node) : Graph :=
  if order.idxOf n1 < order.idxOf n2 ∧ (inDegree g n2 : Int) < maxIn then g.nxAddEdge n1 n2
  else if order.idxOf n2 < order.idxOf n1 ∧ (inDegree g n1 : Int) < maxIn then g.nxAddEdge n2 n1
  else g

/-- the body of the first loop (random_dag.py:35-44): `none` stands for `continue` -/
def connectStep (order : List Node) (maxIn : Int) (g : Graph) (node neighbor : Node) : Option Graph :=
  if order.idxOf node < order.idxOf neighbor ∧ (inDegree g neighbor : Int) < maxIn then some (g.nxAddEdge node neighbor)
  else if order.idxOf neighbor < order.idxOf node then some (g.nxAddEdge neighbor node)
  else none

/-- the first loop (random_dag.py:34-44) -/
def connect (order : List Node) (maxIn : Int) : Draws → Graph → List Node → List Node → Run Graph
  | ω, g, _, [] => some (.ok (g, ω))
  | r :: s :: ω, g, visited, unvisited =>
    match choice unvisited r, choice visited s with
    | .error e, _ => some (.error e)
    | .ok _, .error e => some (.error e)
    | .ok node, .ok neighbor =>
      match connectStep order maxIn g node neighbor with
      | none => connect order maxIn ω g visited unvisited
      | some g' => connect order maxIn ω g' (visited ++ [node]) (unvisited.erase node)
  | _, _, _, _ => none

/-- the second loop (random_dag.py:48-49): `add_random_edge` is called without `max_in_degree`, so its default 4 is used -/
def fill (order : List Node) (target : Nat) : Draws → Graph → Run Graph
  | r :: s :: ω, g =>
    if g.edges.length < target then
      match sample 2 order [r, s] with
      | some (.ok ([n1, n2], _)) => fill order target ω (addRandomEdge order 4 g n1 n2)
      | some (.error e) => some (.error e)
      | _ => none
    else some (.ok (g, r :: s :: ω))
  | ω, g => if g.edges.length < target then none else some (.ok (g, ω))

/-- `int(edge_density * maximum_number_of_edges)` (random_dag.py:47-48).  Simplification: the product is computed exactly.  A
negative number of edges asks for as little as 0. -/
def edgeTarget (n : Nat) (density : Rat) : Nat := ⌊density * ((n : Rat) * ((n : Rat) - 1) / 2)⌋.toNat

/-- `random_dag` (random_dag.py:20-51) -/
def randomDag (n : Nat) (density : Rat) (maxIn : Int) : Draws → Run Graph
  | [] => if n = 0 then some (.error .index) else none
  | r :: ω =>
    match choice (nodeNames n) r with
    | .error e => some (.error e)
    | .ok node =>
      match connect (nodeNames n) maxIn ω (Graph.empty.addNode node) [node] ((nodeNames n).erase node) with
      | none => none
      | some (.error e) => some (.error e)
      | some (.ok (g, ω)) => fill (nodeNames n) (edgeTarget n density) ω g

/-! ### random_macidbase.py -/

/-- `[next(candidates) for _ in range(num)]` for one number after the other (random_macidbase.py:52-55) -/
def deal : List Nat → List Node → List (List Node)
  | [], _ => []
  | k :: ks, l => l.take k :: deal ks (l.drop k)

/-- `"U^" + str(agent) + "_" + str(i)` (random_macidbase.py:78) -/
def utilName (agent i : Nat) : Node := "U^" ++ toString agent ++ "_" ++ toString i

/-- `"D^" + str(agent) + "_" + str(i)` (random_macidbase.py:81) -/
def decName (agent i : Nat) : Node := "D^" ++ toString agent ++ "_" ++ toString i

/-- `"X_" + str(i)` (random_macidbase.py:90) -/
def chanceName (i : Nat) : Node := "X_" ++ toString i

/-- `{old: name(i) for i, old in enumerate(nodes)}` -/
def renames (name : Nat → Node) (nodes : List Node) : List (Node × Node) := nodes.zipIdx.map (fun p => (p.1, name p.2))

/-- `d.update(...)` -/
def update (d : Dict Node Node) (l : List (Node × Node)) : Dict Node Node := l.foldl (fun d p => d.set p.1 p.2) d

/-- `possible_dec_nodes` (random_macidbase.py:66-70), in one of the orders in which the set may be listed; `sample` chooses in any
order -/
def possibleDecs (g : Graph) (utils used : List Node) : List Node :=
  ((utils.flatMap (fun u => g.ancestorsOf [u])).dedup).filter (fun v => decide (v ∉ utils ∧ v ∉ used))

/-- what the loop over the agents has collected: `used_nodes`, `agent_decisions`, `agent_utilities`, `node_name_change_map` -/
structure Roles where
  used : List Node
  decs : Dict Agent (List Node)
  utils : Dict Agent (List Node)
  names : Dict Node Node

/-- the loop over the agents (random_macidbase.py:62-85), the agents being numbered from `agent` on; `none` stands for `break` -/
def assign (g : Graph) : Nat → List (Nat × List Node) → Roles → Draws → Run (Option Roles)
  | _, [], ro, ω => some (.ok (some ro, ω))
  | agent, (num, utils) :: rest, ro, ω =>
    let possible := possibleDecs g utils ro.used
    if possible.length < num then some (.ok (none, ω))
    else
      match sample num possible ω with
      | none => none
      | some (.error e) => some (.error e)
      | some (.ok (decs, ω)) =>
        let us := renames (utilName agent) utils
        let ds := renames (decName agent) decs
        assign g (agent + 1) rest
          ⟨ro.used ++ decs, ro.decs.set agent (ds.map (·.2)), ro.utils.set agent (us.map (·.2)), update (update ro.names us) ds⟩ ω

/-- `nx.relabel_nodes(dag, mapping)`: a new graph with the new names -/
def relabel (g : Graph) (names : Dict Node Node) : Graph :=
  let f := fun v => (names.get? v).getD v
  (g.edgesView.map (fun e => (f e.1, f e.2))).foldl (fun h e => h.nxAddEdge e.1 e.2) (Graph.empty.addNodes (g.nodes.map f))

/-- `while True` of `_add_sufficient_recall` (random_macidbase.py:157-163), up to the node that gets an edge to `d2`.
`random.randrange` raises ValueError for an empty range. -/
def pickNode (mg : Graph) (path : List Node) (d2 : Node) : Draws → Run Node
  | [] => if path.length ≤ 2 then some (.error .value) else none
  | r :: ω =>
    if path.length ≤ 2 then some (.error .value)
    else
      let idx := 1 + r % (path.length - 2)
      match getMotif mg path idx, path[idx]? with
      | .error e, _ => some (.error e)
      | .ok _, none => some (.error .index)
      | .ok mo, some v =>
        if mo ≠ .collider ∧ d2 ∉ mg.ancestorsOf [v] then some (.ok (v, ω)) else pickNode mg path d2 ω

/-- the outer loop (random_macidbase.py:153-163); every round uses a draw, so `fuel` is enough if it is more than the length
of the tape -/
def recallRounds (pick : Pick) (ord : SetOrder) (d1 d2 u : Node) : Nat → Draws → Macid → Graph → Run Macid
  | 0, _, _, _ => none
  | fuel + 1, ω, mb, mg =>
    match isDConnected pick mg (Macid.mec d1) u (mg.parents d2 ++ [d2]) with
    | .error e => some (.error e)
    | .ok false => some (.ok (mb, ω))
    | .ok true =>
      match findActivePath ord mg (Macid.mec d1) u (d2 :: mg.parents d2) with
      | .error e => some (.error e)
      | .ok path =>
        match pickNode mg path d2 ω with
        | none => none
        | some (.error e) => some (.error e)
        | some (.ok (v, ω)) =>
          match mb.g.addEdge v d2, mg.addEdge v d2 with
          | .error e, _ => some (.error e)
          | .ok _, .error e => some (.error e)
          | .ok g', .ok mg' => recallRounds pick ord d1 d2 u fuel ω { mb with g := g' } mg'

/-- `_add_sufficient_recall` (random_macidbase.py:137-163).  No CPDs have been added at this time, so `add_edge` changes the graph
only. -/
def addSufficientRecall (pick : Pick) (ord : SetOrder) (mb : Macid) (d1 d2 u : Node) (ω : Draws) : Run Macid :=
  if d1 ∉ mb.g.nodes then some (.error .value)
  else if d2 ∈ mb.g.ancestorsOf [d1] then some (.error .value)
  else
    match Macid.mechGraph mb.g with
    | .error e => some (.error e)
    | .ok mg => recallRounds pick ord d1 d2 u (ω.length + 1) ω mb mg

/-- the pairs `dec1, dec2` in the order of the loops (random_macidbase.py:172-173) -/
def pairs : List Node → List (Node × Node)
  | [] => []
  | d :: ds => ds.map (fun e => (d, e)) ++ pairs ds

/-- the body of the loops of `_add_sufficient_recalls` (random_macidbase.py:174-179) -/
def recallPair (pick : Pick) (ord : SetOrder) (mb : Macid) (u d1 d2 : Node) (ω : Draws) : Run Macid :=
  if d2 ∉ mb.g.nodes then some (.error .value)
  else if d1 ∈ mb.g.ancestorsOf [d2] then
    if u ∈ mb.g.descendants d2 then addSufficientRecall pick ord mb d1 d2 u ω else some (.ok (mb, ω))
  else if d1 ∉ mb.g.nodes then some (.error .nx)
  else if u ∈ mb.g.descendants d1 then addSufficientRecall pick ord mb d2 d1 u ω else some (.ok (mb, ω))

/-- `_add_sufficient_recalls` (random_macidbase.py:166-179) for a list of triples utility, `dec1`, `dec2` -/
def recallTriples (pick : Pick) (ord : SetOrder) : List (Node × Node × Node) → Macid → Draws → Run Macid
  | [], mb, ω => some (.ok (mb, ω))
  | (u, d1, d2) :: rest, mb, ω =>
    match recallPair pick ord mb u d1 d2 ω with
    | none => none
    | some (.error e) => some (.error e)
    | some (.ok (mb, ω)) => recallTriples pick ord rest mb ω

/-- the loop over the agents of `_add_sufficient_recalls` (random_macidbase.py:168-171) -/
def recallAgents (pick : Pick) (ord : SetOrder) : List Agent → Macid → Draws → Run Macid
  | [], mb, ω => some (.ok (mb, ω))
  | a :: as, mb, ω =>
    match mb.agentDecisions.get a, mb.agentUtilities.get a with
    | .error e, _ => some (.error e)
    | .ok _, .error e => some (.error e)
    | .ok ds, .ok us =>
      match recallTriples pick ord (us.flatMap (fun u => (pairs ds).map (fun p => (u, p.1, p.2)))) mb ω with
      | none => none
      | some (.error e) => some (.error e)
      | some (.ok (mb, ω)) => recallAgents pick ord as mb ω

/-- `_check_max_in_degree` (random_macidbase.py:126-134) -/
def checkMaxInDegree (g : Graph) (maxIn : Int) : Bool := g.nodes.all (fun v => decide ((inDegree g v : Int) ≤ maxIn))

/-- what is wanted of a random game: the arguments of `random_macidbase` (random_macidbase.py:18-27) -/
structure Wanted where
  nodes : Nat
  decs : List Nat
  utils : List Nat
  recall : Bool
  density : Rat
  maxIn : Int

/-- one round of the loop (random_macidbase.py:43-106); `none` stands for `continue` -/
def attempt (pick : Pick) (ord : SetOrder) (w : Wanted) (ω : Draws) : Run (Option Macid) :=
  match randomDag w.nodes w.density w.maxIn ω with
  | none => none
  | some (.error e) => some (.error e)
  | some (.ok (g, ω)) =>
    let barren := g.nodes.filter (fun v => decide (g.children v = []))
    if barren.length < w.utils.sum then some (.ok (none, ω))
    else
      match sample barren.length barren ω with
      | none => none
      | some (.error e) => some (.error e)
      | some (.ok (shuffled, ω)) =>
        match assign g 0 (w.decs.zip (deal w.utils shuffled)) ⟨[], [], [], []⟩ ω with
        | none => none
        | some (.error e) => some (.error e)
        | some (.ok (none, ω)) => some (.ok (none, ω))
        | some (.ok (some ro, ω)) =>
          let chance := g.nodes.filter (fun v => decide (v ∉ ro.names.keys))
          let names := update ro.names (renames chanceName chance)
          match Macid.init (relabel g names).edgesView ro.decs ro.utils with
          | .error e => some (.error e)
          | .ok mb =>
            if w.recall then
              match recallAgents pick ord mb.agents mb ω with
              | none => none
              | some (.error e) => some (.error e)
              | some (.ok (mb, ω)) => if checkMaxInDegree mb.g w.maxIn then some (.ok (some mb, ω)) else some (.ok (none, ω))
            else some (.ok (some mb, ω))

/-- the loop over the attempts (random_macidbase.py:43-110) -/
def attempts (pick : Pick) (ord : SetOrder) (w : Wanted) : Nat → Draws → Run Macid
  | 0, _ => some (.error .value)
  | k + 1, ω =>
    match attempt pick ord w ω with
    | none => none
    | some (.error e) => some (.error e)
    | some (.ok (some mb, ω)) => some (.ok (mb, ω))
    | some (.ok (none, ω)) => attempts pick ord w k ω

/-- `random_macidbase` (random_macidbase.py:18-110) with `add_cpds=False` -/
def randomMacidBase (pick : Pick) (ord : SetOrder) (w : Wanted) (maxAttempts : Nat) (ω : Draws) : Run Macid :=
  if w.decs.length ≠ w.utils.length then some (.error .value) else attempts pick ord w maxAttempts ω

end Random
end Verif

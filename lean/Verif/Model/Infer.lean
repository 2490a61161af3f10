import Verif.Model.Net

/-!
# Queries (pycid/core/causal_bayesian_network.py:135-231, pycid/core/macid_base.py:144-203)

pgmpy's `BeliefPropagation.query` is modelled as what it computes: exact inference, the sum of the
product of all CPD entries over all assignments that agree with the query and the evidence, divided
by the same sum for the evidence alone.
-/

namespace Verif

/-- an outcome for every variable -/
abbrev Assign := Node → Outcome

/-- change the value of one variable -/
def Assign.upd (a : Assign) (v : Node) (x : Outcome) : Assign := fun w => if w = v then x else a w

/-- `Σ` over all values of the listed variables -/
def sumOver (dom : Node → List Outcome) : List Node → (Assign → Rat) → Assign → Rat
  | [], f, a => f a
  | v :: vs, f, a => ((dom v).map (fun x => sumOver dom vs f (a.upd v x))).sum

namespace Net

/-- the domain of a variable; empty if unknown -/
def dom (net : Net) (v : Node) : List Outcome := (net.domain.get? v).getD []

/-- The CPD entry of `v` under an assignment: P(v = a v | evidence as in a). -/
def kernel (net : Net) (v : Node) (a : Assign) : Rat :=
  match net.cpds.get? v with
  | none => 0
  | some c => (c.prob net.domain (c.evidence.map a) (a v)).getD 0

/-- the product of all CPD entries -/
def joint (net : Net) (a : Assign) : Rat := (net.g.nodes.map (fun v => net.kernel v a)).prod

/-- does an assignment agree with listed values -/
def agrees (ev : List (Node × Outcome)) (a : Assign) : Bool := ev.all (fun p => decide (a p.1 = p.2))

/-- total weight of the assignments that agree with the listed values -/
def mass (net : Net) (ev : List (Node × Outcome)) : Rat :=
  sumOver net.dom net.g.nodes (fun a => if agrees ev a then net.joint a else 0) (fun _ => 0)

/-- pgmpy `check_model` (run by `BeliefPropagation.__init__`): every node has a CPD, its evidence
is the set of parents, columns sum to 1 within 0.01, cardinalities agree. -/
def checkModel (net : Net) : Bool :=
  net.g.nodes.all (fun v =>
    match net.cpds.get? v with
    | none => false
    | some c =>
      c.evidence.all (fun p => decide (p ∈ net.g.parents v)) &&
      (net.g.parents v).all (fun p => decide (p ∈ c.evidence)) &&
      c.table.all colClose &&
      decide (c.evCard = c.evidence.map (fun p => match net.cpds.get? p with
        | some pc => pc.domain.length
        | none => 0)))

/-- a pgmpy factor: variables and one value per joint state (None for NaN) in product order -/
structure Factor where
  vars : List Node
  states : List (List Outcome)
  values : List (Option Rat)
  deriving DecidableEq, Repr

/-- `BeliefPropagation(cbn).query(query, context)`.  `ord` is the order in which pgmpy lists the
variables of the result. ValueError for a variable that is both queried and observed. -/
def infer (ord : List Node → List Node) (net : Net) (q : List Node) (ctx : List (Node × Outcome)) :
    Py Factor :=
  if net.checkModel = false then .error .value
  else if q.any (fun v => decide (v ∈ ctx.map (·.1))) then .error .value
  else
    let vars := ord q
    let states := vars.map net.dom
    .ok ⟨vars, states, (product states).map (fun xs =>
      if net.mass ctx = 0 then none else some (net.mass (vars.zip xs ++ ctx) / net.mass ctx))⟩

/-- neighbours in the undirected graph -/
def nbrs (g : Graph) (v : Node) : List Node := g.children v ++ g.parents v

/-- `nx.node_connected_component(undirected, v)` -/
def component (g : Graph) (v : Node) : List Node := Graph.closure (nbrs g) g.nodes.length [v]

/-- `for node in list(cbn.nodes): if node not in connected_nodes: cbn.remove_node(node)`
(causal_bayesian_network.py:164-166) where `connected_nodes` is a union of components: pgmpy's
`remove_node` drops the CPD, pycid's `remove_cpds` drops the relationship of nodes with a CPD; the
domains and the roles stay. -/
def prune (net : Net) (keep : List Node) : Net :=
  { net with
    m := { net.m with g :=
      { nodes := net.g.nodes.filter (fun v => decide (v ∈ keep)),
        edges := net.g.edges.filter (fun e => decide (e.1 ∈ keep ∧ e.2 ∈ keep)) } },
    rels := net.rels.filter (fun p => decide (p.1 ∉ net.g.nodes ∨ p.1 ∈ keep ∨ p.1 ∉ net.cpds.keys)),
    cpds := net.cpds.filter (fun p => decide (p.1 ∉ net.g.nodes ∨ p.1 ∈ keep)) }

/-- `nx.is_connected(cbn.to_undirected())`: NetworkXPointlessConcept for the empty graph. -/
def isConnected (g : Graph) : Py Bool :=
  match g.nodes with
  | [] => .error .nx
  | v :: vs => .ok ((v :: vs).all (fun w => decide (w ∈ component g v)))

/-- The part of `CausalBayesianNetwork.query` after the intervention
(causal_bayesian_network.py:157-178); `net` is modified. -/
def queryOn (ord : List Node → List Node) (net : Net) (q : List Node) (ctx : List (Node × Outcome)) :
    Net × Py Factor :=
  if q.all net.g.hasNode = false then (net, .error .key)
  else
    let keep := q.flatMap (component net.g)
    let ctx' := ctx.filter (fun p => decide (p.1 ∈ keep))
    let net' := net.prune keep
    match isConnected net'.g with
    | .error e => (net', .error e)
    | .ok false => (net', .error .value)
    | .ok true => (net', infer ord net' q ctx')

/-- `CausalBayesianNetwork.query` (causal_bayesian_network.py:135-178) after the context check. -/
def queryCore (ord : List Node → List Node) (net : Net) (q : List Node) (ctx int : List (Node × Outcome)) :
    Net × Py Factor :=
  match int with
  | [] => net.queryOn ord q ctx
  | _ :: _ =>
    match net.copy with
    | .error e => (net, .error e)
    | .ok c =>
      match c.intervene int with
      | (_, .error e) => (net, .error e)
      | (c', .ok _) => (net, (c'.queryOn ord q ctx).2)

/-- The context check of causal_bayesian_network.py:151-153. -/
def checkContextCbn (net : Net) : List (Node × Outcome) → Py Unit
  | [] => .ok ()
  | (v, x) :: rest =>
    match net.domain.get? v with
    | none => .error .key
    | some d => if x ∈ d then checkContextCbn net rest else .error .value

/-- `CausalBayesianNetwork.query` (causal_bayesian_network.py:135-178). -/
def queryCbn (ord : List Node → List Node) (net : Net) (q : List Node) (ctx int : List (Node × Outcome)) :
    Net × Py Factor :=
  match net.checkContextCbn ctx with
  | .error e => (net, .error e)
  | .ok _ => net.queryCore ord q ctx int

/-- The context check of macid_base.py:160-162: `get_cpds(variable).domain`, an attribute only
pycid's own CPD classes have. -/
def checkContext (net : Net) : List (Node × Outcome) → Py Unit
  | [] => .ok ()
  | (v, x) :: rest =>
    match net.getCpd v with
    | .error e => .error e
    | .ok none => .error .attribute
    | .ok (some c) =>
      if c.kind = .tabular then .error .attribute
      else if x ∈ c.domain then checkContext net rest else .error .value

/-- `for parent in self.get_parents(var): mech_graph.remove_edge(parent, var)` for all intervened
variables (macid_base.py:167-170). -/
def cutMech (net : Net) : Graph → List Node → Py Graph
  | mg, [] => .ok mg
  | mg, x :: xs =>
    if x ∉ net.g.nodes then .error .nx
    else cutMech net { mg with edges := mg.edges.filter (fun e =>
      decide (¬ (e.2 = x ∧ e.1 ∈ net.g.parents x))) } xs

/-- One iteration of the policy check (macid_base.py:172-182). -/
def policyCheck (pick : Pick) (net : Net) (mg : Graph) (obs : List Node) (d q : Node) : Py Unit :=
  match isDConnected pick mg (Macid.mec d) q obs with
  | .error e => .error e
  | .ok false => .ok ()
  | .ok true =>
    match net.getCpd d with
    | .error e => .error e
    | .ok none => .error .value
    | .ok (some c) => if c.kind = .decision then .error .value else .ok ()

/-- a loop without result whose body may raise -/
def forPy {α : Type} (f : α → Py Unit) : List α → Py Unit
  | [] => .ok ()
  | x :: xs =>
    match f x with
    | .error e => .error e
    | .ok _ => forPy f xs

/-- "Check that strategically relevant decisions have a policy specified" (macid_base.py:165-182). -/
def policiesOk (pick : Pick) (net : Net) (q : List Node) (ctx int : List (Node × Outcome)) : Py Unit :=
  match Macid.mechGraph net.g with
  | .error e => .error e
  | .ok mg =>
    match net.cutMech mg (int.map (·.1)) with
    | .error e => .error e
    | .ok mg =>
      forPy (fun d => forPy (fun qn =>
        policyCheck pick net mg (ctx.map (·.1) ++ int.map (·.1)) d qn) q) net.m.decisions

/-- `MACIDBase.query` (macid_base.py:144-184).  `super().query` repeats the context check against
`model.domain`. -/
def query (pick : Pick) (ord : List Node → List Node) (net : Net) (q : List Node)
    (ctx int : List (Node × Outcome)) : Net × Py Factor :=
  match net.checkContext ctx with
  | .error e => (net, .error e)
  | .ok _ =>
    match net.policiesOk pick q ctx int with
    | .error e => (net, .error e)
    | .ok _ => net.queryCbn ord q ctx int

/-- The loop of `expected_value` (causal_bayesian_network.py:213-230) over the entries of the
factor. RuntimeError as soon as a NaN appears. -/
def evOf (f : Factor) : Py (List Rat) :=
  if f.values.any Option.isNone then .error .runtime
  else .ok (f.vars.zipIdx.map (fun vi =>
    (((product f.states).zip f.values).map (fun e => (e.2.getD 0) * (e.1.getD vi.2 0))).sum))

/-- `expected_value` (causal_bayesian_network.py:197-231) of a MACIDBase. -/
def expectedValue (pick : Pick) (ord : List Node → List Node) (net : Net) (vars : List Node)
    (ctx int : List (Node × Outcome)) : Net × Py (List Rat) :=
  match net.query pick ord vars ctx int with
  | (net', .error e) => (net', .error e)
  | (net', .ok f) => (net', evOf f)

/-- `expected_utility` (macid_base.py:186-203). -/
def expectedUtility (pick : Pick) (ord : List Node → List Node) (net : Net)
    (ctx int : List (Node × Outcome)) (agent : Agent) : Net × Py Rat :=
  match net.m.agentUtilities.get agent with
  | .error e => (net, .error e)
  | .ok us =>
    match net.expectedValue pick ord us ctx int with
    | (net', .error e) => (net', .error e)
    | (net', .ok l) => (net', .ok l.sum)

end Net
end Verif

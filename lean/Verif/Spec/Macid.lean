import Verif.Model.Macid
import Verif.Spec.Graph

/-! Specification vocabulary for roles. -/

namespace Verif

/-- What a node is. -/
inductive Role
  | chance
  | decision (a : Agent)
  | utility (a : Agent)
  deriving DecidableEq, Repr

/-- The agent owning a node of that role. -/
def Role.owner : Role → Option Agent
  | .chance => none
  | .decision a => some a
  | .utility a => some a

/-- `g` with a new node `n` whose only edge goes to `v`. -/
def Graph.withParent (g : Graph) (n v : Node) : Graph := ⟨n :: g.nodes, (n, v) :: g.edges⟩

namespace Macid

/-- The role recorded for a node. -/
def role (m : Macid) (n : Node) : Role :=
  match m.decisionAgent.get? n with
  | some a => .decision a
  | none =>
    match m.utilityAgent.get? n with
    | some a => .utility a
    | none => .chance

/-- A dictionary agent -> nodes and a dictionary node -> agent describe the same assignment, and
neither has duplicates. -/
structure Agree (byAgent : Dict Agent (List Node)) (byNode : Dict Node Agent) : Prop where
  agentKeys : byAgent.keys.Nodup
  nodeKeys : byNode.keys.Nodup
  iff : ∀ n a, byNode.get? n = some a ↔ ∃ l, byAgent.get? a = some l ∧ n ∈ l
  nodup : ∀ a l, byAgent.get? a = some l → l.Nodup

/-- The four dictionaries are consistent with each other and with the graph. -/
structure Consistent (m : Macid) : Prop where
  wf : m.g.WF
  dec : Agree m.agentDecisions m.decisionAgent
  util : Agree m.agentUtilities m.utilityAgent
  disj : ∀ n, n ∈ m.decisions → n ∉ m.utilities
  nodes : ∀ n, n ∈ m.decisions ∨ n ∈ m.utilities → n ∈ m.g.nodes

/-- The role changing calls. -/
inductive RoleOp
  | makeDecision (n : Node) (a : Agent)
  | makeUtility (n : Node) (a : Agent)
  | makeChance (n : Node)
  deriving DecidableEq, Repr

def RoleOp.node : RoleOp → Node
  | .makeDecision n _ => n
  | .makeUtility n _ => n
  | .makeChance n => n

def RoleOp.role : RoleOp → Role
  | .makeDecision _ a => .decision a
  | .makeUtility _ a => .utility a
  | .makeChance _ => .chance

/-- Running the modelled call. -/
def runOp (m : Macid) : RoleOp → Macid × Py Unit
  | .makeDecision n a => m.makeDecision n a
  | .makeUtility n a => m.makeUtility n a
  | .makeChance n => m.makeChance n

/-- A history of calls, exceptions being caught by the caller. -/
def runOps (m : Macid) (ops : List RoleOp) : Macid := ops.foldl (fun m op => (m.runOp op).1) m

/-- The specification: a map from nodes to roles; a call on an existing node overwrites one entry. -/
def specOp (nodes : List Node) (f : Node → Role) (op : RoleOp) : Node → Role :=
  fun n => if n = op.node ∧ op.node ∈ nodes then op.role else f n

/-- `v` is r-reachable from the decision `d` (Koller & Milch): for some utility `u` of the owner of
`d` that is a proper descendant of `d`, a newly added parent `n` of `v` is d-connected to `u` given
`d` and its parents. -/
def RReach (m : Macid) (d v : Node) : Prop :=
  ∃ a u, m.role d = .decision a ∧ m.role u = .utility a ∧ m.g.Desc d u ∧
    ∃ Z n, (∀ z, z ∈ Z ↔ z = d ∨ m.g.Edge z d) ∧ n ∉ m.g.nodes ∧ (m.g.withParent n v).DConn n u Z

/-- `v` is a decision that is r-reachable from `d`: `d` relies on `v`. -/
def Relies (m : Macid) (d v : Node) : Prop := (∃ a, m.role v = .decision a) ∧ m.RReach d v

/-- Names for which the mechanism graph can be built: no name is another name followed by "mec", and
none is rejected by the (wrong) guard, i.e. has six characters and begins with "mec". -/
def NamesOk (g : Graph) : Prop :=
  (∀ u ∈ g.nodes, ∀ v ∈ g.nodes, u ≠ v ++ "mec") ∧
  ∀ v ∈ g.nodes, ¬ (v.toList.length = 6 ∧ v.toList.take 3 = ['m', 'e', 'c'])

/-- `d` is a decision whose owner has an entry in `agent_utilities`. -/
def Playable (m : Macid) (d : Node) : Prop := ∃ a, m.role d = .decision a ∧ a ∈ m.agents

/-- No cycle of reliance among the given decisions. -/
def NoRelianceCycle (m : Macid) (ds : List Node) : Prop :=
  ∀ d, ¬ Relation.TransGen (fun a b => a ∈ ds ∧ b ∈ ds ∧ a ≠ b ∧ m.RReach a b) d d

/-- Two lists with the same members. -/
def SameSet (a b : List Node) : Prop := ∀ x, x ∈ a ↔ x ∈ b

/-- What `nx.strongly_connected_components` guarantees: a partition of the nodes into the classes of
mutual reachability. -/
structure IsSccs (nodes : List Node) (R : Node → Node → Prop) (sccs : List (List Node)) : Prop where
  perm : sccs.flatten.Perm nodes
  nonempty : ∀ c ∈ sccs, c ≠ []
  classes : ∀ c ∈ sccs, ∀ x ∈ c, ∀ y ∈ nodes,
    (y ∈ c ↔ Relation.ReflTransGen R x y ∧ Relation.ReflTransGen R y x)

end Macid
end Verif

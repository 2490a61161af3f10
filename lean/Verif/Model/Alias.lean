import Verif.Model.Macid
import Verif.Spec.Macid

/-!
# The list objects behind `agent_decisions` and `agent_utilities` (pycid/core/macid_base.py:68-139, 424-434)

In the other models the two dictionaries hold lists.  In Python they hold references to list objects, which `make_decision`,
`make_utility` and `make_chance` change in place, and which the constructor takes over from its arguments.  Here the list objects
are explicit.
-/

namespace Verif

/-- the identity of a list object -/
abbrev Addr := Nat

/-- the contents of all list objects, by identity -/
abbrev Heap := List (List Node)

/-- A `MACIDBase` object without its CPDs (macid_base.py:38-54).  Simplification: only the lists of nodes are shared objects; the four
dictionaries belong to the object (`dict(...)` at macid_base.py:89-90 makes a new dictionary). -/
structure RefMacid where
  g : Graph
  agentDecisions : Dict Agent Addr
  agentUtilities : Dict Agent Addr
  decisionAgent : Dict Node Agent
  utilityAgent : Dict Node Agent
  deriving DecidableEq, Repr

/-- a dictionary of list objects with its present contents -/
def listsOf (h : Heap) (d : Dict Agent Addr) : Dict Agent (List Node) := d.map (fun p => (p.1, h.getD p.2 []))

namespace RefMacid

/-- what a user sees of the object at this moment -/
def view (h : Heap) (o : RefMacid) : Macid :=
  ⟨o.g, listsOf h o.agentDecisions, listsOf h o.agentUtilities, o.decisionAgent, o.utilityAgent⟩

/-- the list objects an object refers to -/
def addrs (o : RefMacid) : List Addr := o.agentDecisions.map (·.2) ++ o.agentUtilities.map (·.2)

/-- `MACIDBase.__init__` (macid_base.py:68-93): `dict(agent_decisions)` is a new dictionary with the same list objects -/
def init (h : Heap) (edges : List (Node × Node)) (ad au : Dict Agent Addr) : Py RefMacid :=
  match Graph.ofEdges edges with
  | .error e => .error e
  | .ok g => .ok ⟨g, ad, au, Macid.invert (listsOf h ad), Macid.invert (listsOf h au)⟩

/-- `make_chance` (macid_base.py:130-139): `list.remove` works in place -/
def makeChance (h : Heap) (o : RefMacid) (node : Node) : Heap × RefMacid × Py Unit :=
  if node ∉ o.g.nodes then (h, o, .error .key)
  else
    match o.decisionAgent.get? node with
    | some a =>
      let o := { o with decisionAgent := o.decisionAgent.erase node }
      match o.agentDecisions.get? a with
      | none => (h, o, .error .key)
      | some p =>
        if node ∈ h.getD p [] then (h.set p ((h.getD p []).erase node), o, .ok ())
        else (h, o, .error .value)
    | none =>
      match o.utilityAgent.get? node with
      | some a =>
        let o := { o with utilityAgent := o.utilityAgent.erase node }
        match o.agentUtilities.get? a with
        | none => (h, o, .error .key)
        | some p =>
          if node ∈ h.getD p [] then (h.set p ((h.getD p []).erase node), o, .ok ())
          else (h, o, .error .value)
      | none => (h, o, .ok ())

/-- `make_decision` (macid_base.py:110-119): a new list object `[node]`, or `list.append` in place -/
def makeDecision (h : Heap) (o : RefMacid) (node : Node) (a : Agent) : Heap × RefMacid × Py Unit :=
  match makeChance h o node with
  | (h, o, .error e) => (h, o, .error e)
  | (h, o, .ok _) =>
    match o.agentDecisions.get? a with
    | none =>
      (h ++ [[node]], { o with agentDecisions := o.agentDecisions.set a h.length,
                               decisionAgent := o.decisionAgent.set node a }, .ok ())
    | some p => (h.set p (h.getD p [] ++ [node]), { o with decisionAgent := o.decisionAgent.set node a }, .ok ())

/-- `make_utility` (macid_base.py:121-128) -/
def makeUtility (h : Heap) (o : RefMacid) (node : Node) (a : Agent) : Heap × RefMacid × Py Unit :=
  match makeChance h o node with
  | (h, o, .error e) => (h, o, .error e)
  | (h, o, .ok _) =>
    match o.agentUtilities.get? a with
    | none =>
      (h ++ [[node]], { o with agentUtilities := o.agentUtilities.set a h.length,
                               utilityAgent := o.utilityAgent.set node a }, .ok ())
    | some p => (h.set p (h.getD p [] ++ [node]), { o with utilityAgent := o.utilityAgent.set node a }, .ok ())

/-- one of the three calls -/
def runOp (h : Heap) (o : RefMacid) : Macid.RoleOp → Heap × RefMacid × Py Unit
  | .makeDecision n a => makeDecision h o n a
  | .makeUtility n a => makeUtility h o n a
  | .makeChance n => makeChance h o n

/-- the loops of `copy_without_cpds` over one list of nodes -/
def makeAll (mk : Heap → RefMacid → Node → Heap × RefMacid × Py Unit) : Heap → RefMacid → List Node → Heap × Py RefMacid
  | h, o, [] => (h, .ok o)
  | h, o, n :: ns =>
    match mk h o n with
    | (h', _, .error e) => (h', .error e)
    | (h', o', .ok _) => makeAll mk h' o' ns

/-- loop of `copy_without_cpds` over `self.agents` (macid_base.py:429-433).  Simplification: a list of `self` is read when its loop
begins; nothing changes it meanwhile, because the new object has its own list objects (`C92_programs`). -/
def copyRoles (src : RefMacid) : Heap → RefMacid → List Agent → Heap × Py RefMacid
  | h, acc, [] => (h, .ok acc)
  | h, acc, a :: as =>
    match src.agentDecisions.get? a with
    | none => (h, .error .key)
    | some p =>
      match makeAll (fun h o n => makeDecision h o n a) h acc (h.getD p []) with
      | (h, .error e) => (h, .error e)
      | (h, .ok acc) =>
        match src.agentUtilities.get? a with
        | none => (h, .error .key)
        | some p =>
          match makeAll (fun h o n => makeUtility h o n a) h acc (h.getD p []) with
          | (h, .error e) => (h, .error e)
          | (h, .ok acc) => copyRoles src h acc as

/-- `MACID()` / `MACIDBase()`, and `CID()` with its two new empty lists (cid.py:31-36) -/
def fresh (h : Heap) : (cid : Bool) → Heap × RefMacid
  | false => (h, ⟨Graph.empty, [], [], [], []⟩)
  | true => (h ++ [[], []], ⟨Graph.empty, [(0, h.length)], [(0, h.length + 1)], [], []⟩)

/-- `copy_without_cpds` (macid_base.py:424-434, cid.py:79-91, macid.py:212-222) -/
def copyWithoutCpds (h : Heap) (cid : Bool) (src : RefMacid) : Heap × Py RefMacid :=
  match (Graph.empty.addNodes src.g.nodes).addEdges src.g.edgesView with
  | .error e => (h, .error e)
  | .ok g => copyRoles src (fresh h cid).1 { (fresh h cid).2 with g := g } (src.agentUtilities.keys)

end RefMacid

/-- writing down a dictionary of list literals: a new list object for every entry -/
def allocAll : Heap → Dict Agent (List Node) → Heap × Dict Agent Addr
  | h, [] => (h, [])
  | h, (a, l) :: rest => ((allocAll (h ++ [l]) rest).1, (a, h.length) :: (allocAll (h ++ [l]) rest).2)

/-- several diagrams and the list objects they refer to -/
structure World where
  heap : Heap
  objs : List RefMacid
  deriving DecidableEq, Repr

/-- A statement of a program: a constructor call with lists written down on the spot, a copy, a call that changes a role.  Diagrams are
numbered in the order in which they come into being. -/
inductive Stmt
  | create (edges : List (Node × Node)) (ad au : Dict Agent (List Node))
  | copy (i : Nat) (cid : Bool)
  | call (i : Nat) (op : Macid.RoleOp)
  deriving DecidableEq, Repr

/-- Executing a statement.  (The IndexError for a diagram that does not exist is a convention of the model.) -/
def World.exec (w : World) : Stmt → World × Py Unit
  | .create edges ad au =>
    let d := allocAll w.heap ad
    let u := allocAll d.1 au
    match RefMacid.init u.1 edges d.2 u.2 with
    | .error e => (⟨u.1, w.objs⟩, .error e)
    | .ok o => (⟨u.1, w.objs ++ [o]⟩, .ok ())
  | .copy i cid =>
    match w.objs[i]? with
    | none => (w, .error .index)
    | some o =>
      match o.copyWithoutCpds w.heap cid with
      | (h, .error e) => (⟨h, w.objs⟩, .error e)
      | (h, .ok o') => (⟨h, w.objs ++ [o']⟩, .ok ())
  | .call i op =>
    match w.objs[i]? with
    | none => (w, .error .index)
    | some o =>
      match o.runOp w.heap op with
      | (h, o', r) => (⟨h, w.objs.set i o'⟩, r)

/-- executing a program; exceptions are caught and reported in order -/
def World.execAll (w : World) : List Stmt → World × List (Py Unit)
  | [] => (w, [])
  | s :: ss => (((w.exec s).1.execAll ss).1, (w.exec s).2 :: ((w.exec s).1.execAll ss).2)

end Verif

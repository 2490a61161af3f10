import Verif.Model.Net

/-!
# What the pictures show

`draw`, `draw_property` and `draw_sccs`, up to the calls of networkx and matplotlib: for every node the colour, shape, text and
place of the text that are handed over.  Not modelled: the layout (a parameter here) and the colours of matplotlib's `rainbow`
scale, of which only the position on the scale appears.
-/

namespace Verif

/-- a colour: a name, or a position between 0 and 1 on the `rainbow` scale -/
inductive Paint
  | name (s : String)
  | scale (x : Rat)
  deriving DecidableEq, Repr

/-- `np.linspace(0, 1, n)[i]` (macid_base.py:441, relevance_graph.py:50) -/
def linspace (n i : Nat) : Rat := if n ≤ 1 then 0 else (i : Rat) / ((n : Rat) - 1)

namespace Draw

/-- `CausalBayesianNetwork._get_color` (causal_bayesian_network.py:254-256) -/
def colorCbn (_ : Node) : Py Paint := .ok (.name "lightgray")

/-- `CausalBayesianNetwork._get_shape` (causal_bayesian_network.py:258-260) -/
def shapeCbn (_ : Node) : Py String := .ok "o"

/-- `CID._get_color` (cid.py:84-90) -/
def colorCid (m : Macid) (v : Node) : Py Paint :=
  if v ∈ m.decisions then .ok (.name "lightblue")
  else if v ∈ m.utilities then .ok (.name "yellow")
  else .ok (.name "lightgray")

/-- `colors[[agents.index(agent)]]` (macid_base.py:450); `list.index` raises ValueError for an agent that is not in the list -/
def agentColor (agents : List Agent) (a : Agent) : Py Paint :=
  if a ∈ agents then .ok (.scale (linspace agents.length (agents.idxOf a))) else .error .value

/-- `MACIDBase._get_color` (macid_base.py:436-453) -/
def color (m : Macid) (v : Node) : Py Paint :=
  match m.decisionAgent.get? v with
  | some a => agentColor m.agents a
  | none =>
    match m.utilityAgent.get? v with
    | some a => agentColor m.agents a
    | none => .ok (.name "lightgray")

/-- `MACIDBase._get_shape` (macid_base.py:455-461) -/
def shape (m : Macid) (v : Node) : Py String :=
  if v ∈ m.decisions then .ok "s" else if v ∈ m.utilities then .ok "D" else .ok "o"

/-- `_get_label` (causal_bayesian_network.py:262-269).  `text` gives the labels of the CPD objects of pycid (Model/Label.lean); pgmpy's
tables have none, and `get_cpds` returns `None` for a node without CPD. -/
def label (text : Node → String) (net : Net) (v : Node) : Py String :=
  match net.cpds.get? v with
  | some c => .ok (if c.kind = .tabular then "" else text v)
  | none => .ok ""

/-- where the text of a node is put (causal_bayesian_network.py:286-291) -/
def textPos (p : Rat × Rat) : Rat × Rat := if p.2 > 0 then (p.1 - 1 / 10, p.2 - 2 / 10) else (p.1 - 1 / 10, p.2 + 2 / 10)

/-- what is drawn for a node -/
structure Item where
  node : Node
  at_ : Rat × Rat
  text : String
  textAt : Rat × Rat
  color : Paint
  shape : String
  deriving DecidableEq, Repr

/-- the colours and shapes, one node after the other (causal_bayesian_network.py:294-302) -/
def paint (color : Node → Py Paint) (shape : Node → Py String) (v : Node) : Py (Paint × String) :=
  match color v with
  | .error e => .error e
  | .ok c =>
    match shape v with
    | .error e => .error e
    | .ok s => .ok (c, s)

/-- `draw` (causal_bayesian_network.py:271-303) for the given functions; the layout has a place for every node -/
def draw (color : Node → Py Paint) (shape label : Node → Py String) (layout : Node → Rat × Rat) (g : Graph) : Py (List Item) :=
  match mapPy label g.nodes with
  | .error e => .error e
  | .ok texts =>
    match mapPy (paint color shape) g.nodes with
    | .error e => .error e
    | .ok paints =>
      .ok ((g.nodes.zip (texts.zip paints)).map
        (fun p => ⟨p.1, layout p.1, p.2.1, textPos (layout p.1), p.2.2.1, p.2.2.2⟩))

/-- the `node_color` of `draw_property` (causal_bayesian_network.py:308-312) -/
def highlight (prop : Node → Py Bool) (c : Paint) (color : Node → Py Paint) (v : Node) : Py Paint :=
  match prop v with
  | .error e => .error e
  | .ok true => .ok c
  | .ok false => color v

/-- `_set_color_scc` (relevance_graph.py:48-56) -/
def sccColor (sccs : List (List Node)) (v : Node) : Paint :=
  .scale (linspace sccs.length ((sccs.findIdx? (fun c => decide (v ∈ c))).getD 0))

/-- the colours of `draw_sccs` (relevance_graph.py:58-66); `sccs` is what `nx.strongly_connected_components` enumerates -/
def drawSccs (rg : Graph) (sccs : List (List Node)) : List (Node × Paint) := rg.nodes.map (fun v => (v, sccColor sccs v))

end Draw
end Verif

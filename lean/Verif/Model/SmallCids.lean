import Verif.Model.SimpleCids

/-!
# The remaining influence diagrams of `pycid.examples.simple_cids`
-/

namespace Verif

/-- `lambda x, y: k * int(x == y)` (simple_cids.py:42-43); a missing argument is a TypeError -/
def scaledEqualFunc (k : Rat) (x y : Node) : Func := fun pv =>
  match pv x, pv y with
  | some u, some v => .ok (.val (k * (if u = v then 1 else 0)))
  | _, _ => .error .type

/-- `lambda x: noisy_copy(x, probability=p, domain=domain)` (simple_cids.py:69); a missing argument is a TypeError -/
def noisyFunc (x : Node) (p : Rat) (domain : List Outcome) : Func := fun pv =>
  match pv x with
  | some u => .ok (.dist (noisyCopy u p (some domain)))
  | none => .error .type

/-- simple_cids.py:7 -/
def minimalRels : List (Node × Rel) := [("A", .seq [0, 1]), ("B", .func (copyFunc "A"))]

/-- `get_minimal_cid` (simple_cids.py:5-8) -/
def minimalCid : Py Net := cidOf [("A", "B")] ["A"] ["B"] minimalRels

/-- simple_cids.py:13 -/
def threeNodeRels : List (Node × Rel) :=
  [("S", .dist (discreteUniform [-1, 1])), ("U", .func (factorsFunc 1 false ["S", "D"])), ("D", .seq [-1, 1])]

/-- `get_3node_cid` (simple_cids.py:11-14) -/
def threeNodeCid : Py Net := cidOf [("S", "D"), ("S", "U"), ("D", "U")] ["D"] ["U"] threeNodeRels

/-- simple_cids.py:19, 35 -/
def fiveNodeEdges : List (Node × Node) := [("S1", "D"), ("S1", "U1"), ("S2", "D"), ("S2", "U2"), ("D", "U1"), ("D", "U2")]

/-- simple_cids.py:23-29 -/
def fiveNodeRels : List (Node × Rel) :=
  [("S1", .dist (discreteUniform [0, 1])), ("S2", .dist (discreteUniform [0, 1])), ("U1", .func (equalFunc "S1" "D")),
    ("U2", .func (equalFunc "S2" "D")), ("D", .seq [0, 1])]

/-- `get_5node_cid` (simple_cids.py:17-30) -/
def fiveNodeCid : Py Net := cidOf fiveNodeEdges ["D"] ["U1", "U2"] fiveNodeRels

/-- simple_cids.py:39-45 -/
def scaledRels : List (Node × Rel) :=
  [("S1", .dist (discreteUniform [0, 1])), ("S2", .dist (discreteUniform [0, 1])), ("U1", .func (scaledEqualFunc 10 "S1" "D")),
    ("U2", .func (scaledEqualFunc 2 "S2" "D")), ("D", .seq [0, 1])]

/-- `get_5node_cid_with_scaled_utility` (simple_cids.py:33-46) -/
def scaledCid : Py Net := cidOf fiveNodeEdges ["D"] ["U1", "U2"] scaledRels

/-- simple_cids.py:51 -/
def twoDecEdges : List (Node × Node) := [("S1", "S2"), ("S1", "D1"), ("D1", "S2"), ("S2", "U"), ("S2", "D2"), ("D2", "U")]

/-- simple_cids.py:55-61 -/
def twoDecRels : List (Node × Rel) :=
  [("S1", .dist (discreteUniform [0, 1])), ("D1", .seq [0, 1]), ("D2", .seq [0, 1]), ("S2", .func (equalFunc "S1" "D1")),
    ("U", .func (equalFunc "S2" "D2"))]

/-- `get_2dec_cid` (simple_cids.py:49-62) -/
def twoDecCid : Py Net := cidOf twoDecEdges ["D1", "D2"] ["U"] twoDecRels

/-- simple_cids.py:67-72; `int` of the outcomes -1, 0 and 1 is the outcome itself -/
def voiRels : List (Node × Rel) :=
  [("S", .dist (discreteUniform [-1, 1])), ("X", .func (noisyFunc "S" (4 / 5) [-1, 1])), ("D", .seq [-1, 0, 1]),
    ("U", .func (factorsFunc 1 false ["S", "D"]))]

/-- `get_quantitative_voi_cid` (simple_cids.py:65-73) -/
def quantitativeVoiCid : Py Net := cidOf [("S", "X"), ("X", "D"), ("D", "U"), ("S", "U")] ["D"] ["U"] voiRels

end Verif

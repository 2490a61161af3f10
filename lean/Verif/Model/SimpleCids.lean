import Verif.Model.Games

/-!
# Two influence diagrams of `pycid.examples.simple_cids` and one of `pycid.examples.story_cids`

`CID(edges, decisions, utilities)` gives all decisions and utilities to the agent 0 (cid.py:30-36).
-/

namespace Verif

/-- `lambda x, y: int(x == y)` (simple_cids.py:99, 102); a missing argument is a TypeError -/
def equalFunc (x y : Node) : Func := fun pv =>
  match pv x, pv y with
  | some u, some v => .ok (.val (if u = v then 1 else 0))
  | _, _ => .error .type

/-- `lambda x: x` (simple_cids.py:100); a missing argument is a TypeError -/
def copyFunc (x : Node) : Func := fun pv =>
  match pv x with
  | some u => .ok (.val u)
  | none => .error .type

/-- `CID(edges, decisions, utilities)` followed by `add_cpds` (simple_cids.py:82-103, 108-109) -/
def cidOf (edges : List (Node × Node)) (decisions utilities : List Node) (rels : List (Node × Rel)) : Py Net :=
  match Macid.init edges [(0, decisions)] [(0, utilities)] with
  | .error e => .error e
  | .ok m =>
    match (Net.mk m [] [] [] Macid.newCid).addCpds rels with
    | (_, .error e) => .error e
    | (net, .ok _) => .ok net

/-- simple_cids.py:83-91 -/
def sequentialEdges : List (Node × Node) :=
  [("S1", "D1"), ("D1", "U1"), ("S1", "U1"), ("D1", "S2"), ("S2", "D2"), ("D2", "U2"), ("S2", "U2")]

/-- simple_cids.py:96-103 -/
def sequentialRels : List (Node × Rel) :=
  [("S1", .dist (discreteUniform [0, 1])), ("D1", .seq [0, 1]), ("U1", .func (equalFunc "S1" "D1")), ("S2", .func (copyFunc "D1")),
    ("D2", .seq [0, 1]), ("U2", .func (equalFunc "S2" "D2"))]

/-- `get_sequential_cid` (simple_cids.py:76-104) -/
def sequentialCid : Py Net := cidOf sequentialEdges ["D1", "D2"] ["U1", "U2"] sequentialRels

/-- simple_cids.py:109 -/
def insufficientRels : List (Node × Rel) :=
  [("A", .seq [0, 1]), ("B", .seq [0, 1]), ("U", .func (factorsFunc 1 false ["A", "B"]))]

/-- `get_insufficient_recall_cid` (simple_cids.py:107-110) -/
def insufficientRecallCid : Py Net := cidOf [("A", "U"), ("B", "U")] ["A", "B"] ["U"] insufficientRels

/-- `lambda X, Z: X + Z` (story_cids.py:25); a missing argument is a TypeError -/
def plusFunc (x y : Node) : Func := fun pv =>
  match pv x, pv y with
  | some u, some v => .ok (.val (u + v))
  | _, _ => .error .type

/-- `lambda D, Y: -((D - Y) ** 2)` (story_cids.py:26); a missing argument is a TypeError -/
def lossFunc (x y : Node) : Func := fun pv =>
  match pv x, pv y with
  | some u, some v => .ok (.val (-((u - v) ^ 2)))
  | _, _ => .error .type

/-- story_cids.py:7-15 -/
def biasEdges : List (Node × Node) := [("A", "X"), ("Z", "X"), ("Z", "Y"), ("X", "D"), ("X", "Y"), ("D", "U"), ("Y", "U")]

/-- story_cids.py:20-27 -/
def biasRels : List (Node × Rel) :=
  [("A", .dist (discreteUniform [0, 1])), ("Z", .dist (discreteUniform [0, 1])), ("X", .func (factorsFunc 1 false ["A", "Z"])),
    ("D", .seq [0, 1]), ("Y", .func (plusFunc "X" "Z")), ("U", .func (lossFunc "D" "Y"))]

/-- `get_introduced_bias` (story_cids.py:5-28) -/
def introducedBias : Py Net := cidOf biasEdges ["D"] ["U"] biasRels

/-- `get_trim_example_cid` (simple_cids.py:113-132): the edges of the constructor call -/
def trimEdges : List (Node × Node) :=
  [("Y1", "D1"), ("Y1", "Y2"), ("Y1", "D2"), ("Y2", "D2"), ("Y2", "U"), ("D1", "Y2"), ("D1", "D2"), ("Z1", "D1"), ("Z1", "D2"), ("Z1", "Z2"), ("Z2", "D2"),
    ("D2", "U")]

/-- `get_trim_example_cid` (simple_cids.py:113-132) -/
def trimExample : Py Net := cidOf trimEdges ["D1", "D2"] ["U"] []

end Verif

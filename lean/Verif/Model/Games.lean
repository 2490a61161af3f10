import Verif.Model.Net

/-!
# The two-player games of `pycid.examples.story_macids` and `pycid.examples.simple_macids`

Outcomes are rational numbers in the model: the strings `"c"`/`"d"`, `"O"`/`"F"`, `"H"`/`"T"`, `"e"`/`"c"` of the games are written
0 and 1, in the order in which the domain lists them.  Agents are natural numbers: `"M"` is 1 and `"F"` is 2.
-/

namespace Verif

/-- names of the decisions and utilities, and the agents that own them -/
structure Seats where
  d1 : Node
  d2 : Node
  u1 : Node
  u2 : Node
  p1 : Agent
  p2 : Agent
deriving DecidableEq

/-- story_macids.py:25-29, 102-106, 149-153, 196-200 -/
def Seats.numbered : Seats := ⟨"D1", "D2", "U1", "U2", 1, 2⟩

/-- story_macids.py:64-68: agent `"M"` decides `D_F` and owns `U_F`, agent `"F"` decides `D_M` and owns `U_M` -/
def Seats.couple : Seats := ⟨"D_F", "D_M", "U_F", "U_M", 1, 2⟩

/-- simple_macids.py:117-118, 188-189, 227-228, 283-284: the agents are 0 and 1 -/
def Seats.counted : Seats := ⟨"D1", "D2", "U1", "U2", 0, 1⟩

/-- `lambda D1, D2: payoff[d1_domain.index(D1), d2_domain.index(D2)]` (story_macids.py:38-39, 77-78, 115-116, 162-163, 209-210):
`list.index` raises ValueError for an absent element, numpy raises IndexError outside the table, a missing argument is a TypeError. -/
def payoffFunc (table : List (List Rat)) (l1 l2 : List Outcome) (d1 d2 : Node) : Func := fun pv =>
  match pv d1, pv d2 with
  | some x, some y =>
    if x ∈ l1 ∧ y ∈ l2 then
      match table[l1.idxOf x]? with
      | none => .error .index
      | some row =>
        match row[l2.idxOf y]? with
        | none => .error .index
        | some r => .ok (.val r)
    else .error .value
  | _, _ => .error .type

/-- the body shared by the five functions (story_macids.py:25-42, 64-81, 102-119, 149-166, 196-213): a MACID with two decisions and two
utilities, where the second decision observes the first one if `seen`. -/
def tableGame (s : Seats) (seen : Bool) (l1 l2 : List Outcome) (A B : List (List Rat)) : Py Net :=
  match Macid.init ((if seen then [(s.d1, s.d2)] else []) ++ [(s.d1, s.u1), (s.d1, s.u2), (s.d2, s.u2), (s.d2, s.u1)])
      [(s.p1, [s.d1]), (s.p2, [s.d2])] [(s.p1, [s.u1]), (s.p2, [s.u2])] with
  | .error e => .error e
  | .ok m =>
    match (Net.mk m [] [] [] Macid.new).addCpds
        [(s.d1, .seq l1), (s.d2, .seq l2), (s.u1, .func (payoffFunc A l1 l2 s.d1 s.d2)), (s.u2, .func (payoffFunc B l1 l2 s.d1 s.d2))] with
    | (_, .error e) => .error e
    | (net, .ok _) => .ok net

/-- `np.transpose` of a square table with two rows -/
def transpose2 (t : List (List Rat)) : List (List Rat) := [t.map (fun r => r.getD 0 0), t.map (fun r => r.getD 1 0)]

/-- `prisoners_dilemma` (story_macids.py:8-42); 0 is "c", 1 is "d" -/
def prisonersDilemma : Py Net := tableGame .numbered false [0, 1] [0, 1] [[-1, -3], [0, -2]] (transpose2 [[-1, -3], [0, -2]])

/-- `battle_of_the_sexes` (story_macids.py:45-81); 0 is "O", 1 is "F" -/
def battleOfTheSexes : Py Net := tableGame .couple false [0, 1] [0, 1] [[3, 0], [0, 2]] [[2, 0], [0, 3]]

/-- `matching_pennies` (story_macids.py:84-119); 0 is "H", 1 is "T" -/
def matchingPennies : Py Net := tableGame .numbered false [0, 1] [0, 1] [[1, -1], [-1, 1]] [[-1, 1], [1, -1]]

/-- `taxi_competition` (story_macids.py:122-166); 0 is "e", 1 is "c" -/
def taxiCompetition : Py Net := tableGame .numbered true [0, 1] [0, 1] [[2, 5], [3, 1]] (transpose2 [[2, 5], [3, 1]])

/-- `modified_taxi_competition` (story_macids.py:169-213); 0 is "e", 1 is "c" -/
def modifiedTaxiCompetition : Py Net := tableGame .numbered true [0, 1] [0, 1] [[2, 5], [3, 1]] [[2, 3], [5, 5]]

/-- `two_agent_one_pne` (simple_macids.py:143-169); the tables are indexed by the choices themselves, which are their positions -/
def twoAgentOnePne : Py Net := tableGame .numbered false [0, 1] [0, 1] [[1, 3], [0, 2]] [[2, 0], [3, 2]]

/-- `two_agents_three_actions` (simple_macids.py:238-274); 0, 1, 2 are "T", "M", "B" and "L", "C", "R" -/
def twoAgentsThreeActions : Py Net :=
  tableGame .numbered false [0, 1, 2] [0, 1, 2] [[4, 5, 6], [2, 8, 3], [3, 9, 2]] [[3, 1, 2], [1, 4, 6], [0, 6, 8]]

/-- `basic_different_dec_cardinality` (simple_macids.py:277-294) -/
def differentCardinality : Py Net := tableGame .counted true [0, 1] [0, 1, 2] [[3, 1, 0], [1, 2, 3]] [[1, 2, 1], [1, 0, 3]]

/-- `TabularCPD(v, len(rows), rows, evidence, evidence_card)` without state names: the outcomes are 0, 1, … -/
def plainTable (v : Node) (rows : List (List Rat)) (evidence : List Node) (card : List Nat) : Cpd :=
  ⟨v, (List.range rows.length).map (fun i => (i : Rat)), evidence, card,
    (List.range card.prod).map (fun j => rows.map (fun r => r.getD j 0)), .tabular, fun _ => .error .type, none⟩

/-- the body shared by the games with tabular utilities (simple_macids.py:115-119, 138, 186-190, 207, 225-229, 234) -/
def tabularGame (seen : Bool) (rels : List (Node × Rel)) : Py Net :=
  match Macid.init ((if seen then [("D1", "D2")] else []) ++ [("D1", "U1"), ("D1", "U2"), ("D2", "U2"), ("D2", "U1")])
      [(0, ["D1"]), (1, ["D2"])] [(0, ["U1"]), (1, ["U2"])] with
  | .error e => .error e
  | .ok m =>
    match (Net.mk m [] [] [] Macid.new).addCpds rels with
    | (_, .error e) => .error e
    | (net, .ok _) => .ok net

/-- the relationships of `basic2agent_tie_break` (simple_macids.py:121-138) -/
def tieBreakRels : List (Node × Rel) :=
  [("D1", .seq [0, 1]), ("D2", .seq [0, 1]),
    ("U1", .tab (plainTable "U1" [[0, 1, 0, 0], [0, 0, 0, 1], [0, 0, 0, 0], [1, 0, 1, 0], [0, 0, 0, 0], [0, 0, 0, 0]] ["D1", "D2"] [2, 2])),
    ("U2", .tab (plainTable "U2" [[0, 0, 0, 0], [1, 0, 0, 0], [0, 0, 1, 1], [0, 0, 0, 0], [0, 0, 0, 0], [0, 1, 0, 0]] ["D1", "D2"] [2, 2]))]

/-- the relationships of `two_agent_two_pne`, positional ones first (simple_macids.py:192-207) -/
def twoPneRels : List (Node × Rel) :=
  [("U1", .tab (plainTable "U1" [[0, 0, 0, 0], [1, 0, 0, 0], [0, 0, 1, 0], [0, 0, 0, 1], [0, 1, 0, 0]] ["D1", "D2"] [2, 2])),
    ("U2", .tab (plainTable "U2" [[0, 0, 0, 0], [1, 0, 0, 0], [0, 1, 0, 0], [0, 0, 0, 1], [0, 0, 1, 0]] ["D1", "D2"] [2, 2])),
    ("D1", .seq [0, 1]), ("D2", .seq [0, 1])]

/-- the relationships of `two_agent_no_pne` (simple_macids.py:231-234) -/
def noPneRels : List (Node × Rel) :=
  [("U1", .tab (plainTable "U1" [[0, 1, 1, 0], [1, 0, 0, 1]] ["D1", "D2"] [2, 2])),
    ("U2", .tab (plainTable "U2" [[1, 0, 0, 1], [0, 1, 1, 0]] ["D1", "D2"] [2, 2])), ("D1", .seq [0, 1]), ("D2", .seq [0, 1])]

/-- `basic2agent_tie_break` (simple_macids.py:114-140) -/
def tieBreak : Py Net := tabularGame true tieBreakRels

/-- `two_agent_two_pne` (simple_macids.py:172-208) -/
def twoAgentTwoPne : Py Net := tabularGame false twoPneRels

/-- `two_agent_no_pne` (simple_macids.py:211-235) -/
def twoAgentNoPne : Py Net := tabularGame false noPneRels

/-- `lambda …: c * x1 * x2 * …`, where every factor is the argument itself or, if `flip`, `1 - 2 * argument` (simple_macids.py:335-341);
a missing argument is a TypeError -/
def factorsFunc (c : Rat) (flip : Bool) (ds : List Node) : Func := fun pv =>
  match ds.mapM pv with
  | none => .error .type
  | some xs => .ok (.val (c * (xs.map (fun x => if flip then 1 - 2 * x else x)).prod))

/-- the edges of `subgame_mixed_spe` (simple_macids.py:302-322) -/
def mixedSpeEdges : List (Node × Node) :=
  [("D1", "U1"), ("D2", "U1"), ("D3", "U1"), ("D2", "U2"), ("D2", "U3"), ("D3", "U3"), ("D3", "U2"), ("D4", "U4"), ("D4", "U5"),
    ("D5", "U5"), ("D5", "U4"), ("D4", "U1"), ("D5", "U1"), ("D6", "U6"), ("D6", "U7"), ("D7", "U7"), ("D7", "U6"), ("D6", "U1"), ("D7", "U1")]

/-- simple_macids.py:323 -/
def mixedSpeDecisions : Dict Agent (List Node) :=
  [(1, ["D1"]), (2, ["D2"]), (3, ["D3"]), (4, ["D4"]), (5, ["D5"]), (6, ["D6"]), (7, ["D7"])]

/-- simple_macids.py:324 -/
def mixedSpeUtilities : Dict Agent (List Node) :=
  [(1, ["U1"]), (2, ["U2"]), (3, ["U3"]), (4, ["U4"]), (5, ["U5"]), (6, ["U6"]), (7, ["U7"])]

/-- simple_macids.py:327-342 -/
def mixedSpeRels : List (Node × Rel) :=
  [("D1", .seq [0, 1]), ("D2", .seq [0, 1]), ("D3", .seq [0, 1]), ("D4", .seq [0, 1]), ("D5", .seq [0, 1]), ("D6", .seq [0, 1]),
    ("D7", .seq [0, 1]), ("U1", .func (factorsFunc 1 false ["D1", "D2", "D3", "D4", "D5", "D6", "D7"])),
    ("U2", .func (factorsFunc 1 true ["D2", "D3"])), ("U3", .func (factorsFunc (-1) true ["D2", "D3"])),
    ("U4", .func (factorsFunc 1 true ["D4", "D5"])), ("U5", .func (factorsFunc (-1) true ["D4", "D5"])),
    ("U6", .func (factorsFunc 1 true ["D6", "D7"])), ("U7", .func (factorsFunc (-1) true ["D6", "D7"]))]

/-- `subgame_mixed_spe` (simple_macids.py:297-343) -/
def subgameMixedSpe : Py Net :=
  match Macid.init mixedSpeEdges mixedSpeDecisions mixedSpeUtilities with
  | .error e => .error e
  | .ok m =>
    match (Net.mk m [] [] [] Macid.new).addCpds mixedSpeRels with
    | (_, .error e) => .error e
    | (net, .ok _) => .ok net

end Verif

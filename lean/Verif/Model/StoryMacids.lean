import Verif.Model.SimpleCids

/-!
# The multi-agent diagrams of `pycid.examples` that have no CPDs
-/

namespace Verif

/-- the constructor call `MACID(edges, agent_decisions, agent_utilities)` without `add_cpds` (macid_base.py:68-93) -/
def macidOf (edges : List (Node × Node)) (ad au : Dict Agent (List Node)) : Py Net :=
  match Macid.init edges ad au with
  | .error e => .error e
  | .ok m => .ok ⟨m, [], [], [], Macid.new⟩

/-- `get_basic_subgames` (simple_macids.py:7-39) -/
def basicSubgames : Py Net :=
  macidOf [("D11", "U11"), ("D11", "U2"), ("D11", "D12"), ("X1", "U11"), ("X1", "D11"), ("X1", "D2"), ("X1", "U3"), ("D2", "U2"), ("D2", "U3"), ("D2", "D3"),
      ("D3", "U2"), ("D3", "U3"), ("D12", "U3"), ("D12", "U22"), ("X2", "U22"), ("X2", "D12")]
    [(0, ["D11", "D12"]), (1, ["D2"]), (2, ["D3"])] [(0, ["U11"]), (1, ["U2", "U22"]), (2, ["U3"])]

/-- `get_basic_subgames2` (simple_macids.py:42-73) -/
def basicSubgames2 : Py Net :=
  macidOf [("X2", "U3"), ("X2", "D1"), ("D3", "U3"), ("D3", "U2"), ("D1", "U1"), ("D1", "U2"), ("D2", "U1"), ("D2", "U2"), ("D4", "U1"), ("D4", "D2"),
      ("D4", "U4"), ("X1", "D4"), ("X1", "U4")]
    [(1, ["D1"]), (2, ["D2"]), (3, ["D3"]), (4, ["D4"])] [(1, ["U1"]), (2, ["U2"]), (3, ["U3"]), (4, ["U4"])]

/-- `get_basic_subgames3` (simple_macids.py:76-102) -/
def basicSubgames3 : Py Net :=
  macidOf [("D4", "U4"), ("D2", "U4"), ("D3", "U4"), ("D2", "U2"), ("D3", "U3"), ("D1", "U2"), ("D1", "U3"), ("D1", "U1")]
    [(1, ["D1"]), (2, ["D2"]), (3, ["D3"]), (4, ["D4"])] [(1, ["U1"]), (2, ["U2"]), (3, ["U3"]), (4, ["U4"])]

/-- `tree_doctor` (story_macids.py:268-287) -/
def treeDoctor : Py Net :=
  macidOf [("PT", "E"), ("PT", "TS"), ("PT", "BP"), ("TS", "TDoc"), ("TS", "TDead"), ("TDead", "V"), ("TDead", "Tree"), ("TDoc", "TDead"), ("TDoc", "Cost"),
      ("TDoc", "BP"), ("BP", "V")]
    [(0, ["PT", "BP"]), (1, ["TDoc"])] [(0, ["E", "V"]), (1, ["Tree", "Cost"])]

/-- `forgetful_movie_star` (story_macids.py:290-305) -/
def forgetfulMovieStar : Py Net :=
  macidOf [("S", "D11"), ("S", "D12"), ("D2", "U2"), ("D2", "U11"), ("D11", "U2"), ("D11", "U11"), ("D11", "U12"), ("D12", "U12")]
    [(1, ["D11", "D12"]), (2, ["D2"])] [(1, ["U11", "U12"]), (2, ["U2"])]

/-- `subgame_difference` (story_macids.py:308-325) -/
def subgameDifference : Py Net :=
  macidOf [("N", "D1"), ("N", "U1_A"), ("N", "U2_A"), ("D1", "U1_A"), ("D1", "U2_A"), ("D1", "U1_B"), ("D1", "U2_B"), ("D1", "D2"), ("D2", "U1_B"), ("D2", "U2_B")]
    [(1, ["D1"]), (2, ["D2"])] [(1, ["U1_A", "U1_B"]), (2, ["U2_A", "U2_B"])]

/-- `politician` (story_macids.py:393-399) -/
def politician : Py Net :=
  macidOf [("D1", "I"), ("T", "I"), ("T", "U2"), ("I", "D2"), ("R", "D2"), ("D2", "U1"), ("D2", "U2")] [(1, ["D1"]), (2, ["D2"])] [(1, ["U1"]), (2, ["U2"])]

end Verif

import Verif.Model.Random

/-!
# Random CIDs and MACIDs (pycid/random/random_cid.py, pycid/random/random_macid.py)
-/

namespace Verif
namespace Random

/-- `random_macid` with `add_cpds=False` (random_macid.py:10-70); `MACID(…)` is the constructor of `MACIDBase` -/
def randomMacid (pick : Pick) (ord : SetOrder) (w : Wanted) (maxAttempts : Nat) (ω : Draws) : Run Macid :=
  match randomMacidBase pick ord w maxAttempts ω with
  | none => none
  | some (.error e) => some (.error e)
  | some (.ok (mb, ω)) =>
    match Macid.init mb.g.edgesView mb.agentDecisions mb.agentUtilities with
    | .error e => some (.error e)
    | .ok m => some (.ok (m, ω))

/-- `"D" + str(i)` (random_cid.py:68) -/
def cidDecName (i : Nat) : Node := "D" ++ toString i

/-- `"U" + str(i)` (random_cid.py:69) -/
def cidUtilName (i : Nat) : Node := "U" ++ toString i

/-- `DAG(edges)` for edges without a cycle (random_cid.py:63) -/
def dagOf (es : List (Node × Node)) : Graph := es.foldl (fun h e => h.nxAddEdge e.1 e.2) Graph.empty

/-- `random_cid` with `add_cpds=False` (random_cid.py:13-79); `CID(edges, decisions, utilities)` is the constructor of `MACIDBase`
for agent 0 (cid.py:13-36) -/
def randomCid (pick : Pick) (ord : SetOrder) (n decs utils : Nat) (recall : Bool) (density : Rat) (maxIn : Int) (maxAttempts : Nat)
    (ω : Draws) : Run Macid :=
  match randomMacidBase pick ord ⟨n, [decs], [utils], recall, density, maxIn⟩ maxAttempts ω with
  | none => none
  | some (.error e) => some (.error e)
  | some (.ok (mb, ω)) =>
    let ds := renames cidDecName mb.decisions
    let us := renames cidUtilName mb.utilities
    let dag := relabel (dagOf mb.g.edgesView) (update (update [] ds) us)
    match Macid.init dag.edgesView [(0, ds.map (·.2))] [(0, us.map (·.2))] with
    | .error e => some (.error e)
    | .ok m => some (.ok (m, ω))

/-- `random.randint(*range)` for one draw: both bounds are included; ValueError for an empty range -/
def randint (range : Nat × Nat) (r : Nat) : Py Nat :=
  if range.2 < range.1 then .error .value else .ok (range.1 + r % (range.2 - range.1 + 1))

/-- `random.choices(range(*range), k=k)`: the upper bound is not included; IndexError for an empty range -/
def choices (range : Nat × Nat) : Nat → Draws → Run (List Nat)
  | 0, ω => some (.ok ([], ω))
  | k + 1, ω =>
    match ω with
    | [] => none
    | r :: ω =>
      match choice (List.range' range.1 (range.2 - range.1)) r with
      | .error e => some (.error e)
      | .ok x =>
        match choices range k ω with
        | none => none
        | some (.error e) => some (.error e)
        | some (.ok (xs, ω)) => some (.ok (x :: xs, ω))

/-- the loop of `random_cids` (random_cid.py:94-109); every round uses draws, so `fuel` is enough if it is more than the length of the
tape.  `add_cpds` does not matter for the test of sufficient recall. -/
def cidsLoop (pick : Pick) (ord : SetOrder) (tpick : List Node → Nat) (total decs utils : Nat × Nat) (recall : Bool) (density : Rat)
    (n : Nat) : Nat → List Macid → Draws → Run (List Macid)
  | 0, _, _ => none
  | fuel + 1, cids, ω =>
    if n ≤ cids.length then some (.ok (cids, ω))
    else
      match ω with
      | r1 :: r2 :: r3 :: ω =>
        match randint total r1, randint decs r2, randint utils r3 with
        | .error e, _, _ => some (.error e)
        | .ok _, .error e, _ => some (.error e)
        | .ok _, .ok _, .error e => some (.error e)
        | .ok nAll, .ok nd, .ok nu =>
          match randomCid pick ord nAll nd nu recall density 4 1000 ω with
          | none => none
          | some (.error e) => some (.error e)
          | some (.ok (cid, ω)) =>
            match Macid.sufficientRecall pick tpick cid none with
            | .error e => some (.error e)
            | .ok true => cidsLoop pick ord tpick total decs utils recall density n fuel (cids ++ [cid]) ω
            | .ok false => cidsLoop pick ord tpick total decs utils recall density n fuel cids ω
      | _ => none

/-- `random_cids` (random_cid.py:82-111) -/
def randomCids (pick : Pick) (ord : SetOrder) (tpick : List Node → Nat) (total decs utils : Nat × Nat) (recall : Bool) (density : Rat)
    (n : Nat) (ω : Draws) : Run (List Macid) := cidsLoop pick ord tpick total decs utils recall density n (ω.length + 1) [] ω

/-- the loop of `random_macids` (random_macid.py:85-101) -/
def macidsLoop (pick : Pick) (ord : SetOrder) (tpick : List Node → Nat) (total decs utils : Nat × Nat) (recall : Bool) (density : Rat)
    (n : Nat) : Nat → List Macid → Draws → Run (List Macid)
  | 0, _, _ => none
  | fuel + 1, macids, ω =>
    if n ≤ macids.length then some (.ok (macids, ω))
    else
      match ω with
      | r1 :: r2 :: ω =>
        match randint total r1, randint (1, 3) r2 with
        | .error e, _ => some (.error e)
        | .ok _, .error e => some (.error e)
        | .ok nAll, .ok agents =>
          match choices decs agents ω with
          | none => none
          | some (.error e) => some (.error e)
          | some (.ok (ds, ω)) =>
            match choices utils agents ω with
            | none => none
            | some (.error e) => some (.error e)
            | some (.ok (us, ω)) =>
              match randomMacid pick ord ⟨nAll, ds, us, recall, density, 4⟩ 5000 ω with
              | none => none
              | some (.error e) => some (.error e)
              | some (.ok (m, ω)) =>
                match Macid.sufficientRecall pick tpick m none with
                | .error e => some (.error e)
                | .ok true => macidsLoop pick ord tpick total decs utils recall density n fuel (macids ++ [m]) ω
                | .ok false => macidsLoop pick ord tpick total decs utils recall density n fuel macids ω
      | _ => none

/-- `random_macids` (random_macid.py:73-103) -/
def randomMacids (pick : Pick) (ord : SetOrder) (tpick : List Node → Nat) (total decs utils : Nat × Nat) (recall : Bool) (density : Rat)
    (n : Nat) (ω : Draws) : Run (List Macid) := macidsLoop pick ord tpick total decs utils recall density n (ω.length + 1) [] ω

end Random
end Verif

import Verif.Model.Macid
import Verif.Model.Paths

/-!
# pycid/analyze/reasoning_patterns.py

A Python set of nodes (`effective_set`) is a list; where it is iterated, the order is an oracle.  The iteration order of the sets
built inside `find_all_undir_paths` is the oracle `ord` of Model/Paths.lean.
-/

namespace Verif

/-- a loop over `xs` whose body may `return`: `none` means that the loop ran to its end -/
def firstM {α β : Type} (f : α → Py (Option β)) : List α → Py (Option β)
  | [] => .ok none
  | x :: xs =>
    match f x with
    | .error e => .error e
    | .ok (some b) => .ok (some b)
    | .ok none => firstM f xs

/-- the loop of `_get_key_node` over the middle nodes (reasoning_patterns.py:19-23) -/
def keyNodeLoop (g : Graph) (path : List Node) : List Node → Py Node
  | [] => .error .value
  | b :: bs =>
    match getMotif g path (path.idxOf b) with
    | .error e => .error e
    | .ok m => if m = .fork then .ok b else keyNodeLoop g path bs

/-- `_get_key_node` (reasoning_patterns.py:17-23) -/
def getKeyNode (g : Graph) (path : List Node) : Py Node := keyNodeLoop g path path.tail.dropLast

/-- `_path_is_effective` (reasoning_patterns.py:36-40) -/
def pathIsEffective (m : Macid) (path effective : List Node) : Bool :=
  path.tail.all (fun v => decide (v ∉ m.decisions ∨ v ∈ effective))

/-- `_effective_dir_path_exists` (reasoning_patterns.py:26-28) -/
def effectiveDirPathExists (m : Macid) (s t : Node) (effective : List Node) : Py Bool :=
  match findAllDirPaths m.g s t with
  | .error e => .error e
  | .ok ps => .ok (ps.any (fun p => pathIsEffective m p effective))

/-- `_directed_effective_path_not_through_set_y` (reasoning_patterns.py:43-52) -/
def directedEffectivePathNotThrough (m : Macid) (s t : Node) (effective y : List Node) : Py Bool :=
  match findAllDirPaths m.g s t with
  | .error e => .error e
  | .ok ps => .ok (ps.any (fun p => y.all (fun v => decide (v ∉ p)) && pathIsEffective m p effective))

/-- `_effective_backdoor_path_not_blocked_by_set_w` (reasoning_patterns.py:55-67).  `path[1]` raises IndexError on a one-node
path. -/
def effectiveBackdoorPath (ord : SetOrder) (m : Macid) (s t : Node) (effective w : List Node) : Py (Option (List Node)) :=
  match findAllUndirPaths ord m.g s t with
  | .error e => .error e
  | .ok ps => firstM (fun p =>
      match p with
      | a :: b :: _ =>
        match isActivePath m.g p w with
        | .error e => .error e
        | .ok act => .ok (if (decide (b ∈ m.g.parents a) && act && pathIsEffective m p effective) = true then some p else none)
      | _ => .error .index) ps

/-- `_effective_undir_path_not_blocked_by_set_w` (reasoning_patterns.py:70-82) -/
def effectiveUndirPath (ord : SetOrder) (m : Macid) (s t : Node) (effective w : List Node) : Py (Option (List Node)) :=
  match findAllUndirPaths ord m.g s t with
  | .error e => .error e
  | .ok ps => firstM (fun p =>
      match isActivePath m.g p w with
      | .error e => .error e
      | .ok act => .ok (if (act && pathIsEffective m p effective) = true then some p else none)) ps

/-- `macid.decision_agent[decision]` and `macid.agent_utilities[agent]` (reasoning_patterns.py:91-92, 112-113, 123-124) -/
def utilitiesOfOwner (m : Macid) (d : Node) : Py (List Node) :=
  match m.decisionAgent.get d with
  | .error e => .error e
  | .ok a => m.agentUtilities.get a

/-- `direct_effect` (reasoning_patterns.py:85-97) -/
def directEffect (m : Macid) (d : Node) : Py Bool :=
  match utilitiesOfOwner m d with
  | .error e => .error e
  | .ok us => anyM (fun u => directedDecisionFreePath m.g m.decisions d u) us

/-- `reachable_decisions` (reasoning_patterns.py:114-120, 150-156, 202-208) -/
def reachableDecisions (m : Macid) (d : Node) (effective : List Node) : Py (List Node) :=
  filterM' (fun e => if e ∈ effective then directedDecisionFreePath m.g m.decisions d e else .ok false) (m.decisions.erase d)

/-- `manipulation` (reasoning_patterns.py:100-132) -/
def manipulation (m : Macid) (d : Node) (effective : List Node) : Py Bool :=
  match checkAll effective m.g.hasNode .key with
  | .error e => .error e
  | .ok _ =>
    match utilitiesOfOwner m d with
    | .error e => .error e
    | .ok us =>
      match reachableDecisions m d effective with
      | .error e => .error e
      | .ok reach => anyM (fun b =>
          match utilitiesOfOwner m b with
          | .error e => .error e
          | .ok ubs => anyM (fun u =>
              match effectiveDirPathExists m b u effective with
              | .error e => .error e
              | .ok false => .ok false
              | .ok true => anyM (fun ub => directedEffectivePathNotThrough m d ub effective [b]) ubs) us) reach

/-- `{decision_b}` and the parents of it that are not descendants of the given node (reasoning_patterns.py:158, 167-168, 179-181,
210, 220-221) -/
def condNodes (g : Graph) (b d : Node) : List Node := b :: (g.parents b).filter (fun v => decide (v ∉ g.descendants d))

/-- the body of the innermost loop of `signaling` (reasoning_patterns.py:167-184).  A key node whose name is the empty string is
falsy: the function returns False. -/
def signalingStep (ord : SetOrder) (m : Macid) (d : Node) (effective : List Node) (b u ub : Node) : Py (Option Bool) :=
  match effectiveBackdoorPath ord m d ub effective (condNodes m.g b d) with
  | .error e => .error e
  | .ok none => .ok none
  | .ok (some path) =>
    match getKeyNode m.g path with
    | .error e => .error e
    | .ok key =>
      if key = "" then .ok (some false)
      else
        match effectiveUndirPath ord m key u effective (condNodes m.g d key) with
        | .error e => .error e
        | .ok none => .ok none
        | .ok (some _) => .ok (some true)

/-- `signaling` (reasoning_patterns.py:135-186); `nx.descendants` raises for an unknown node -/
def signaling (ord : SetOrder) (m : Macid) (d : Node) (effective : List Node) : Py Bool :=
  match checkAll effective m.g.hasNode .key with
  | .error e => .error e
  | .ok _ =>
    match utilitiesOfOwner m d with
    | .error e => .error e
    | .ok us =>
      match reachableDecisions m d effective with
      | .error e => .error e
      | .ok reach =>
        if d ∉ m.g.nodes then .error .nx
        else match firstM (fun b =>
          match utilitiesOfOwner m b with
          | .error e => .error e
          | .ok ubs => firstM (fun u =>
              match effectiveDirPathExists m b u effective with
              | .error e => .error e
              | .ok false => .ok none
              | .ok true => firstM (signalingStep ord m d effective b u) ubs) us) reach with
        | .error e => .error e
        | .ok none => .ok false
        | .ok (some r) => .ok r

/-- `revealing_or_denying` (reasoning_patterns.py:189-225); `nx.descendants` raises for an unknown node -/
def revealingOrDenying (ord : SetOrder) (m : Macid) (d : Node) (effective : List Node) : Py Bool :=
  match checkAll effective m.g.hasNode .key with
  | .error e => .error e
  | .ok _ =>
    match utilitiesOfOwner m d with
    | .error e => .error e
    | .ok us =>
      match reachableDecisions m d effective with
      | .error e => .error e
      | .ok reach => if d ∉ m.g.nodes then .error .nx else anyM (fun b =>
          match utilitiesOfOwner m b with
          | .error e => .error e
          | .ok ubs => anyM (fun u =>
              match effectiveDirPathExists m b u effective with
              | .error e => .error e
              | .ok false => .ok false
              | .ok true => anyM (fun ub => isActiveIndirectFrontdoorTrail ord m.g d ub (condNodes m.g b d)) ubs) us) reach

/-- `a or b` where both may raise -/
def orPy (a : Py Bool) (b : Unit → Py Bool) : Py Bool :=
  match a with
  | .error e => .error e
  | .ok true => .ok true
  | .ok false => b ()

/-- the condition of the set comprehension (reasoning_patterns.py:241-244) -/
def motivated (ord : SetOrder) (m : Macid) (effective : List Node) (d : Node) : Py Bool :=
  orPy (directEffect m d) (fun _ => orPy (manipulation m d effective) (fun _ => orPy (signaling ord m d effective)
    (fun _ => revealingOrDenying ord m d effective)))

/-- the `while True` loop (reasoning_patterns.py:237-249); `none`: not finished within the given number of rounds -/
def refineLoop (ord : SetOrder) (setOrd : List Node → List Node) (m : Macid) : Nat → List Node → Py (Option (List Node))
  | 0, _ => .ok none
  | k + 1, effective =>
    match filterM' (motivated ord m effective) (setOrd effective) with
    | .error e => .error e
    | .ok new => if new.length = effective.length then .ok (some effective) else refineLoop ord setOrd m k new

/-- the dictionary returned by `get_reasoning_patterns` -/
structure Motivations where
  dirEffect : List Node := []
  sig : List Node := []
  manip : List Node := []
  revDen : List Node := []
  deriving DecidableEq, Repr

/-- the body of the last loop (reasoning_patterns.py:252-259) -/
def classify (ord : SetOrder) (m : Macid) (effective : List Node) (acc : Motivations) (d : Node) : Py Motivations :=
  match directEffect m d with
  | .error e => .error e
  | .ok true => .ok { acc with dirEffect := acc.dirEffect ++ [d] }
  | .ok false =>
    match signaling ord m d effective with
    | .error e => .error e
    | .ok true => .ok { acc with sig := acc.sig ++ [d] }
    | .ok false =>
      match manipulation m d effective with
      | .error e => .error e
      | .ok true => .ok { acc with manip := acc.manip ++ [d] }
      | .ok false =>
        match revealingOrDenying ord m d effective with
        | .error e => .error e
        | .ok true => .ok { acc with revDen := acc.revDen ++ [d] }
        | .ok false => .ok acc

/-- the last loop (reasoning_patterns.py:251-259) -/
def classifyLoop (ord : SetOrder) (m : Macid) (effective : List Node) : Motivations → List Node → Py Motivations
  | acc, [] => .ok acc
  | acc, d :: ds =>
    match classify ord m effective acc d with
    | .error e => .error e
    | .ok acc' => classifyLoop ord m effective acc' ds

/-- `get_reasoning_patterns` (reasoning_patterns.py:228-261), the `while` loop being given `rounds` rounds -/
def getReasoningPatterns (rounds : Nat) (ord : SetOrder) (setOrd : List Node → List Node) (m : Macid) : Py (Option Motivations) :=
  match refineLoop ord setOrd m rounds m.decisions with
  | .error e => .error e
  | .ok none => .ok none
  | .ok (some effective) =>
    match classifyLoop ord m effective {} (setOrd effective) with
    | .error e => .error e
    | .ok acc => .ok (some acc)

end Verif

import Verif.Model.Policy
import Verif.Model.Macid
import Mathlib.Algebra.Order.Ring.Rat
import Mathlib.Algebra.Order.Group.Abs

/-!
# Optimal decision rules (pycid/core/macid_base.py:311-400, pycid/core/cid.py:38-68)
-/

namespace Verif
open Macid
namespace Net

/-- the loop of `opt_policy` (macid_base.py:394-396): expected utility of every action, in the order of the
domain. `copy` changes with every query. -/
def actionValues (pick : Pick) (ord : List Node → List Node) (us : List Node) (ctx : List (Node × Outcome)) (d : Node) :
    Net → List Outcome → Net × Py (List (Outcome × Rat))
  | copy, [] => (copy, .ok [])
  | copy, x :: xs =>
    match copy.expectedValue pick ord us (ctx ++ [(d, x)]) [] with
    | (copy, .error e) => (copy, .error e)
    | (copy, .ok l) =>
      match actionValues pick ord us ctx d copy xs with
      | (copy, .error e) => (copy, .error e)
      | (copy, .ok rest) => (copy, .ok ((x, l.sum) :: rest))

/-- keep the first of the largest -/
def maxBy : Outcome × Rat → List (Outcome × Rat) → Outcome
  | best, [] => best.1
  | best, p :: rest => if best.2 < p.2 then maxBy p rest else maxBy best rest

/-- `max(eu, key=eu.get)` (macid_base.py:397): the first key with the largest value; ValueError if empty. -/
def argmax : List (Outcome × Rat) → Py Outcome
  | [] => .error .value
  | p :: rest => .ok (maxBy p rest)

/-- `opt_policy` (macid_base.py:391-397) for one context -/
def optAction (pick : Pick) (ord : List Node → List Node) (us : List Node) (d : Node) (dom : List Outcome)
    (ps : List Node) (copy : Net) (vals : List Outcome) : Net × Py Outcome :=
  match actionValues pick ord us (ps.zip vals) d copy dom with
  | (copy, .error e) => (copy, .error e)
  | (copy, .ok eu) => (copy, argmax eu)

/-- The calls of `opt_policy` made by `StochasticFunctionCPD.__init__`, one for every context in product order.
The results are kept by `lru_cache(maxsize=1000)`; with more than 1000 contexts they are computed again, with
the same result (`C47_same_again`). -/
def optTable (pick : Pick) (ord : List Node → List Node) (us : List Node) (d : Node) (dom : List Outcome)
    (ps : List Node) : Net → List (List Outcome) → Net × Py (List (List Outcome × Outcome))
  | copy, [] => (copy, .ok [])
  | copy, vals :: rest =>
    match optAction pick ord us d dom ps copy vals with
    | (copy, .error e) => (copy, .error e)
    | (copy, .ok x) =>
      match optTable pick ord us d dom ps copy rest with
      | (copy, .error e) => (copy, .error e)
      | (copy, .ok t) => (copy, .ok ((vals, x) :: t))

/-- `opt_policy` as seen by the CPD: the cached results. TypeError if the arguments are others than the parents. -/
def optFunc (ps : List Node) (t : List (List Outcome × Outcome)) : Func := fun pv =>
  match Dict.get? t (ps.map (fun p => (pv p).getD 0)) with
  | some x => .ok (.val x)
  | none => .error .type

/-- `impute_optimal_decision` (macid_base.py:383-400).  `setOrd` is the order in which Python lists the set of
descendant utility nodes. -/
def imputeOptimal (pick : Pick) (ord setOrd : List Node → List Node) (net : Net) (d : Node) : Net × Py Unit :=
  match net.imputeRandom d with
  | (n1, .error e) => (n1, .error e)
  | (n1, .ok _) =>
    match n1.domain.get d with
    | .error e => (n1, .error e)
    | .ok dom =>
      match n1.m.decisionAgent.get d with
      | .error e => (n1, .error e)
      | .ok agent =>
        match n1.m.agentUtilities.get agent with
        | .error e => (n1, .error e)
        | .ok utils =>
          let us := setOrd (utils.filter (fun u => decide (u ∈ n1.g.descendants d))).dedup
          match n1.copy with
          | .error e => (n1, .error e)
          | .ok copy =>
            match parentDoms (n1.g.parents d) n1.domain with
            | .error e => (n1, .error e)
            | .ok ds =>
              match (optTable pick ord us d dom (n1.g.parents d) copy (product ds)).2 with
              | .error e => (n1, .error e)
              | .ok t =>
                match n1.newRule d (optFunc (n1.g.parents d) t) dom with
                | .error e => (n1, .error e)
                | .ok c => n1.set d (.tab c)

/-- `macid.add_cpds(*policy)` (macid_base.py:347): every CPD under its own variable -/
def addPolicy (net : Net) (policy : List Cpd) : Net × Py Unit := net.addCpds (policy.map (fun c => (c.var, .tab c)))

/-- `math.isclose(a, b, rel_tol=tol)` (Python's math module), with `abs_tol = 0`; `none` is `float("-inf")`, to which
no finite number is close.  ValueError for a negative tolerance. -/
def isClose (tol a : Rat) (b : Option Rat) : Py Bool :=
  if tol < 0 then .error .value
  else
    match b with
    | none => .ok false
    | some b => .ok (decide (|a - b| ≤ tol * max |a| |b|))

/-- `expected_utility > max_utility` -/
def exceeds (a : Rat) : Option Rat → Bool
  | none => true
  | some b => decide (b < a)

/-- the loop of `optimal_pure_policies` (macid_base.py:344-353); returns `optimal_policies`.  `macid` keeps the rules of
the previous policy and what its queries removed. -/
def policyLoop (pick : Pick) (ord : List Node → List Node) (tol : Rat) (agent : Agent) :
    Net → Option Rat → List (List Cpd) → List (List Cpd) → Py (List (List Cpd))
  | _, _, best, [] => .ok best
  | macid, top, best, policy :: rest =>
    match macid.addPolicy policy with
    | (_, .error e) => .error e
    | (macid, .ok _) =>
      match macid.expectedUtility pick ord [] [] agent with
      | (_, .error e) => .error e
      | (macid, .ok eu) =>
        match isClose tol eu top with
        | .error e => .error e
        | .ok true => policyLoop pick ord tol agent macid top (best ++ [policy]) rest
        | .ok false =>
          if exceeds eu top then policyLoop pick ord tol agent macid (some eu) [policy] rest
          else policyLoop pick ord tol agent macid top best rest

/-- body of the loop macid_base.py:335-342: a decision without rule that is not relevant gets the random rule -/
def mixIrrelevant (pick : Pick) (ds : List Node) (macid : Net) (d : Node) : Net × Py Unit :=
  match macid.getCpd d with
  | .error e => (macid, .error e)
  | .ok none => (macid, .ok ())
  | .ok (some c) =>
    if c.kind = .decision then
      match isSReachable pick macid.m ds d with
      | .error e => (macid, .error e)
      | .ok true => (macid, .ok ())
      | .ok false => if d ∈ ds then (macid, .ok ()) else macid.imputeRandom d
    else (macid, .ok ())

/-- `self.pure_decision_rules(d)` (macid_base.py:282-309) in the network: KeyError without domain, NetworkXError from
`get_parents` for a variable that is not a node -/
def pureRules (net : Net) (d : Node) : Py (List Cpd) :=
  match net.domain.get d with
  | .error e => .error e
  | .ok _ => if d ∈ net.g.nodes then pureDecisionRules d (net.g.parents d) net.domain net.card else .error .nx

/-- `(agent,) = {self.decision_agent[d] for d in decisions}` (macid_base.py:330-333): KeyError for something that is not
a decision, ValueError unless all agents are the same -/
def soleAgent (m : Macid) (ds : List Node) : Py Agent :=
  match mapPy (fun d => m.decisionAgent.get d) ds with
  | .error e => .error e
  | .ok as =>
    match as.dedup with
    | [a] => .ok a
    | _ => .error .value

/-- `optimal_pure_policies` (macid_base.py:318-354).  `setOrd` is the order in which Python lists `set(decisions)`.
Numbers are exact here, floats in Python. -/
def optimalPurePolicies (pick : Pick) (ord setOrd : List Node → List Node) (tol : Rat) (net : Net) (decisions : List Node) :
    Py (List (List Cpd)) :=
  if decisions = [] then .ok []
  else
    let ds := setOrd decisions.dedup
    match soleAgent net.m ds with
    | .error e => .error e
    | .ok agent =>
      match net.copy with
      | .error e => .error e
      | .ok copy =>
        match forNet (mixIrrelevant pick ds) copy copy.m.decisions with
        | (_, .error e) => .error e
        | (macid, .ok _) =>
          match purePolicies macid.pureRules ds with
          | .error e => .error e
          | .ok policies => policyLoop pick ord tol agent macid none [] policies

/-- `optimal_pure_decision_rules` (macid_base.py:356-360) -/
def optimalPureRules (pick : Pick) (ord setOrd : List Node → List Node) (net : Net) (d : Node) : Py (List Cpd) :=
  match optimalPurePolicies pick ord setOrd (1 / 1000000000) net [d] with
  | .error e => .error e
  | .ok l => mapPy (fun p => match p.head? with | some c => .ok c | none => .error .index) l

/-- `CID.optimal_policies` (cid.py:48-53) -/
def optimalPolicies (pick : Pick) (ord setOrd : List Node → List Node) (net : Net) : Py (List (List Cpd)) :=
  optimalPurePolicies pick ord setOrd (1 / 1000000000) net net.m.decisions

/-- `random.choice(l)`: IndexError for an empty list, otherwise an arbitrary element, the position of which is given by
the oracle `rnd`. -/
def randomChoice {α : Type} (rnd : Nat) : List α → Py α
  | [] => .error .index
  | x :: xs => .ok ((x :: xs).getD (rnd % (xs.length + 1)) x)

/-- `CID.impute_optimal_policy` (cid.py:38-46) -/
def imputeOptimalPolicy (pick : Pick) (tpick : List Node → Nat) (ord setOrd : List Node → List Node) (rnd : Nat) (net : Net) :
    Net × Py Unit :=
  match net.imputeMixed with
  | (n1, .error e) => (n1, .error e)
  | (n1, .ok _) =>
    match Macid.sufficientRecall pick tpick n1.m none with
    | .error e => (n1, .error e)
    | .ok true =>
      match n1.m.getValidOrder tpick (some n1.m.decisions) with
      | .error e => (n1, .error e)
      | .ok order => forNet (imputeOptimal pick ord setOrd) n1 order.reverse
    | .ok false =>
      match n1.optimalPolicies pick ord setOrd with
      | .error e => (n1, .error e)
      | .ok l =>
        match randomChoice rnd l with
        | .error e => (n1, .error e)
        | .ok policy => n1.addPolicy policy

/-- `CID.solve` (cid.py:60-68) -/
def solve (pick : Pick) (tpick : List Node → Nat) (ord setOrd : List Node → List Node) (rnd : Nat) (net : Net) :
    Py (Dict Node (Option Cpd)) :=
  match net.copy with
  | .error e => .error e
  | .ok copy =>
    match copy.imputeOptimalPolicy pick tpick ord setOrd rnd with
    | (_, .error e) => .error e
    | (new, .ok _) =>
      mapPy (fun d => match new.getCpd d with | .error e => .error e | .ok c => .ok (d, c)) new.m.decisions

end Net
end Verif

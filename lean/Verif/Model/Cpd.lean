import Verif.Model.Graph
import Mathlib.Data.List.Sort
import Mathlib.Data.Rat.Defs
import Mathlib.Algebra.Order.Ring.Rat

/-!
# pycid/core/cpd.py

Outcomes and probabilities are rational numbers.  (Python: any hashable, comparable values for
outcomes, floats for probabilities.)
-/

namespace Verif

/-- The type alias `Outcome` (cpd.py:11). Simplification: numbers only. -/
abbrev Outcome := Rat

/-- Keyword arguments `**pv`. Only looking up a name is possible, as for a function with named
parameters: the order in which keywords are passed is not observable. -/
abbrev PV := Node → Option Outcome

/-- What a user function may return: a mapping outcome -> probability or `None`, or a bare outcome. -/
inductive Ret
  | dist (d : Dict Outcome (Option Rat))
  | val (o : Outcome)
  deriving DecidableEq, Repr

/-- A user supplied (stochastic) function; it may raise. -/
abbrev Func := PV → Py Ret

/-- `StochasticFunctionCPD.stochastic_function` (cpd.py:126-131). -/
def stochasticFunction (f : Func) (pv : PV) : Py (Dict Outcome (Option Rat)) :=
  match f pv with
  | .error e => .error e
  | .ok (.dist d) => .ok d
  | .ok (.val o) => .ok [(o, some 1)]

/-- `itertools.product(*ls)` -/
def product {α : Type} : List (List α) → List (List α)
  | [] => [[]]
  | l :: ls => l.flatMap (fun x => (product ls).map (x :: ·))

/-- `{p: parent_values[i] for i, p in enumerate(parents)}` passed as keyword arguments. -/
def pvOf (ps : List Node) (vals : List Outcome) : PV := fun p => Dict.get? (ps.zip vals) p

/-- `self.cbn.model.domain[p]`, with the KeyError turned into ParentsNotReadyException
(cpd.py:172-177). -/
def domOf (dom : Dict Node (List Outcome)) (p : Node) : Py (List Outcome) :=
  match dom.get? p with
  | none => .error .parentsNotReady
  | some l => .ok l

/-- The domains of the parents, or ParentsNotReadyException (cpd.py:172-177). -/
def parentDoms (parents : List Node) (dom : Dict Node (List Outcome)) : Py (List (List Outcome)) :=
  mapPy (domOf dom) parents

/-- `StochasticFunctionCPD.parent_values` (cpd.py:170-179). -/
def parentValues (parents : List Node) (dom : Dict Node (List Outcome)) : Py (List PV) :=
  match parentDoms parents dom with
  | .error e => .error e
  | .ok ds => .ok ((product ds).map (pvOf parents))

/-- `StochasticFunctionCPD.possible_values` (cpd.py:181-185). -/
def possibleValues (f : Func) (pvs : List PV) : Py (List Outcome) :=
  match mapPy (stochasticFunction f) pvs with
  | .error e => .error e
  | .ok ds => .ok ((ds.flatMap Dict.keys).dedup.insertionSort (· ≤ ·))

/-- `complete_prob_dictionary` (cpd.py:93-102). The iteration order of `missing_outcomes` is
irrelevant: all of them get the same value. -/
def completeProb (domain : List Outcome) (d : Dict Outcome (Option Rat)) : Dict Outcome Rat :=
  let d' : Dict Outcome Rat := d.filterMap (fun p => p.2.map (fun v => (p.1, v)))
  let missing := domain.dedup.filter (fun x => decide (x ∉ d'.keys))
  let mass := 1 - (d'.map (·.2)).sum
  d' ++ missing.map (fun x => (x, mass / missing.length))

/-- One column of the matrix: `[probabilities[t] for t in self.domain]` (cpd.py:109-110). -/
def column (domain : List Outcome) (d : Dict Outcome (Option Rat)) : Py (List Rat) :=
  mapPy (fun t => (completeProb domain d).get t) domain

/-- The column for one instantiation of the parents (cpd.py:104-111). -/
def colFor (f : Func) (domain : List Outcome) (pv : PV) : Py (List Rat) :=
  match stochasticFunction f pv with
  | .error e => .error e
  | .ok d => column domain d

/-- `np.allclose(column sum, 1, rtol=0, atol=0.01)` (cpd.py:112) for one column. -/
def colClose (c : List Rat) : Bool := decide (c.sum - 1 ≤ 1 / 100 ∧ 1 - c.sum ≤ 1 / 100)

/-- all entries in `[0, 1]` (cpd.py:114) for one column. -/
def colRange (c : List Rat) : Bool := c.all (fun x => decide (0 ≤ x ∧ x ≤ 1))

/-- The class of a CPD object. -/
inductive CpdKind
  | tabular      -- pgmpy TabularCPD
  | stochastic   -- StochasticFunctionCPD
  | constant     -- ConstantCPD
  | decision     -- DecisionDomain
  deriving DecidableEq, Repr

/-- A CPD object: pgmpy's `TabularCPD` with the attributes pycid adds. `table` lists the columns of
the probability matrix in the order of `itertools.product` over the evidence. -/
structure Cpd where
  var : Node
  domain : List Outcome
  evidence : List Node
  evCard : List Nat
  table : List (List Rat)
  kind : CpdKind
  func : Func
  force : Option (List Outcome)

/-- Does a list-valued option count as "given" (Python truth value of `None` and `[]` is False). -/
def truthy (o : Option (List Outcome)) : Option (List Outcome) :=
  match o with
  | some (x :: xs) => some (x :: xs)
  | _ => none

/-- The domain chosen at cpd.py:87-91. -/
def chooseDomain (force : Option (List Outcome)) (possible : List Outcome) : Py (List Outcome) :=
  match truthy force with
  | some l => if possible.all (fun x => decide (x ∈ l)) then .ok l else .error .value
  | none => .ok possible

/-- `StochasticFunctionCPD.__init__` (cpd.py:45-124).  `parents`, `dom` and `card` are what the
network answers for `get_parents(variable)`, `model.domain` and `get_cardinality(p)`.
pgmpy's `TabularCPD.__init__` raises ValueError for a matrix of the wrong shape and for repeated
state names.  Not modelled: labels; the `state_names` argument (used only by `copy`, which passes
names that agree with the domain). -/
def mkCpd (kind : CpdKind) (v : Node) (f : Func) (force : Option (List Outcome))
    (parents : List Node) (dom : Dict Node (List Outcome)) (card : Node → Py Nat) : Py Cpd :=
  match parentValues parents dom with
  | .error e => .error e
  | .ok pvs =>
    match possibleValues f pvs with
    | .error e => .error e
    | .ok possible =>
      match chooseDomain force possible with
      | .error e => .error e
      | .ok domain =>
        match mapPy card parents with
        | .error e => .error e
        | .ok cards =>
          match mapPy (colFor f domain) pvs with
          | .error e => .error e
          | .ok cols =>
            if cols.all colClose = false then .error .value
            else if cols.all colRange = false then .error .value
            else if cols.length ≠ cards.prod then .error .value
            else if ¬ domain.Nodup then .error .value
            else .ok ⟨v, domain, parents, cards, cols, kind, f, force⟩

/-- `ConstantCPD.__init__` (cpd.py:221-230). -/
def constFunc (d : Dict Outcome (Option Rat)) : Func := fun _ => .ok (.dist d)

/-- The column of a CPD for given evidence values; `doms` are the state names of the evidence. -/
def Cpd.col (c : Cpd) (doms : List (List Outcome)) (vals : List Outcome) : Option (List Rat) :=
  Dict.get? ((product doms).zip c.table) vals

/-- The entry `P(variable = x | evidence = vals)` of the table (pgmpy indexes by state names). -/
def Cpd.entry (c : Cpd) (doms : List (List Outcome)) (vals : List Outcome) (x : Outcome) : Option Rat :=
  (c.col doms vals).bind (fun col => Dict.get? (c.domain.zip col) x)

/-- The same entry when `dom` holds the current state names of all variables, as after
`sync_state_names` (causal_bayesian_network.py:70-73). -/
def Cpd.prob (c : Cpd) (dom : Dict Node (List Outcome)) (vals : List Outcome) (x : Outcome) : Option Rat :=
  c.entry (c.evidence.map (fun p => (dom.get? p).getD [])) vals x

/-- `bernoulli` (cpd.py:259-261) -/
def bernoulli (p : Rat) : Dict Outcome (Option Rat) := [(0, some (1 - p)), (1, some p)]

/-- `discrete_uniform` (cpd.py:264-266): a dict comprehension, so duplicates collapse. -/
def discreteUniform (domain : List Outcome) : Dict Outcome (Option Rat) :=
  domain.foldl (fun d o => Dict.set d o (some (1 / (domain.length : Rat)))) []

/-- `noisy_copy` (cpd.py:269-275); `dict.fromkeys(domain)` maps everything to None. -/
def noisyCopy (value : Outcome) (p : Rat) (domain : Option (List Outcome)) : Dict Outcome (Option Rat) :=
  let base : Dict Outcome (Option Rat) := match truthy domain with
    | some l => l.foldl (fun d o => Dict.set d o none) []
    | none => []
  Dict.set base value (some p)

/-! ### The signature check -/

/-- Parameter kinds of `inspect.Parameter` that matter. -/
inductive ParamKind
  | positionalOrKeyword
  | varKeyword
  deriving DecidableEq, Repr

/-- Something `inspect.signature` is applied to: a user function with its parameters, or the bound
method `self.stochastic_function(**pv)` wrapping a user function. -/
inductive Callable
  | user (params : List (Node × ParamKind))
  | boundStochasticFunction (inner : List (Node × ParamKind))
  deriving DecidableEq, Repr

/-- `inspect.signature(callable).parameters` -/
def signature : Callable → List (Node × ParamKind)
  | .user ps => ps
  | .boundStochasticFunction _ => [("pv", .varKeyword)]

/-- The test of `check_function_arguments_match_parent_names` (cpd.py:159-168) applied to a callable. -/
def argsCheck (c : Callable) (parents : List Node) : Py Unit :=
  let sig := signature c
  if ¬ (ParamKind.varKeyword ∈ sig.map (·.2)) ∧
      ¬ ((sig.map (·.1)).all (fun a => decide (a ∈ parents)) ∧
         parents.all (fun a => decide (a ∈ sig.map (·.1)))) then .error .value
  else .ok ()

/-- `check_function_arguments_match_parent_names` (cpd.py:159-168): it inspects
`self.stochastic_function`, not `self.func`. -/
def checkFunctionArguments (params : List (Node × ParamKind)) (parents : List Node) : Py Unit :=
  argsCheck (.boundStochasticFunction params) parents

/-! ### Pure decision rules -/

/-- `name_to_no[pv[parent]] * prod(parent_cardinalities[:i])` summed over the parents
(macid_base.py:294-301). `rank` is the running product of cardinalities. -/
def arg2idxAux : List (Node × List Outcome) → Nat → PV → Py Nat
  | [], _, _ => .ok 0
  | (p, d) :: rest, radix, pv =>
    match pv p with
    | none => .error .key
    | some x =>
      if x ∈ d then
        match arg2idxAux rest (radix * d.length) pv with
        | .error e => .error e
        | .ok i => .ok (d.idxOf x * radix + i)
      else .error .key

/-- `arg2idx` (macid_base.py:294-301). -/
def arg2idx (parents : List Node) (doms : List (List Outcome)) (pv : PV) : Py Nat :=
  arg2idxAux (parents.zip doms) 1 pv

/-- The lambda of `produce_function` (macid_base.py:305-307). -/
def ruleFunc (parents : List Node) (doms : List (List Outcome)) (tuple : List Outcome) : Func :=
  fun pv =>
    match arg2idx parents doms pv with
    | .error e => .error e
    | .ok i =>
      match tuple[i]? with
      | none => .error .index
      | some x => .ok (.val x)

/-- The tuples of `pure_decision_rules` (macid_base.py:289-292): `itertools.product(domain, repeat=n)`. -/
def ruleTuples (domain : List Outcome) (doms : List (List Outcome)) : List (List Outcome) :=
  product (List.replicate ((doms.map List.length).prod) domain)

/-- `pure_decision_rules` (macid_base.py:282-309), all rules in order. `name_to_no` of a parent is
taken from the current domains. -/
def pureDecisionRules (v : Node) (parents : List Node) (dom : Dict Node (List Outcome))
    (card : Node → Py Nat) : Py (List Cpd) :=
  match dom.get? v with
  | none => .error .key
  | some domain =>
    match mapPy card parents with
    | .error e => .error e
    | .ok _ =>
      match parentDoms parents dom with
      | .error e => .error e
      | .ok doms =>
        mapPy (fun t => mkCpd .stochastic v (ruleFunc parents doms t) (some domain) parents dom card)
          (ruleTuples domain doms)

/-- `pure_policies` (macid_base.py:311-316): `itertools.product` of the rules of each decision. -/
def purePolicies (rules : Node → Py (List Cpd)) (decisions : List Node) : Py (List (List Cpd)) :=
  match mapPy rules decisions with
  | .error e => .error e
  | .ok rs => .ok (product rs)

end Verif

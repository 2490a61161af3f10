import Verif.Model.Efg
import Verif.Spec.Prob
import Verif.Spec.Macid
import Verif.Spec.Policy

/-!
# The game tree of a network
-/

namespace Verif

/-- `idx` is the position reached when the nodes `vs`, in this order, have taken the outcomes `xs`: at each node the branch with the
number of the outcome is followed -/
inductive At (dom : Node → List Outcome) : List Node → List Nat → List Outcome → Prop
  | root : At dom [] [] []
  | branch {v : Node} {vs : List Node} {i : Nat} {idx : List Nat} {x : Outcome} {xs : List Outcome} :
      (dom v)[i]? = some x → At dom vs idx xs → At dom (v :: vs) (i :: idx) (x :: xs)

/-- the values that `a` gives to the nodes `vs` -/
def Given (vs : List Node) (a : Assign) : List (Node × Outcome) := vs.map (fun v => (v, a v))

namespace Net

/-- every two nodes are joined -/
def Joined (g : Graph) : Prop := ∀ u ∈ g.nodes, ∀ v ∈ g.nodes, g.Connected u v

/-- no two decisions of one agent have the same list of parents -/
def Distinct (net : Net) (decs : List Node) : Prop :=
  ∀ d ∈ decs, ∀ d' ∈ decs, net.m.decisionAgent.get? d = net.m.decisionAgent.get? d' → net.g.parents d = net.g.parents d' → d = d'

/-- what the agent can expect, given the context: the sum of the conditional means of the agent's utility nodes -/
def Worth (net : Net) (ctx : List (Node × Outcome)) (agent : Agent) : Rat :=
  (((net.m.agentUtilities.get? agent).getD []).map (net.Mean [] ctx)).sum

/-- `t` is the game tree in which the nodes are instantiated in the order `nodes` -/
structure IsTree (net : Net) (decs : List Node) (agents : List Agent) (nodes : List Node) (t : Efg) : Prop where
  players : t.players = agents
  /-- what a node depends on has been decided before -/
  closed : ∀ vs v post, nodes = vs ++ v :: post → ∀ p, net.g.Edge p v → p ∈ vs
  /-- where all nodes before `v` have been instantiated and `v` is a chance node, chance moves as the CPD of `v` says -/
  chance : ∀ vs v post, nodes = vs ++ v :: post → v ∉ decs → ∀ a idx, At net.dom vs idx (vs.map a) →
    t.moves.get? idx = some (.chance (net.dom v) ((net.dom v).map (fun x => net.kernel v (Assign.upd a v x))))
  /-- where `v` is a decision, its owner moves -/
  decision : ∀ vs v post, nodes = vs ++ v :: post → v ∈ decs → ∀ a idx, At net.dom vs idx (vs.map a) →
    ∃ agent i s, net.m.role v = .decision agent ∧ agent ∈ agents ∧ t.moves.get? idx = some (.decision i) ∧
      t.infosets[i]? = some s ∧ s.player = agent ∧ t.keys.get? (agent, Given (net.g.parents v) a) = some i
  /-- nobody moves elsewhere -/
  noMore : ∀ idx mv, t.moves.get? idx = some mv → ∃ vs v post a, nodes = vs ++ v :: post ∧ At net.dom vs idx (vs.map a)
  /-- where all nodes have been instantiated everybody gets what they can expect -/
  payoff : ∀ a idx, At net.dom nodes idx (nodes.map a) → t.payoffs.get? idx = some (agents.map (net.Worth (Given nodes a)))
  /-- the instantiations are possible -/
  possible : ∀ a idx, At net.dom nodes idx (nodes.map a) → net.P (Ctx (Given nodes a)) ≠ 0
  /-- payoffs are given nowhere else -/
  noMorePayoffs : ∀ idx r, t.payoffs.get? idx = some r → ∃ a, At net.dom nodes idx (nodes.map a)
  /-- different keys are different information sets -/
  keys : ∀ k k' i, t.keys.get? k = some i → t.keys.get? k' = some i → k = k'

/-- what the information sets say: the player, the label and, if every decision of an agent can be recognised by what it observes,
the actions -/
def Labelled (net : Net) (decs : List Node) (t : Efg) : Prop :=
  ∀ k i, t.keys.get? k = some i → ∃ s, t.infosets[i]? = some s ∧ s.player = k.1 ∧
    ∃ d a, d ∈ decs ∧ net.m.decisionAgent.get? d = some k.1 ∧ k.2 = Given (net.g.parents d) a ∧ s.label = d ∧
      (net.Distinct decs → s.actions = net.dom d)

/-- a behaviour strategy profile of the game: a distribution over the actions of every information set -/
def IsBehavior (t : Efg) (b : Behavior) : Prop :=
  ∀ (i : Nat) (s : Infoset), t.infosets[i]? = some s → (b i).length = s.actions.length ∧ (∀ x ∈ b i, 0 ≤ x) ∧ (b i).sum = 1

/-- the nodes of the game tree: the decisions and what they observe -/
def InTree (net : Net) (decs : List Node) (v : Node) : Prop := v ∈ decs ∨ ∃ d ∈ decs, net.g.Edge v d

/-- the games for which there is a tree -/
structure Treeable (net : Net) (decs : List Node) (agents : List Agent) : Prop where
  names : Macid.NamesOk net.g
  joined : Joined net.g
  /-- the decisions belong to the players -/
  owners : ∀ d ∈ decs, ∃ agent ∈ agents, net.m.role d = .decision agent
  /-- what is observed does not depend on anything that is not in the tree -/
  closed : ∀ v, net.InTree decs v → ∀ p, net.g.Edge p v → net.InTree decs p
  distinct : net.Distinct decs
  /-- the other decisions have been taken -/
  decided : ∀ d ∈ net.m.decisions, d ∉ decs → net.undecided d = false
  /-- nothing in the tree has a CPD that is a plain table -/
  notTabular : ∀ v, net.InTree decs v → ∀ c, net.cpds.get? v = some c → c.kind ≠ .tabular
  /-- every player has a utility node, and it is not in the tree -/
  utilities : ∀ agent ∈ agents, ∃ us, net.m.agentUtilities.get? agent = some us ∧ us ≠ [] ∧ ∀ u ∈ us, u ∈ net.g.nodes ∧ ¬ net.InTree decs u
  /-- whatever happens in the tree can happen -/
  possible : ∀ nodes : List Node, (∀ v ∈ nodes, net.InTree decs v) → ∀ a : Assign, (∀ v ∈ nodes, a v ∈ net.dom v) →
    net.P (Ctx (Given nodes a)) ≠ 0

end Net

/-- the probabilities of the branches when the players behave as `b` says -/
def odds (b : Behavior) : Move → List Rat
  | .decision i => b i
  | .chance _ ps => ps

/-- what the player with number `j` can expect at a position of the game when the players behave as `b` says: the payoff at the end,
before it the mean of what can be expected at the next positions -/
inductive Efg.Value (t : Efg) (b : Behavior) (j : Nat) : List Nat → Rat → Prop
  | leaf {idx : List Nat} {rs : List Rat} {r : Rat} : t.moves.get? idx = none → t.payoffs.get? idx = some rs → rs[j]? = some r →
      Value t b j idx r
  | move {idx : List Nat} {mv : Move} {rs : List Rat} : t.moves.get? idx = some mv → rs.length = (odds b mv).length →
      (∀ (i : Nat) (r : Rat), rs[i]? = some r → Value t b j (idx ++ [i]) r) →
      Value t b j idx ((List.zipWith (· * ·) (odds b mv) rs).sum)

namespace Net

/-- the decision rules of `net` are what `b` says at the information sets of the game `t` -/
def PlaysAs (net : Net) (decs : List Node) (t : Efg) (b : Behavior) : Prop :=
  ∀ d ∈ decs, ∀ agent, net.m.role d = .decision agent → ∀ a, (∀ p, net.g.Edge p d → a p ∈ net.dom p) → ∀ i,
    t.keys.get? (agent, Given (net.g.parents d) a) = some i → b i = (net.dom d).map (fun x => net.kernel d (Assign.upd a d x))

/-- a Nash equilibrium of the game: no player gains by behaving differently at their own information sets -/
def IsNash (t : Efg) (b : Behavior) : Prop :=
  ∀ (j : Nat) (agent : Agent), t.players[j]? = some agent → ∀ b', IsBehavior t b' →
    (∀ (i : Nat) (s : Infoset), t.infosets[i]? = some s → s.player ≠ agent → b' i = b i) →
    ∀ r r', t.Value b j [] r → t.Value b' j [] r' → r' ≤ r

/-- a Nash equilibrium among the decisions `decs` of a network: no agent gains by different rules for their own decisions -/
def NoGain (net : Net) (decs : List Node) (agents : List Agent) : Prop :=
  ∀ agent ∈ agents, ∀ net', net'.Usable → OnlyRules net (decs.filter (fun d => decide (net.m.role d = .decision agent))) net' →
    net'.EU agent ≤ net.EU agent

/-- what the solvers are trusted to do: whatever they return is, after the conversion, a Nash equilibrium of the game -/
def SoundSolvers (run : Efg → Solver → Py (List Behavior)) (conv : Behavior → Behavior) : Prop :=
  ∀ t s bs, run t s = .ok bs → ∀ b ∈ bs, ∀ b', b' = (if s = .lp ∨ s = .lcp then b else conv b) → IsBehavior t b' ∧ IsNash t b'

end Net
end Verif

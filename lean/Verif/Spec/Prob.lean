import Verif.Spec.Net

/-!
# Probabilities of events

`P net E` is the textbook definition: the sum of the product of all CPD entries over the assignments
in `E`.  `PDo net ints E` is the truncated factorisation.
-/

namespace Verif

/-- joined by a path of edges in any direction -/
def Graph.Connected (g : Graph) (u v : Node) : Prop := Relation.ReflTransGen g.Adj u v

namespace Net

/-- probability of an event -/
def P (net : Net) (E : Assign → Bool) : Rat :=
  sumOver net.dom net.g.nodes (fun a => if E a then (net.g.nodes.map (fun v => net.kernel v a)).prod else 0)
    (fun _ => 0)

/-- probability of an event when the listed variables are set from outside: the CPDs of the listed
variables are left out and only assignments that agree with the listed values count -/
def PDo (net : Net) (ints : List (Node × Outcome)) (E : Assign → Bool) : Rat :=
  sumOver net.dom net.g.nodes (fun a => if E a ∧ ∀ p ∈ ints, a p.1 = p.2 then
    ((net.g.nodes.filter (fun v => decide (v ∉ ints.map (·.1)))).map (fun v => net.kernel v a)).prod else 0)
    (fun _ => 0)

/-- "the variables have these values" -/
def Has (vars : List Node) (xs : List Outcome) (a : Assign) : Bool := decide (vars.map a = xs)

/-- "the variables have the listed values" -/
def Ctx (ctx : List (Node × Outcome)) (a : Assign) : Bool := ctx.all (fun p => decide (a p.1 = p.2))

/-- CPD entries are non-negative and the entries of a column sum to exactly 1 -/
def Normalised (net : Net) : Prop :=
  ∀ v ∈ net.g.nodes, ∀ a, net.InDom a → 0 ≤ net.kernel v a ∧
    ((net.dom v).map (fun x => net.kernel v (Assign.upd a v x))).sum = 1

/-- Correctness of a factor: it lists one value per combination of outcomes of its variables, the
conditional probability of that combination (`wE / wF`). -/
def IsConditional (f : Factor) (vars : List Node) (dom : Node → List Outcome) (p : (Assign → Bool) → Rat)
    (given_ : Assign → Bool) : Prop :=
  f.vars.Perm vars ∧ f.states = f.vars.map dom ∧
    f.values = (product f.states).map (fun xs =>
      if p given_ = 0 then none else some (p (fun a => Has f.vars xs a && given_ a) / p given_))

/-- conditional expectation of a variable: the values of its outcomes weighted by their probability given
the context and under the intervention -/
def Mean (net : Net) (int ctx : List (Node × Outcome)) (v : Node) : Rat :=
  ((net.dom v).map (fun x => x * (net.PDo int (fun a => decide (a v = x) && Ctx ctx a) / net.PDo int (Ctx ctx)))).sum

/-- A network ready to be queried: sound, exact probabilities, consistent roles, copies of copies work. -/
structure Usable (net : Net) : Prop where
  good : net.Good
  normalised : net.Normalised
  roles : net.m.Consistent
  base : net.base = Macid.new ∨ net.base = Macid.newCid
  staffed : net.Staffed

/-- an intervention that names listed outcomes of different nodes and is handled correctly (C36) -/
def IntOk (net : Net) (int : List (Node × Outcome)) : Prop :=
  (int.map (·.1)).Nodup ∧ ∀ p ∈ int, p.1 ∈ net.g.nodes ∧ p.2 ∈ net.dom p.1 ∧ net.Tame p.1

/-- the graph after cutting the edges into the intervened variables -/
def CutGraph (g : Graph) (xs : List Node) : Graph := ⟨g.nodes, g.edges.filter (fun e => decide (e.2 ∉ xs))⟩

end Net
end Verif

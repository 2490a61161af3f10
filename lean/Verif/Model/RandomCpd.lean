import Verif.Model.Random
import Verif.Model.Net

/-!
# Random distributions (pycid/random/random_cpd.py)

numpy's global generator is a state that programs read and write; a program returns a result, or an exception, and the state it
leaves behind.
-/

namespace Verif
namespace Random

/-- a program that uses numpy's global generator -/
abbrev Prog (σ α : Type) := σ → Py α × σ

namespace Prog

/-- one program after the other; an exception of the first propagates -/
def bind {σ α β : Type} (p : Prog σ α) (k : α → Prog σ β) : Prog σ β := fun s =>
  match p s with
  | (.error e, s) => (.error e, s)
  | (.ok x, s) => k x s

/-- `return x` -/
def ret {σ α : Type} (r : Py α) : Prog σ α := fun s => (r, s)

/-- `try: body finally: last`: `last` is run whether or not `body` raises; its own exception takes precedence -/
def tryFinally {σ α : Type} (body : Prog σ α) (last : Prog σ Unit) : Prog σ α := fun s =>
  match body s with
  | (r, s) =>
    match last s with
    | (.error e, s) => (.error e, s)
    | (.ok _, s) => (r, s)

end Prog

/-- numpy's legacy generator, as far as it is used: the state after seeding with a number, the draws for `randint`, and Dirichlet
sampling, which may raise after any number of draws -/
structure Rng (σ : Type) where
  fromSeed : Nat → σ
  next : σ → Nat × σ
  dirichlet : List Rat → σ → Py (List Rat) × σ

/-- `np.random.get_state()` -/
def getState {σ : Type} : Prog σ σ := fun s => (.ok s, s)

/-- `np.random.set_state(state)` -/
def setState {σ : Type} (state : σ) : Prog σ Unit := fun _ => (.ok (), state)

/-- `np.random.seed(seed)`: ValueError, with the state unchanged, unless `0 ≤ seed < 2**32` -/
def seedWith {σ : Type} (rng : Rng σ) (seed : Int) : Prog σ Unit := fun s =>
  if 0 ≤ seed ∧ seed < 2 ^ 32 then (.ok (), rng.fromSeed seed.toNat) else (.error .value, s)

/-- `with temp_seed(seed): body` (random_cpd.py:11-18); contextlib resumes the generator at `yield`, with the exception if the body
raised -/
def tempSeed {σ α : Type} (rng : Rng σ) (seed : Int) (body : Prog σ α) : Prog σ α :=
  Prog.bind getState (fun state => Prog.bind (seedWith rng seed) (fun _ => Prog.tryFinally body (setState state)))

/-- a `RandomCPD` object (random_cpd.py:21-44) -/
structure RandomCpd where
  seed : Int
  smoothness : Rat
  domain : List Outcome

/-- `RandomCPD.__init__` (random_cpd.py:26-44); `seed or …` and `domain or …` replace also 0 and the empty list -/
def RandomCpd.init {σ : Type} (rng : Rng σ) (domain : Option (List Outcome)) (smoothness : Rat) (seed : Option Int) : Prog σ RandomCpd :=
  fun s =>
    let dom := (truthy domain).getD [0, 1]
    match seed with
    | some (.ofNat (k + 1)) => (.ok ⟨.ofNat (k + 1), smoothness, dom⟩, s)
    | some (.negSucc k) => (.ok ⟨.negSucc k, smoothness, dom⟩, s)
    | _ =>
      let (r, s) := rng.next s
      (.ok ⟨(r % 10000 : Nat), smoothness, dom⟩, s)

/-- `{self.domain[i]: prob for i, prob in enumerate(prob_vec)}` (random_cpd.py:49): IndexError if there are more probabilities than
outcomes -/
def probDict (domain : List Outcome) (probs : List Rat) : Py (Dict Outcome (Option Rat)) :=
  if domain.length < probs.length then .error .index
  else .ok ((domain.zip probs).foldl (fun d p => Dict.set d p.1 (some p.2)) [])

/-- `RandomCPD.__call__` (random_cpd.py:46-49).  `hash` is Python's hash of the set of the keyword arguments; `%` gives a number from 0
on.  Python reads `a + b % 2**31 - 1` as `(a + (b % 2**31)) - 1`. -/
def RandomCpd.call {σ : Type} (rng : Rng σ) (hash : PV → Int) (c : RandomCpd) (pv : PV) : Prog σ (Dict Outcome (Option Rat)) :=
  Prog.bind
    (tempSeed rng (c.seed + hash pv % 2 ^ 31 - 1) (rng.dirichlet (List.replicate c.domain.length c.smoothness)))
    (fun probs => Prog.ret (probDict c.domain probs))

/-- the function a `RandomCPD` object is for the rest of the code: its value does not depend on the state of the generator
(`C74_same_distribution`), so any state will do -/
def RandomCpd.func {σ : Type} (rng : Rng σ) (hash : PV → Int) (c : RandomCpd) : Func := fun pv =>
  match (c.call rng hash pv (rng.fromSeed 0)).1 with
  | .error e => .error e
  | .ok d => .ok (.dist d)

/-- the loop of `add_random_cpds` (random_macidbase.py:117-122) -/
def randomRels {σ : Type} (rng : Rng σ) (hash : PV → Int) (decisions : List Node) : List Node → Prog σ (List (Node × Rel))
  | [] => Prog.ret (.ok [])
  | v :: vs =>
    if v ∈ decisions then
      Prog.bind (randomRels rng hash decisions vs) (fun l => Prog.ret (.ok ((v, Rel.seq [0, 1]) :: l)))
    else
      Prog.bind (RandomCpd.init rng none 1 none) (fun c =>
        Prog.bind (randomRels rng hash decisions vs) (fun l => Prog.ret (.ok ((v, Rel.func (c.func rng hash)) :: l))))

/-- `add_random_cpds` (random_macidbase.py:113-123): the network afterwards.  Assigning CPDs calls the functions, which leave the
generator as it is (`C74_restores_state`). -/
def addRandomCpds {σ : Type} (rng : Rng σ) (hash : PV → Int) (net : Net) : σ → (Net × Py Unit) × σ := fun s =>
  match randomRels rng hash net.m.decisions net.g.nodes s with
  | (.error e, s) => ((net, .error e), s)
  | (.ok l, s) => (net.addCpds l, s)

end Random
end Verif

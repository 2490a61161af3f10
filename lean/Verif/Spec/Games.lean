import Verif.Spec.Policy
import Verif.Spec.Equilibria

/-!
# Two-player games given by payoff tables
-/

namespace Verif

/-- a probability distribution over the listed choices -/
def IsMix (l : List Outcome) (x : Outcome → Rat) : Prop := (∀ a ∈ l, 0 ≤ x a) ∧ (l.map x).sum = 1

/-- the expected payoff when the first player chooses `a` with probability `x a` and the second then chooses `b` with
probability `y a b` -/
def expectedPayoff (l1 l2 : List Outcome) (A : Outcome → Outcome → Rat) (x : Outcome → Rat) (y : Outcome → Outcome → Rat) : Rat :=
  (l1.map (fun a => (l2.map (fun b => x a * y a b * A a b)).sum)).sum

/-- a strategy of the second player: one distribution for each choice of the first, the same for all if the choice is not seen -/
def IsReply (seen : Bool) (l1 l2 : List Outcome) (y : Outcome → Outcome → Rat) : Prop :=
  (∀ a ∈ l1, IsMix l2 (y a)) ∧ (seen = false → ∀ a a' b, y a b = y a' b)

/-- neither player gains by a different strategy -/
def TableEquilibrium (seen : Bool) (l1 l2 : List Outcome) (A B : Outcome → Outcome → Rat) (x : Outcome → Rat)
    (y : Outcome → Outcome → Rat) : Prop :=
  (∀ x', IsMix l1 x' → expectedPayoff l1 l2 A x' y ≤ expectedPayoff l1 l2 A x y) ∧
    ∀ y', IsReply seen l1 l2 y' → expectedPayoff l1 l2 B x y' ≤ expectedPayoff l1 l2 B x y

/-- the expected payoff after the first player chose `a`, when the second chooses `b` with probability `z b` -/
def replyPayoff (l2 : List Outcome) (B : Outcome → Outcome → Rat) (a : Outcome) (z : Outcome → Rat) : Rat :=
  (l2.map (fun b => z b * B a b)).sum

/-- the entry of a payoff table for the choices `x` and `y` -/
def tableEntry (t : List (List Rat)) (l1 l2 : List Outcome) (x y : Outcome) : Rat := (t.getD (l1.idxOf x) []).getD (l2.idxOf y) 0

/-- one row for every choice of the first player, one column for every choice of the second -/
def TableShape (t : List (List Rat)) (l1 l2 : List Outcome) : Prop := t.length = l1.length ∧ ∀ r ∈ t, r.length = l2.length

namespace Net

/-- the probability with which the decision `d`, which observes nothing, takes the value `a` -/
def chooses (net : Net) (d : Node) (a : Outcome) : Rat := net.kernel d (Assign.upd (fun _ => 0) d a)

/-- the probability with which the decision `e` takes the value `b` after `d` took the value `a` -/
def answers (net : Net) (d e : Node) (a b : Outcome) : Rat := net.kernel e (Assign.upd (Assign.upd (fun _ => 0) d a) e b)

end Net
end Verif

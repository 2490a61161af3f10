import Verif.Model.Patterns
import Verif.Spec.Macid

/-!
# Vocabulary for reasoning patterns (the graphical criteria of Pfeffer and Gal as documented in reasoning_patterns.py)
-/

namespace Verif
namespace Macid

/-- a directed path with no decision strictly between its ends -/
def DecisionFree (m : Macid) (s t : Node) : Prop :=
  ∃ mid, m.g.IsDirPath s t (s :: (mid ++ [t])) ∧ ∀ v ∈ mid, ∀ a, m.role v ≠ .decision a

/-- all decisions of the path, except possibly the first node, are in `E` -/
def EffectivePath (m : Macid) (E p : List Node) : Prop := ∀ v ∈ p.tail, ∀ a, m.role v = .decision a → v ∈ E

/-- a directed effective path -/
def EffectiveDir (m : Macid) (E : List Node) (s t : Node) : Prop := ∃ p, m.g.IsDirPath s t p ∧ m.EffectivePath E p

/-- `b` itself and the parents of `b` that are not descendants of `d` -/
def IsCond (m : Macid) (b d : Node) (W : List Node) : Prop := ∀ z, z ∈ W ↔ z = b ∨ (m.g.Edge z b ∧ ¬ m.g.Desc d z)

/-- Conditions 1 and 2 of three of the patterns: a decision-free directed path from `d`, a decision of agent `a`, to another
effective decision `b` of agent `ab`, and a directed effective path from `b` to a utility `u` of agent `a`. -/
structure Sways (m : Macid) (E : List Node) (d : Node) (a : Agent) (b : Node) (ab : Agent) (u : Node) : Prop where
  owner : m.role d = .decision a
  other : b ≠ d
  ownerB : m.role b = .decision ab
  effective : b ∈ E
  free : m.DecisionFree d b
  utility : m.role u = .utility a
  path : m.EffectiveDir E b u

/-- direct effect -/
def DirectEffect (m : Macid) (d : Node) : Prop := ∃ a u, m.role d = .decision a ∧ m.role u = .utility a ∧ m.DecisionFree d u

/-- manipulation: also a directed effective path from `d` to a utility of the owner of `b` that avoids `b` -/
def Manipulates (m : Macid) (E : List Node) (d : Node) : Prop :=
  ∃ a b ab u ub, m.Sways E d a b ab u ∧ m.role ub = .utility ab ∧
    ∃ p, m.g.IsDirPath d ub p ∧ b ∉ p ∧ m.EffectivePath E p

/-- an effective back-door path from `d` to `ub` that is active given `W` -/
structure Backdoor (m : Macid) (E : List Node) (d ub : Node) (W p : List Node) : Prop where
  path : m.g.IsUndirPath d ub p
  into : ∃ n r, p = d :: n :: r ∧ m.g.Edge n d
  active : m.g.Active W p
  effective : m.EffectivePath E p

/-- `c` is the first fork of the path -/
def IsKeyNode (m : Macid) (p : List Node) (c : Node) : Prop :=
  ∃ l x y r, p = l ++ x :: c :: y :: r ∧ m.g.Edge c x ∧ m.g.Edge c y ∧
    ∀ l' x' c' y' r', p = l' ++ x' :: c' :: y' :: r' → m.g.Edge c' x' → m.g.Edge c' y' → l.length ≤ l'.length

/-- condition 4 of signaling: an effective path from the key node to `u` that is active given `d` and the parents of `d` that are
not descendants of the key node -/
def KeyReaches (m : Macid) (E : List Node) (d c u : Node) : Prop :=
  ∃ W q, m.IsCond d c W ∧ m.g.IsUndirPath c u q ∧ m.g.Active W q ∧ m.EffectivePath E q

/-- signaling -/
def Signals (m : Macid) (E : List Node) (d : Node) : Prop :=
  ∃ a b ab u ub, m.Sways E d a b ab u ∧ m.role ub = .utility ab ∧
    ∃ W p c, m.IsCond b d W ∧ m.Backdoor E d ub W p ∧ m.IsKeyNode p c ∧ m.KeyReaches E d c u

/-- an indirect front-door path from `d` to `ub` (it leaves `d` along an edge and has a collider) that is active given `W` -/
structure Frontdoor (m : Macid) (d ub : Node) (W p : List Node) : Prop where
  path : m.g.IsUndirPath d ub p
  out : ∃ n r, p = d :: n :: r ∧ m.g.Edge d n
  active : m.g.Active W p
  collider : ∃ l x c y r, p = l ++ x :: c :: y :: r ∧ m.g.Edge x c ∧ m.g.Edge y c

/-- revealing or denying as it is implemented: the front-door path need not be effective -/
def RevealsLoosely (m : Macid) (E : List Node) (d : Node) : Prop :=
  ∃ a b ab u ub, m.Sways E d a b ab u ∧ m.role ub = .utility ab ∧ ∃ W p, m.IsCond b d W ∧ m.Frontdoor d ub W p

/-- revealing or denying as it is documented -/
def Reveals (m : Macid) (E : List Node) (d : Node) : Prop :=
  ∃ a b ab u ub, m.Sways E d a b ab u ∧ m.role ub = .utility ab ∧ ∃ W p, m.IsCond b d W ∧ m.Frontdoor d ub W p ∧ m.EffectivePath E p

end Macid
end Verif

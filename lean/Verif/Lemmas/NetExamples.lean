import Verif.Lemmas.Net
import Verif.Lemmas.Examples

/-!
# A concrete influence diagram used as a witness
-/

namespace Verif

/-- does a computation raise a given exception -/
def raises {α : Type} (x : Py α) (e : Err) : Bool :=
  match x with
  | .error e' => decide (e' = e)
  | .ok _ => false

theorem errIs {α : Type} {x : Py α} {e : Err} (h : raises x e = true) : x = .error e := by
  cases x with
  | error e' => simp only [raises, decide_eq_true_eq] at h; rw [h]
  | ok a => simp [raises] at h

namespace Ex
open Net

/-- A → D → U, A → U; agent 0 decides D and owns U -/
def m : Macid := ⟨⟨["A", "D", "U"], [("A", "D"), ("D", "U"), ("A", "U")]⟩, [(0, ["D"])], [(0, ["U"])],
  [("D", 0)], [("U", 0)]⟩

/-- without parameters -/
def net0 : Net := ⟨m, [], [], [], Macid.new⟩

/-- U = 1 iff D matches A -/
def utility : Func := fun pv => .ok (.val (if pv "A" = pv "D" then 1 else 0))

/-- relationships, children before parents -/
def rels : List (Node × Rel) :=
  [("U", .func utility), ("D", .seq [0, 1]), ("A", .dist [(0, some (1 / 4)), (1, some (3 / 4))])]

/-- the parameterised network -/
def net : Net := (net0.addCpds rels).1

theorem net_eq : net0.addCpds rels = (net, .ok ()) := by
  have : (net0.addCpds rels).2 = .ok () := by decide +kernel
  unfold net
  rw [← this]

theorem net0_fresh : net0.Fresh := ⟨rfl, rfl, rfl⟩

theorem m_wf : m.g.WF :=
  wf_of_ofEdges (es := [("A", "D"), ("D", "U"), ("A", "U")]) (by decide +kernel)

theorem net0_wf : net0.g.WF := m_wf

theorem rels_honest : ∀ p ∈ rels, Honest p.2 := by
  intro p hp
  simp only [rels, List.mem_cons, List.not_mem_nil, or_false] at hp
  rcases hp with rfl | rfl | rfl
  · intro pv; simp [utility]
  · trivial
  · trivial

end Ex
end Verif

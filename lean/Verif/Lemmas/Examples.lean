import Verif.Lemmas.Trails

/-! Small concrete graphs used to show that hypotheses of the theorems are met. -/

namespace Verif

instance (g : Graph) (a b : Node) : Decidable (g.Edge a b) :=
  inferInstanceAs (Decidable ((a, b) ∈ g.edges))

instance (g : Graph) (a b : Node) : Decidable (g.Adj a b) :=
  inferInstanceAs (Decidable (g.Edge a b ∨ g.Edge b a))

theorem wf_of_ofEdges {g : Graph} {es : List (Node × Node)} (h : Graph.ofEdges es = .ok g) : g.WF :=
  Graph.wf_addEdges Graph.wf_empty h

/-- `A → D → U`, `A → U`, `A → C ← D`, `C → E`. -/
def exG : Graph :=
  ⟨["A", "D", "U", "C", "E"],
   [("A", "D"), ("D", "U"), ("A", "U"), ("A", "C"), ("D", "C"), ("C", "E")]⟩

theorem exG_ofEdges : Graph.ofEdges
    [("A", "D"), ("D", "U"), ("A", "U"), ("A", "C"), ("D", "C"), ("C", "E")] = .ok exG := by
  decide +kernel

theorem exG_wf : exG.WF := wf_of_ofEdges exG_ofEdges

/-- An M-shaped graph: `A → S`, `A → M`, `B → M`, `B → T`, `M → W`. -/
def exM : Graph :=
  ⟨["A", "S", "M", "B", "T", "W"],
   [("A", "S"), ("A", "M"), ("B", "M"), ("B", "T"), ("M", "W")]⟩

theorem exM_ofEdges : Graph.ofEdges
    [("A", "S"), ("A", "M"), ("B", "M"), ("B", "T"), ("M", "W")] = .ok exM := by
  decide +kernel

theorem exM_wf : exM.WF := wf_of_ofEdges exM_ofEdges

theorem ordId_valid : SetOrder.id.Valid := fun _ l => List.Perm.refl l

end Verif

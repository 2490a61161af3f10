import Verif.Lemmas.RandomRecall

/-!
# Adding edges until a decision has sufficient recall of another (C73)
-/

namespace Verif

open Random Macid

namespace Random

theorem mech_start {g mg : Graph} (hw : g.WF) (hn : NamesOk g) (h : mechGraph g = .ok mg) : Mech g mg := by
  obtain ⟨mg', h1, h2, h3, h4⟩ := mechGraph_spec hw (mecFree_of_names hn)
  rw [h1] at h
  cases h
  exact ⟨hw, mecFree_of_names hn, h2, h3, h4⟩

/-- the way to the rounds -/
theorem recall_unfold {pick : Pick} {ord : SetOrder} {mb : Macid} {d1 d2 u : Node} (hw : mb.g.WF) (hn : NamesOk mb.g)
    (h1 : d1 ∈ mb.g.nodes) (hd : ¬ mb.g.DescEq d2 d1) : ∃ mg, Mech mb.g mg ∧
      ∀ ω, addSufficientRecall pick ord mb d1 d2 u ω = recallRounds pick ord d1 d2 u (ω.length + 1) ω mb mg := by
  obtain ⟨mg, hm, _⟩ := mechGraph_spec hw (mecFree_of_names hn)
  refine ⟨mg, mech_start hw hn hm, fun ω => ?_⟩
  unfold addSufficientRecall
  rw [if_neg (by simpa using h1), if_neg, hm]
  intro h
  obtain ⟨w, hw', hd'⟩ := (Graph.mem_ancestorsOf hw).1 h
  simp only [List.mem_singleton] at hw'
  subst hw'
  exact hd hd'

end Random

/-- **C73** If `_add_sufficient_recall(mb, d1, d2, u)` returns, whatever the random choices, then a new parent of `d1` would be d-separated
from the utility given `d2` and its parents; the graph is still acyclic; nodes and roles are unchanged; no edge is lost; and
all new edges lead to `d2`, from nodes that had children before. -/
theorem C73_add_sufficient_recall {pick : Pick} {ord : SetOrder} (ho : ord.Valid) {mb mb' : Macid} {d1 d2 u : Node} {ω ω' : Draws}
    (hw : mb.g.WF) (hn : NamesOk mb.g) (h2 : d2 ∈ mb.g.nodes) (hu : u ∈ mb.g.nodes)
    (h : addSufficientRecall pick ord mb d1 d2 u ω = some (.ok (mb', ω'))) :
    (∀ Z n, (∀ z, z ∈ Z ↔ z = d2 ∨ mb'.g.Edge z d2) → n ∉ mb'.g.nodes → ¬ (mb'.g.withParent n d1).DConn n u Z) ∧
    mb'.g.WF ∧ mb'.g.nodes = mb.g.nodes ∧ mb' = { mb with g := mb'.g } ∧
    (∀ a b, mb.g.Edge a b → mb'.g.Edge a b) ∧
    (∀ a b, mb'.g.Edge a b → mb.g.Edge a b ∨ (b = d2 ∧ ∃ c, mb.g.Edge a c)) := by
  by_cases h1 : d1 ∈ mb.g.nodes
  swap
  · unfold addSufficientRecall at h
    rw [if_pos h1] at h
    simp at h
  by_cases hd : mb.g.DescEq d2 d1
  · unfold addSufficientRecall at h
    rw [if_neg (by simpa using h1), if_pos ((Graph.mem_ancestorsOf hw).2 ⟨d1, by simp, hd⟩)] at h
    simp at h
  obtain ⟨mg, hM, e⟩ := recall_unfold (pick := pick) (ord := ord) (u := u) hw hn h1 hd
  rw [e] at h
  obtain ⟨k1, k2, mg', k3, k4⟩ := rounds_ok ho hM h1 h2 hu h
  refine ⟨?_, k2.wf, k2.nodes, k1, k2.old, k2.new⟩
  exact k3.separated pick (by rw [k2.nodes]; exact h1) (by rw [k2.nodes]; exact h2) (by rw [k2.nodes]; exact hu)
    (by rintro rfl; exact hd .refl) k4

/-- **C73** ValueError if `d1` is not a node, is `d2`, or has `d2` among its ancestors; nothing is drawn. -/
theorem C73_value_error (pick : Pick) (ord : SetOrder) {mb : Macid} {d1 d2 : Node} (u : Node) (ω : Draws) (hw : mb.g.WF)
    (h : d1 ∉ mb.g.nodes ∨ mb.g.DescEq d2 d1) : addSufficientRecall pick ord mb d1 d2 u ω = some (.error .value) := by
  unfold addSufficientRecall
  by_cases h1 : d1 ∈ mb.g.nodes
  · rw [if_neg (by simpa using h1), if_pos]
    exact (Graph.mem_ancestorsOf hw).2 ⟨d1, by simp, h.resolve_left (fun hh => hh h1)⟩
  · rw [if_pos h1]

/-- **C73** In all other cases no exception is raised, if the utility is not `d1` or a parent of it: the graph never becomes
cyclic, and there is always an active path to find and an inner node on it. -/
theorem C73_no_exception (pick : Pick) {ord : SetOrder} (ho : ord.Valid) {mb : Macid} {d1 d2 u : Node} (ω : Draws)
    (hw : mb.g.WF) (hn : NamesOk mb.g) (h1 : d1 ∈ mb.g.nodes) (h2 : d2 ∈ mb.g.nodes) (hu : u ∈ mb.g.nodes) (hd : ¬ mb.g.DescEq d2 d1)
    (hne : u ≠ d1) (he : ¬ mb.g.Edge u d1) (e : Err) : addSufficientRecall pick ord mb d1 d2 u ω ≠ some (.error e) := by
  obtain ⟨mg, hM, e'⟩ := recall_unfold (pick := pick) (ord := ord) (u := u) hw hn h1 hd
  rw [e']
  exact rounds_no_error ho hM ⟨h1, h2, hu, hd, hne, he⟩

/-- **C73** The loops have no dead end: whatever has been drawn so far, some further draws make `_add_sufficient_recall` return. -/
theorem C73_no_dead_end (pick : Pick) {ord : SetOrder} (ho : ord.Valid) {mb : Macid} {d1 d2 u : Node} (ω : Draws)
    (hw : mb.g.WF) (hn : NamesOk mb.g) (h1 : d1 ∈ mb.g.nodes) (h2 : d2 ∈ mb.g.nodes) (hu : u ∈ mb.g.nodes) (hd : ¬ mb.g.DescEq d2 d1)
    (hne : u ≠ d1) (he : ¬ mb.g.Edge u d1) : ∃ ω2 mb' ω', addSufficientRecall pick ord mb d1 d2 u (ω ++ ω2) = some (.ok (mb', ω')) := by
  obtain ⟨mg, hM, e'⟩ := recall_unfold (pick := pick) (ord := ord) (u := u) hw hn h1 hd
  obtain ⟨ω2, mb', ω1, hr⟩ := rounds_live (pick := pick) ho _ (ω := ω) hM ⟨h1, h2, hu, hd, hne, he⟩ le_rfl
  refine ⟨ω2, mb', ω1, ?_⟩
  rw [e']
  have := hr [] ((ω ++ ω2).length + 1) (by simp)
  simpa using this

/-- a decision that forgets another one -/
def exForgetful : Macid :=
  ⟨⟨["D1", "X", "D2", "U"], [("D1", "X"), ("X", "D2"), ("X", "U"), ("D2", "U")]⟩, [(0, ["D1", "D2"])], [(0, ["U"])], [("D1", 0), ("D2", 0)], [("U", 0)]⟩

/-- the hypotheses of C73 are met, and an edge is added -/
theorem C73_example : NamesOk exForgetful.g ∧ ¬ exForgetful.g.Edge "D1" "D2" ∧
    addSufficientRecall (fun _ _ => 0) SetOrder.id { exForgetful with g := ⟨["D1", "D2", "U"], [("D1", "U"), ("D2", "U")]⟩ } "D1" "D2" "U" [0] =
      some (.ok ({ exForgetful with g := ⟨["D1", "D2", "U"], [("D1", "U"), ("D2", "U"), ("D1", "D2")]⟩ }, [])) ∧
    addSufficientRecall (fun _ _ => 0) SetOrder.id exForgetful "D1" "D2" "U" [5] = some (.ok (exForgetful, [5])) := by
  refine ⟨⟨by decide +kernel, by decide +kernel⟩, by simp [Graph.Edge, exForgetful], by decide +kernel, by decide +kernel⟩

end Verif

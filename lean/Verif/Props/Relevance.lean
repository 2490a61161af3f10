import Verif.Props.Structure
import Verif.Lemmas.Condense

/-! # C18-C22: reachability, relevance graphs, subgames -/

namespace Verif
open Graph Macid Relation

/-- **C18** `is_r_reachable` decides the graphical criterion, for all pairs of the two sets. -/
theorem C18_is_r_reachable (m : Macid) (hc : m.Consistent) (hn : NamesOk m.g) (pick : Pick)
    (ds vs : List Node) (hd : ∀ d ∈ ds, m.Playable d) (hv : ∀ v ∈ vs, v ∈ m.g.nodes) :
    ∃ b, isRReachable pick m ds vs = .ok b ∧ (b = true ↔ ∃ d ∈ ds, ∃ v ∈ vs, m.RReach d v) :=
  isRReachable_spec hc (mecFree_of_names hn) pick hd hv

/-- **C18** `is_s_reachable` is the same for a decision `d2`, and an AssertionError otherwise. -/
theorem C18_is_s_reachable (m : Macid) (hc : m.Consistent) (hn : NamesOk m.g) (pick : Pick)
    (ds : List Node) (v : Node) (hd : ∀ d ∈ ds, m.Playable d) :
    ((∃ a, m.role v = .decision a) →
      ∃ b, isSReachable pick m ds v = .ok b ∧ (b = true ↔ ∃ d ∈ ds, m.RReach d v)) ∧
    ((∀ a, m.role v ≠ .decision a) → isSReachable pick m ds v = .error .assertion) := by
  refine ⟨isSReachable_spec hc (mecFree_of_names hn) pick hd, ?_⟩
  intro h
  unfold isSReachable
  rw [if_pos]
  intro hv
  obtain ⟨a, ha⟩ := Dict.mem_keys.1 hv
  exact h a (role_decision.2 ha)

/-- **C18** the fresh parent of the criterion can be any node that is not in the graph, and the
order in which the conditioning set is listed does not matter. -/
theorem C18_fresh_parent_irrelevant (m : Macid) (hc : m.Consistent) (d v : Node)
    (hv : v ∈ m.g.nodes) (hr : m.RReach d v) (n : Node) (hn : n ∉ m.g.nodes) (Z : List Node)
    (hZ : ∀ z, z ∈ Z ↔ z = d ∨ m.g.Edge z d) :
    ∃ a u, m.role d = .decision a ∧ m.role u = .utility a ∧ m.g.Desc d u ∧
      (m.g.withParent n v).DConn n u Z := by
  obtain ⟨a, u, h1, h2, h3, h4⟩ := (rreach_iff hc.wf hv).1 hr
  refine ⟨a, u, h1, h2, h3, ?_⟩
  have hd : d ∈ m.g.nodes := by
    obtain ⟨c, hc', _⟩ := TransGen.head'_iff.1 h3
    exact (hc.wf.edgeNodes _ _ hc').1
  refine dconn_congr (Z := d :: m.g.parents d) (fun z => by rw [hZ, mem_family]) ?_
  refine ((sourceExt_withParent hn hv).dconn_iff hc.wf ⟨rfl, rfl⟩
    (descEq_mem hc.wf h3.to_reflTransGen hd) ?_).2 h4
  intro z hz
  rcases mem_family.1 hz with rfl | h'
  · exact hd
  · exact (hc.wf.edgeNodes _ _ h').1

example : exMacid.Consistent ∧ NamesOk exMacid.g ∧ exMacid.Playable "D" ∧ exMacid.Playable "C" ∧
    isRReachable (fun _ => 0) exMacid ["D"] ["U"] = .ok true ∧
    isRReachable (fun _ => 0) exMacid ["C"] ["D", "A"] = .ok false :=
  ⟨exMacid_consistent, exG_names, ⟨0, by decide +kernel, by decide⟩, ⟨1, by decide +kernel, by decide⟩,
    by decide +kernel, by decide +kernel⟩

/-- **C19** the relevance graph: an edge `D -> D'` iff they differ and `D'` is s-reachable from `D`. -/
theorem C19_relevance_graph (m : Macid) (hc : m.Consistent) (hn : NamesOk m.g) (pick : Pick)
    (ds : List Node) (hnd : ds.Nodup) (hd : ∀ d ∈ ds, m.Playable d) :
    ∃ rg, relevanceGraph pick m ds = .ok rg ∧ rg.nodes = ds ∧
      ∀ a b, rg.Edge a b ↔ a ∈ ds ∧ b ∈ ds ∧ a ≠ b ∧ m.RReach a b := by
  obtain ⟨rg, h1, h2, _, h4⟩ := relevanceGraph_spec hc (mecFree_of_names hn) pick hnd hd
  exact ⟨rg, h1, h2, h4⟩

/-- **C19** `sufficient_recall(agent)`: True iff there is no cycle of reliance among the decisions of
the agent; ValueError for an unknown agent; KeyError for an agent without decision entry. -/
theorem C19_sufficient_recall_agent (m : Macid) (hc : m.Consistent) (hn : NamesOk m.g) (pick : Pick)
    (tpick : List Node → Nat) (a : Agent) :
    (a ∈ m.agents → ∀ ds, m.agentDecisions.get? a = some ds →
      ∃ b, sufficientRecall pick tpick m (some a) = .ok b ∧ (b = true ↔ m.NoRelianceCycle ds)) ∧
    (a ∉ m.agents → sufficientRecall pick tpick m (some a) = .error .value) ∧
    (a ∈ m.agents → a ∉ m.agentDecisions.keys →
      sufficientRecall pick tpick m (some a) = .error .key) := by
  refine ⟨?_, ?_, ?_⟩
  · intro ha ds hds
    obtain ⟨b, h1, h2⟩ := recallLoop_spec hc (mecFree_of_names hn) pick tpick [a] (by simpa using ha)
      (by simpa using Dict.mem_keys.2 ⟨ds, hds⟩)
    refine ⟨b, ?_, h2.trans ?_⟩
    · unfold sufficientRecall
      simpa [ha] using h1
    · constructor
      · intro h; exact h a (by simp) ds hds
      · intro h x hx ds' hds'
        simp only [List.mem_singleton] at hx
        subst hx
        rw [hds] at hds'
        cases hds'
        exact h
  · intro ha
    unfold sufficientRecall
    simp [ha]
  · intro ha hk
    unfold sufficientRecall
    simp [ha, recallLoop, Dict.get_err hk]

/-- **C19** without argument: every agent. -/
theorem C19_sufficient_recall_all (m : Macid) (hc : m.Consistent) (hn : NamesOk m.g) (pick : Pick)
    (tpick : List Node → Nat) (hk : ∀ a ∈ m.agents, a ∈ m.agentDecisions.keys) :
    ∃ b, sufficientRecall pick tpick m none = .ok b ∧ (b = true ↔ ∀ a ∈ m.agents,
      ∀ ds, m.agentDecisions.get? a = some ds → m.NoRelianceCycle ds) :=
  recallLoop_spec hc (mecFree_of_names hn) pick tpick m.agents (fun _ h => h) hk

/-- Two decisions that do not observe each other but share a utility: insufficient recall. -/
def exForget : Macid :=
  ⟨⟨["D1", "U", "D2"], [("D1", "U"), ("D2", "U")]⟩, [(0, ["D1", "D2"])], [(0, ["U"])],
    [("D1", 0), ("D2", 0)], [("U", 0)]⟩

theorem exForget_consistent : exForget.Consistent :=
  C15_constructor_consistent [("D1", "U"), ("D2", "U")] [(0, ["D1", "D2"])] [(0, ["U"])] exForget
    (by decide +kernel) (by decide) (by decide) (by decide) (by decide)

example : exForget.Consistent ∧ NamesOk exForget.g ∧
    sufficientRecall (fun _ => 0) (fun _ => 0) exForget (some 0) = .ok false ∧
    relevanceGraph (fun _ => 0) exForget ["D1", "D2"] = .ok ⟨["D1", "D2"], [("D1", "D2"), ("D2", "D1")]⟩ ∧
    sufficientRecall (fun _ => 0) (fun _ => 0) exMacid none = .ok true :=
  ⟨exForget_consistent, ⟨by decide +kernel, by decide +kernel⟩, by decide +kernel, by decide +kernel,
    by decide +kernel⟩

/-- **C20** the topological ordering of the condensed relevance graph: all decisions, grouped by
mutual reliance, no group relies on an earlier group; for every order in which the strongly
connected components are discovered. -/
theorem C20_scc_ordering (m : Macid) (hc : m.Consistent) (hn : NamesOk m.g) (pick : Pick)
    (tpick : List Nat → Nat) (hd : ∀ d ∈ m.decisions, m.Playable d) :
    ∃ rg, relevanceGraph pick m m.decisions = .ok rg ∧
      (∀ a b, rg.Edge a b ↔ a ∈ m.decisions ∧ b ∈ m.decisions ∧ a ≠ b ∧ m.RReach a b) ∧
      ∀ sccs, IsSccs m.decisions rg.Edge sccs →
        ∃ out, sccTopologicalOrdering tpick rg sccs = .ok out ∧ out.Perm sccs ∧
          out.flatten.Perm m.decisions ∧
          out.Pairwise (fun c c' => ∀ x ∈ c', ∀ y ∈ c, ¬ m.RReach x y) := by
  have hnd : m.decisions.Nodup := hc.dec.nodeKeys
  obtain ⟨rg, h1, h2, _, h4⟩ := relevanceGraph_spec hc (mecFree_of_names hn) pick hnd hd
  refine ⟨rg, h1, h4, ?_⟩
  intro sccs hs
  obtain ⟨out, o1, o2, o3⟩ := sccOrder_spec (rg := rg) (sccs := sccs) (by rw [h2]; exact hs)
    (by rw [h2]; exact hnd) tpick
    (by intro a b hab; rw [h2]; have := (h4 a b).1 hab; exact ⟨this.1, this.2.1⟩)
  refine ⟨out, o1, o2, o2.flatten.trans hs.perm, ?_⟩
  have hfn : out.flatten.Nodup := (o2.flatten.trans hs.perm).nodup_iff.2 hnd
  have o3' := List.Pairwise.and o3 (List.nodup_flatten.1 hfn).2
  refine List.Pairwise.imp_of_mem ?_ o3'
  intro c c' hcm hcm' hcc x hx y hy hr
  refine hcc.1 x hx y hy (TransGen.single ((h4 x y).2 ⟨?_, ?_, ?_, hr⟩))
  · exact hs.perm.mem_iff.1 (List.mem_flatten.2 ⟨c', o2.mem_iff.1 hcm', hx⟩)
  · exact hs.perm.mem_iff.1 (List.mem_flatten.2 ⟨c, o2.mem_iff.1 hcm, hy⟩)
  · rintro rfl; exact hcc.2 hy hx

/-- **C21** `decs_in_each_maid_subgame` returns, without repetition, exactly the non-empty sets of
decisions that are closed under reliance. -/
theorem C21_subgames (m : Macid) (hc : m.Consistent) (hn : NamesOk m.g) (pick : Pick)
    (hd : ∀ d ∈ m.decisions, m.Playable d) :
    ∃ rg, relevanceGraph pick m m.decisions = .ok rg ∧
      ∀ sccs, IsSccs m.decisions rg.Edge sccs →
        ∃ out, decsInEachSubgame rg sccs = .ok out ∧
          (∀ S ∈ out, S ≠ [] ∧ (∀ x ∈ S, x ∈ m.decisions) ∧
            ∀ x ∈ S, ∀ y ∈ m.decisions, m.RReach x y → y ∈ S) ∧
          (∀ S : List Node, S ≠ [] → (∀ x ∈ S, x ∈ m.decisions) →
            (∀ x ∈ S, ∀ y ∈ m.decisions, m.RReach x y → y ∈ S) → ∃ S' ∈ out, SameSet S' S) ∧
          out.Pairwise (fun S S' => ¬ SameSet S S') := by
  have hnd : m.decisions.Nodup := hc.dec.nodeKeys
  obtain ⟨rg, h1, h2, _, h4⟩ := relevanceGraph_spec hc (mecFree_of_names hn) pick hnd hd
  refine ⟨rg, h1, ?_⟩
  intro sccs hs
  obtain ⟨out, o1, o2, o3, o4⟩ := subgames_spec (rg := rg) (sccs := sccs) (by rw [h2]; exact hs)
    (by rw [h2]; exact hnd)
    (by intro a b hab; rw [h2]; have := (h4 a b).1 hab; exact ⟨this.1, this.2.1⟩)
  refine ⟨out, o1, ?_, ?_, o4⟩
  · intro S hS
    obtain ⟨_, p1, p2, p3⟩ := o2 S hS
    rw [h2] at p2
    refine ⟨p1, p2, ?_⟩
    intro x hx y hy hr
    by_cases hxy : x = y
    · rw [← hxy]; exact hx
    · exact p3 x hx y ((h4 x y).2 ⟨p2 x hx, hy, hxy, hr⟩)
  · intro S p1 p2 p3
    refine o3 S p1 (by rw [h2]; exact p2) ?_
    intro x hx y hxy
    obtain ⟨_, hy, _, hr⟩ := (h4 x y).1 hxy
    exact p3 x hx y hy hr

example : exForget.Consistent ∧ NamesOk exForget.g ∧ (∀ d ∈ exForget.decisions, exForget.Playable d) ∧
    decsInEachSubgame ⟨["D1", "D2"], [("D1", "D2"), ("D2", "D1")]⟩ [["D2", "D1"]] = .ok [["D2", "D1"]] ∧
    decsInEachSubgame ⟨["A", "B", "C"], [("A", "B")]⟩ [["B"], ["A"], ["C"]] =
      .ok [["B"], ["C"], ["B", "A"], ["B", "C"], ["B", "A", "C"]] := by
  refine ⟨exForget_consistent, ⟨by decide +kernel, by decide +kernel⟩, ?_, by decide +kernel,
    by decide +kernel⟩
  intro d hd
  simp [exForget, decisions, Dict.keys] at hd
  rcases hd with rfl | rfl <;> exact ⟨0, by decide +kernel, by decide⟩

/-- A chain of reliance `A → B` with `C` apart satisfies the contract with the components found in the
order B, A, C. -/
example : IsSccs ["A", "B", "C"] (Graph.mk ["A", "B", "C"] [("A", "B")]).Edge [["B"], ["A"], ["C"]] := by
  have hr : ∀ x y, ReflTransGen (Graph.mk ["A", "B", "C"] [("A", "B")]).Edge x y →
      x = y ∨ (x = "A" ∧ y = "B") := by
    intro x y h
    induction h with
    | refl => exact Or.inl rfl
    | tail _ he ih =>
      simp [Edge] at he
      obtain ⟨rfl, rfl⟩ := he
      rcases ih with rfl | ⟨_, h⟩
      · exact Or.inr ⟨rfl, rfl⟩
      · simp at h
  refine ⟨by decide, by decide, ?_⟩
  intro c hc x hx y hy
  constructor
  · intro hyc
    have : x = y := by
      simp at hc
      rcases hc with rfl | rfl | rfl <;> simp_all
    subst this
    exact ⟨ReflTransGen.refl, ReflTransGen.refl⟩
  · rintro ⟨h1, h2⟩
    have : x = y := by
      rcases hr _ _ h1 with h | h
      · exact h
      · rcases hr _ _ h2 with h' | h'
        · exact h'.symm
        · rw [h.1] at h'; simp at h'
    exact this ▸ hx

/-- **C22** a later decision of the same agent never relies on an earlier one, if there is no cycle of
reliance; in particular the reversed `get_valid_order` is a legal backward induction order. -/
theorem C22_later_never_relies_on_earlier (m : Macid) (hc : m.Consistent) (a : Agent)
    (ds : List Node) (hds : m.agentDecisions.get? a = some ds) (hrec : m.NoRelianceCycle ds)
    (pick : List Node → Nat) :
    ∃ out, m.getValidOrder pick (some ds) = .ok out ∧ out.Perm ds ∧
      out.Pairwise (fun d1 d2 => ¬ m.RReach d2 d1) := by
  have hmem : ∀ d ∈ ds, m.role d = .decision a := fun d hd =>
    role_decision.2 ((hc.dec.iff d a).2 ⟨ds, hds, hd⟩)
  have hnodes : ∀ d ∈ ds, d ∈ m.g.nodes := fun d hd =>
    hc.nodes d (Or.inl (Dict.mem_keys.2 ⟨a, role_decision.1 (hmem d hd)⟩))
  obtain ⟨out, h1, h2, h3, h4⟩ := (C14_get_valid_order m hc.wf pick ds).1 hnodes
  refine ⟨out, h1, (List.perm_ext_iff_of_nodup h2 (hc.dec.nodup _ _ hds)).2 h3, ?_⟩
  refine List.Pairwise.imp_of_mem ?_ (List.Pairwise.and h2 h4)
  rintro d1 d2 hd1 hd2 ⟨hne, hnd⟩ hr
  have m1 := (h3 d1).1 hd1
  have m2 := (h3 d2).1 hd2
  have hs := rreach_symm hc (hmem d1 m1) (hmem d2 m2) hne hnd hr
  exact hrec d1 (TransGen.tail (TransGen.single ⟨m1, m2, hne, hs⟩) ⟨m2, m1, hne.symm, hr⟩)

/-- A two stage problem with recall. -/
def exRecall : Macid :=
  ⟨⟨["D1", "D2", "U"], [("D1", "D2"), ("D1", "U"), ("D2", "U")]⟩, [(0, ["D2", "D1"])], [(0, ["U"])],
    [("D2", 0), ("D1", 0)], [("U", 0)]⟩

theorem exRecall_consistent : exRecall.Consistent :=
  C15_constructor_consistent [("D1", "D2"), ("D1", "U"), ("D2", "U")] [(0, ["D2", "D1"])] [(0, ["U"])]
    exRecall (by decide +kernel) (by decide) (by decide) (by decide) (by decide)

example : exRecall.Consistent ∧ exRecall.agentDecisions.get? 0 = some ["D2", "D1"] ∧
    exRecall.NoRelianceCycle ["D2", "D1"] := by
  refine ⟨exRecall_consistent, by decide, ?_⟩
  obtain ⟨b, h1, h2⟩ := (C19_sufficient_recall_agent exRecall exRecall_consistent
    ⟨by decide +kernel, by decide +kernel⟩ (fun _ => 0) (fun _ => 0) 0).1 (by decide) ["D2", "D1"]
    (by decide)
  have : b = true := by
    have h3 : sufficientRecall (fun _ => 0) (fun _ => 0) exRecall (some 0) = .ok true := by
      decide +kernel
    rw [h1] at h3
    simpa using h3
  exact h2.1 this

end Verif

import Verif.Lemmas.Roles
import Verif.Lemmas.Examples

/-! # C13-C17: graph edits, orders, roles, copies, mechanism graphs -/

namespace Verif
open Graph Macid Relation

/-- **C13** every history of edits, starting from a constructed network, leads to a DAG with
consistent, duplicate free nodes and edges. -/
theorem C13_edit_histories_preserve_wf (init : List (Node × Node)) (g : Graph)
    (h : Graph.ofEdges init = .ok g) (es : List Edit) : (g.applyAll es).WF := by
  have step : ∀ (g : Graph), g.WF → ∀ e, (g.apply e).1.WF := by
    intro g hw e
    cases e with
    | addNode v => exact wf_addNode hw v
    | addEdge u v =>
      unfold Graph.apply
      simp only
      cases h : g.addEdge u v with
      | ok g' => exact wf_addEdge hw h
      | error e => exact hw
    | removeEdge u v =>
      unfold Graph.apply
      simp only
      cases h : g.removeEdge u v with
      | ok g' => exact wf_removeEdge hw h
      | error e => exact hw
    | removeNode v =>
      unfold Graph.apply
      simp only
      cases h : g.removeNode v with
      | ok g' => exact wf_removeNode hw h
      | error e => exact hw
  have hw : g.WF := wf_of_ofEdges h
  clear h
  induction es generalizing g with
  | nil => exact hw
  | cons e es ih => exact ih _ (step g hw e)

example : (exG.applyAll [.addNode "N", .addEdge "E" "A", .addEdge "E" "N", .removeNode "C",
    .removeEdge "A" "D"]) = ⟨["A", "D", "U", "E", "N"], [("D", "U"), ("A", "U"), ("E", "N")]⟩ ∧
    (exG.apply (.addEdge "E" "A")) = (exG, .error .value) := by decide +kernel

/-- **C13** exact effect of `add_edge`: rejected with ValueError, without any change, iff it is a
self loop or would close a directed cycle; otherwise exactly that edge (and missing end points)
are added. -/
theorem C13_add_edge_effect (g : Graph) (hw : g.WF) (u v : Node) :
    ((u = v ∨ (u ∈ g.nodes ∧ g.DescEq v u)) → g.apply (.addEdge u v) = (g, .error .value)) ∧
    (¬ (u = v ∨ (u ∈ g.nodes ∧ g.DescEq v u)) →
      (g.apply (.addEdge u v)).2 = .ok () ∧
      (∀ a b, (g.apply (.addEdge u v)).1.Edge a b ↔ g.Edge a b ∨ (a = u ∧ b = v)) ∧
      (∀ x, x ∈ (g.apply (.addEdge u v)).1.nodes ↔ x ∈ g.nodes ∨ x = u ∨ x = v)) := by
  by_cases huv : u = v
  · refine ⟨fun _ => ?_, fun h => absurd (Or.inl huv) h⟩
    simp [Graph.apply, addEdge, huv]
  · by_cases hp : u ∈ g.nodes ∧ g.DescEq v u
    · refine ⟨fun _ => ?_, fun h => absurd (Or.inr hp) h⟩
      have hv : v ∈ g.nodes := by
        rcases ReflTransGen.cases_head hp.2 with rfl | ⟨c, hc, _⟩
        · exact hp.1
        · exact (hw.edgeNodes _ _ hc).1
      simp [Graph.apply, addEdge, huv, hp.1, hv, (hasPath_iff hw).2 hp.2]
    · refine ⟨fun h => absurd h (by simp only [huv, false_or]; exact hp), fun _ => ?_⟩
      have h1 : ¬ (u ∈ g.nodes ∧ v ∈ g.nodes ∧ g.hasPath v u = true) := by
        rintro ⟨a, _, c⟩
        exact hp ⟨a, (hasPath_iff hw).1 c⟩
      have : g.addEdge u v = .ok (g.nxAddEdge u v) := by
        unfold addEdge; rw [if_neg huv, if_neg h1]
      simp only [Graph.apply, this]
      exact ⟨trivial, fun a b => nxAddEdge_edge, fun x => nxAddEdge_nodes⟩

example : exG.WF ∧ ("E" ∈ exG.nodes ∧ exG.DescEq "A" "E") ∧ ¬ ("A" = "E" ∨ ("A" ∈ exG.nodes ∧
    exG.DescEq "E" "A")) := by
  have h : exG.DescEq "A" "E" ∧ ¬ exG.DescEq "E" "A" := by
    constructor
    · exact (hasPath_iff exG_wf).1 (by decide +kernel)
    · intro h; exact absurd ((hasPath_iff exG_wf).2 h) (by decide +kernel)
  exact ⟨exG_wf, ⟨by decide, h.1⟩, by
    rintro (h' | h')
    · revert h'; decide
    · exact h.2 h'.2⟩

/-- **C13** exact effect of `remove_edge` and `remove_node`: a missing edge is refused with NetworkXError, a missing node with
ValueError, without any change; otherwise exactly that edge goes, or that node with all its edges. -/
theorem C13_remove_effect (g : Graph) (u v : Node) :
    (¬ g.Edge u v → g.apply (.removeEdge u v) = (g, .error .nx)) ∧
    (g.Edge u v → (g.apply (.removeEdge u v)).2 = .ok () ∧ (g.apply (.removeEdge u v)).1.nodes = g.nodes ∧
      ∀ a b, (g.apply (.removeEdge u v)).1.Edge a b ↔ g.Edge a b ∧ ¬ (a = u ∧ b = v)) ∧
    (v ∉ g.nodes → g.apply (.removeNode v) = (g, .error .value)) ∧
    (v ∈ g.nodes → (g.apply (.removeNode v)).2 = .ok () ∧ (∀ x, x ∈ (g.apply (.removeNode v)).1.nodes ↔ x ∈ g.nodes ∧ x ≠ v) ∧
      ∀ a b, (g.apply (.removeNode v)).1.Edge a b ↔ g.Edge a b ∧ a ≠ v ∧ b ≠ v) := by
  refine ⟨fun h => ?_, fun h => ?_, fun h => ?_, fun h => ?_⟩
  · have h' : ¬ (u, v) ∈ g.edges := h
    simp only [Graph.apply, removeEdge, if_neg h']
  · have h' : (u, v) ∈ g.edges := h
    simp only [Graph.apply, removeEdge, if_pos h']
    refine ⟨trivial, trivial, fun a b => ?_⟩
    simp [Edge]
    tauto
  · simp only [Graph.apply, removeNode, if_neg h]
  · simp only [Graph.apply, removeNode, if_pos h]
    refine ⟨trivial, fun x => by simp, fun a b => ?_⟩
    simp [Edge]

/-- **C13** exact effect of `add_node` -/
theorem C13_add_node_effect (g : Graph) (v : Node) : (g.apply (.addNode v)).2 = .ok () ∧ (g.apply (.addNode v)).1.edges = g.edges ∧
    ∀ x, x ∈ (g.apply (.addNode v)).1.nodes ↔ x ∈ g.nodes ∨ x = v := by
  unfold Graph.apply addNode
  by_cases h : v ∈ g.nodes
  · simp only [if_pos h]
    exact ⟨trivial, trivial, fun x => ⟨Or.inl, fun q => q.elim id (fun e => e ▸ h)⟩⟩
  · simp only [if_neg h]
    exact ⟨trivial, trivial, fun x => by simp⟩

example : exG.Edge "A" "D" ∧ ¬ exG.Edge "D" "A" ∧ "C" ∈ exG.nodes ∧ "N" ∉ exG.nodes := by decide

/-- **C13** the constructor accepts exactly the acyclic edge lists, and the resulting edges are the
given ones. -/
theorem C13_constructor (es : List (Node × Node)) :
    ((∃ g, Graph.ofEdges es = .ok g) ↔ ∀ a, ¬ TransGen (fun x y => (x, y) ∈ es) a a) ∧
    ∀ g, Graph.ofEdges es = .ok g → ∀ a b, g.Edge a b ↔ (a, b) ∈ es := by
  have hedge : ∀ (es : List (Node × Node)) (g g' : Graph), g.addEdges es = .ok g' →
      ∀ a b, g'.Edge a b ↔ g.Edge a b ∨ (a, b) ∈ es := by
    intro es
    induction es with
    | nil => intro g g' h a b; simp [addEdges] at h; simp [h]
    | cons e es ih =>
      intro g g' h a b
      obtain ⟨u, v⟩ := e
      unfold addEdges at h
      cases h1 : g.addEdge u v with
      | error e => rw [h1] at h; cases h
      | ok g1 =>
        rw [h1] at h
        have hg1 : g1 = g.nxAddEdge u v := by
          unfold addEdge at h1
          split at h1
          · cases h1
          · split at h1 <;> cases h1
            rfl
        rw [ih g1 g' h, hg1, nxAddEdge_edge]
        simp only [List.mem_cons, Prod.mk.injEq]
        tauto
  have he : ∀ g, Graph.ofEdges es = .ok g → ∀ a b, g.Edge a b ↔ (a, b) ∈ es := by
    intro g h a b
    rw [hedge es _ g h]
    simp [Edge, empty]
  refine ⟨⟨?_, ?_⟩, he⟩
  · rintro ⟨g, h⟩ a ha
    refine (wf_of_ofEdges h).acyclic a ?_
    exact TransGen.mono (fun x y hxy => (he g h x y).2 hxy) _ _ ha
  · intro h
    obtain ⟨g, h1, _⟩ := addEdges_ok h es wf_empty (by intro a b h; simp [Edge, empty] at h)
      (fun e he => he)
    exact ⟨g, h1⟩

example : Graph.ofEdges [("A", "B"), ("B", "C"), ("C", "A")] = .error .value := by decide +kernel

/-- **C14** `get_valid_order`: each requested node exactly once, never after one of its
descendants; KeyError for unknown nodes. -/
theorem C14_get_valid_order (m : Macid) (hw : m.g.WF) (pick : List Node → Nat) (ns : List Node) :
    ((∀ n ∈ ns, n ∈ m.g.nodes) → ∃ out, m.getValidOrder pick (some ns) = .ok out ∧
      out.Nodup ∧ (∀ x, x ∈ out ↔ x ∈ ns) ∧ out.Pairwise (fun a b => ¬ m.g.Desc b a)) ∧
    ((∃ n ∈ ns, n ∉ m.g.nodes) → m.getValidOrder pick (some ns) = .error .key) := by
  have hc : ∀ e ∈ m.g.edges, e.1 ∈ m.g.nodes ∧ e.2 ∈ m.g.nodes := fun e he => hw.edgeNodes _ _ he
  obtain ⟨h1, h2, _⟩ := topoSort_spec pick hw.nodesNodup hw.edgesNodup hc
  obtain ⟨out, ho⟩ := h2 hw.acyclic
  obtain ⟨h3, h4, _⟩ := h1 out ho
  have hd : isDag pick m.g.nodes m.g.edges = true :=
    (isDag_iff pick hw.nodesNodup hw.edgesNodup hc).2 hw.acyclic
  constructor
  · intro hn
    refine ⟨out.filter (fun n => decide (n ∈ ns)), ?_, ?_, ?_, ?_⟩
    · unfold getValidOrder
      simp only [hd, check_ok hn, ho]
      simp
    · exact (h3.nodup_iff.2 hw.nodesNodup).filter _
    · intro x
      simp only [List.mem_filter, decide_eq_true_eq, h3.mem_iff]
      exact ⟨And.right, fun h => ⟨hn x h, h⟩⟩
    · exact h4.filter _
  · rintro ⟨n, hn, hne⟩
    unfold getValidOrder
    simp only [hd, check_err (fun h => hne (h n hn))]
    simp

/-- **C14** without argument: the decisions (that are nodes of the graph). -/
theorem C14_get_valid_order_default (m : Macid) (hw : m.g.WF) (pick : List Node → Nat) :
    ∃ out, m.getValidOrder pick none = .ok out ∧ out.Nodup ∧
      (∀ x, x ∈ out ↔ x ∈ m.decisions ∧ x ∈ m.g.nodes) ∧ out.Pairwise (fun a b => ¬ m.g.Desc b a) := by
  have hc : ∀ e ∈ m.g.edges, e.1 ∈ m.g.nodes ∧ e.2 ∈ m.g.nodes := fun e he => hw.edgeNodes _ _ he
  obtain ⟨h1, h2, _⟩ := topoSort_spec pick hw.nodesNodup hw.edgesNodup hc
  obtain ⟨out, ho⟩ := h2 hw.acyclic
  obtain ⟨h3, h4, _⟩ := h1 out ho
  have hd : isDag pick m.g.nodes m.g.edges = true :=
    (isDag_iff pick hw.nodesNodup hw.edgesNodup hc).2 hw.acyclic
  refine ⟨out.filter (fun n => decide (n ∈ m.decisions)), ?_, ?_, ?_, ?_⟩
  · unfold getValidOrder
    rw [hd, ho]
    simp
  · exact (h3.nodup_iff.2 hw.nodesNodup).filter _
  · intro x
    simp only [List.mem_filter, decide_eq_true_eq, h3.mem_iff]
    exact and_comm
  · exact h4.filter _

/-- A two-agent example network. -/
def exMacid : Macid :=
  ⟨exG, [(0, ["D"]), (1, ["C"])], [(0, ["U"]), (1, ["E"])], [("D", 0), ("C", 1)], [("U", 0), ("E", 1)]⟩

theorem exMacid_init : Macid.init
    [("A", "D"), ("D", "U"), ("A", "U"), ("A", "C"), ("D", "C"), ("C", "E")]
    [(0, ["D"]), (1, ["C"])] [(0, ["U"]), (1, ["E"])] = .ok exMacid := by decide +kernel

example : exMacid.g.WF ∧ exMacid.getValidOrder (fun _ => 0) none = .ok ["D", "C"] ∧
    exMacid.getValidOrder (fun l => l.length - 1) (some ["E", "U", "D"]) = .ok ["D", "E", "U"] :=
  ⟨exG_wf, by decide +kernel, by decide +kernel⟩

/-- **C15** the constructor builds a consistent network from consistent arguments: every listed node
occurs in the graph, and no node is listed twice. -/
theorem C15_constructor_consistent (edges : List (Node × Node)) (ad au : Dict Agent (List Node))
    (m : Macid) (h : Macid.init edges ad au = .ok m) (hka : ad.keys.Nodup) (hku : au.keys.Nodup)
    (hnd : (ad.flatMap (·.2) ++ au.flatMap (·.2)).Nodup)
    (hin : ∀ n ∈ ad.flatMap (·.2) ++ au.flatMap (·.2), n ∈ m.g.nodes) : m.Consistent := by
  unfold Macid.init at h
  cases hg : Graph.ofEdges edges with
  | error e => rw [hg] at h; cases h
  | ok g =>
    rw [hg] at h
    cases h
    obtain ⟨n1, n2, n3⟩ := List.nodup_append.1 hnd
    have hA := invert_agree hka n1
    have hU := invert_agree hku n2
    have key : ∀ (d : Dict Agent (List Node)), Agree d (invert d) → ∀ n, n ∈ (invert d).keys →
        n ∈ d.flatMap (·.2) := by
      intro d hd n hn
      obtain ⟨a, ha⟩ := Dict.mem_keys.1 hn
      obtain ⟨l, hl, hm⟩ := (hd.iff n a).1 ha
      exact List.mem_flatMap.2 ⟨(a, l), Dict.mem_of_get? hl, hm⟩
    refine ⟨wf_of_ofEdges hg, hA, hU, ?_, ?_⟩
    · intro n hn hn'
      exact n3 n (key _ hA n hn) n (key _ hU n hn') rfl
    · rintro n (hn | hn)
      · exact hin n (List.mem_append.2 (Or.inl (key _ hA n hn)))
      · exact hin n (List.mem_append.2 (Or.inr (key _ hU n hn)))

theorem exMacid_consistent : exMacid.Consistent :=
  C15_constructor_consistent _ _ _ _ exMacid_init (by decide) (by decide) (by decide) (by decide)

/-- **C15** one call: refinement to the role map. -/
theorem C15_role_call (m : Macid) (hc : m.Consistent) (op : RoleOp) :
    (m.runOp op).1.Consistent ∧ (m.runOp op).1.g = m.g ∧
    (m.runOp op).1.role = specOp m.g.nodes m.role op ∧
    ((m.runOp op).2 = if op.node ∈ m.g.nodes then .ok () else .error .key) ∧
    (op.node ∉ m.g.nodes → (m.runOp op).1 = m) := by
  obtain ⟨h1, h2⟩ := runOp_spec hc op
  by_cases hn : op.node ∈ m.g.nodes
  · obtain ⟨m', e, c, g, r⟩ := h2 hn
    rw [e]
    exact ⟨c, g, funext r, by simp [hn], fun h => absurd hn h⟩
  · rw [h1 hn]
    refine ⟨hc, rfl, ?_, by simp [hn], fun _ => rfl⟩
    funext n
    simp [specOp, hn]

/-- **C15** every history of calls refines the role map. -/
theorem C15_role_histories (m : Macid) (hc : m.Consistent) (ops : List RoleOp) :
    (m.runOps ops).Consistent ∧ (m.runOps ops).g = m.g ∧
    (m.runOps ops).role = ops.foldl (specOp m.g.nodes) m.role := by
  induction ops generalizing m with
  | nil => exact ⟨hc, rfl, rfl⟩
  | cons op ops ih =>
    obtain ⟨h1, h2, h3, _, _⟩ := C15_role_call m hc op
    obtain ⟨i1, i2, i3⟩ := ih (m.runOp op).1 h1
    refine ⟨i1, i2.trans h2, ?_⟩
    show ((m.runOp op).1.runOps ops).role = _
    rw [i3, h2, h3]
    rfl

/-- **C15** what consistency means for the user: a node is in `agent_decisions[a]` exactly once iff
its role is decision of `a`, in `agent_utilities[a]` iff its role is utility of `a`. -/
theorem C15_lists_show_roles (m : Macid) (hc : m.Consistent) (n : Node) (a : Agent) :
    (m.role n = .decision a ↔ ∃ l, m.agentDecisions.get? a = some l ∧ l.count n = 1) ∧
    (m.role n = .utility a ↔ ∃ l, m.agentUtilities.get? a = some l ∧ l.count n = 1) ∧
    (m.role n = .decision a ↔ m.decisionAgent.get? n = some a) ∧
    (m.role n = .utility a ↔ m.utilityAgent.get? n = some a) := by
  refine ⟨?_, ?_, role_decision, role_utility hc⟩
  · rw [role_decision, hc.dec.iff]
    constructor
    · rintro ⟨l, h1, h2⟩; exact ⟨l, h1, List.count_eq_one_of_mem (hc.dec.nodup _ _ h1) h2⟩
    · rintro ⟨l, h1, h2⟩; exact ⟨l, h1, List.count_pos_iff.1 (by omega)⟩
  · rw [role_utility hc, hc.util.iff]
    constructor
    · rintro ⟨l, h1, h2⟩; exact ⟨l, h1, List.count_eq_one_of_mem (hc.util.nodup _ _ h1) h2⟩
    · rintro ⟨l, h1, h2⟩; exact ⟨l, h1, List.count_pos_iff.1 (by omega)⟩

example : exMacid.Consistent ∧ (exMacid.runOps [.makeUtility "D" 1, .makeDecision "X" 0,
    .makeDecision "A" 0, .makeChance "C"]).role "D" = .utility 1 :=
  ⟨exMacid_consistent, by decide +kernel⟩

/-- **C16** full description of `copy_without_cpds`: it raises KeyError iff some agent with a
utility entry has no decision entry; otherwise nodes, edges and roles are copied, except that the
decisions of agents without utility entry become chance nodes. -/
theorem C16_copy_without_cpds (m : Macid) (hm : m.Consistent) (base : Macid)
    (hb : base = Macid.new ∨ base = Macid.newCid) :
    ((∀ a ∈ m.agents, a ∈ m.agentDecisions.keys) →
      ∃ m', Macid.copyWithoutCpds base m = .ok m' ∧ m'.Consistent ∧ m'.g.nodes = m.g.nodes ∧
        (∀ u v, m'.g.Edge u v ↔ m.g.Edge u v) ∧
        ∀ n, m'.role n = match m.role n with
          | .chance => .chance
          | .utility a => .utility a
          | .decision a => if a ∈ m.agents then .decision a else .chance) ∧
    ((∃ a ∈ m.agents, a ∉ m.agentDecisions.keys) →
      Macid.copyWithoutCpds base m = .error .key) := by
  have hbc : base.Consistent ∧ base.g = Graph.empty ∧ ∀ n, base.role n = .chance := by
    rcases hb with rfl | rfl
    · exact ⟨new_consistent, rfl, fun n => rfl⟩
    · exact ⟨newCid_consistent, rfl, fun n => rfl⟩
  obtain ⟨hbc, hbg, hbr⟩ := hbc
  have hnodes := addNodes_nodes m.g.nodes Graph.empty (by simp [empty]) hm.wf.nodesNodup
  have hwf0 : (Graph.empty.addNodes m.g.nodes).WF := wf_addNodes wf_empty _
  obtain ⟨g, h1, h2, h3, _⟩ := addEdges_ok (R := m.g.Edge) hm.wf.acyclic m.g.edgesView hwf0
    (by intro a b h; unfold Edge at h; rw [hnodes.2] at h; simp [empty] at h)
    (fun e he => (mem_edgesView hm.wf).1 he)
  have hgn : g.nodes = m.g.nodes := by
    rw [addEdges_nodes_eq m.g.edgesView _ h1, hnodes.1]
    · simp [empty]
    · intro e he
      rw [hnodes.1]
      have := hm.wf.edgeNodes _ _ ((mem_edgesView hm.wf).1 he)
      simpa [empty] using this
  have hge : ∀ u v, g.Edge u v ↔ m.g.Edge u v := by
    intro u v
    rw [h3, mem_edgesView hm.wf]
    unfold Edge
    rw [hnodes.2]
    simp [empty]
  have hacc : ({ base with g := g } : Macid).Consistent := by
    refine ⟨h2, hbc.dec, hbc.util, hbc.disj, ?_⟩
    intro n hn
    have := hbc.nodes n hn
    rw [hbg] at this
    simp [empty] at this
  have hcr := copyRoles_spec hm m.agents hacc (by intro n; show n ∈ g.nodes ↔ _; rw [hgn])
    hm.util.agentKeys (fun a ha => ha)
  have hunf : Macid.copyWithoutCpds base m = copyRoles m { base with g := g } m.agents := by
    unfold copyWithoutCpds
    rw [hbg, h1]
  rw [hunf]
  refine ⟨?_, hcr.2⟩
  intro hall
  obtain ⟨m', e1, e2, e3, e4⟩ := hcr.1 hall
  refine ⟨m', e1, e2, by rw [e3]; exact hgn, by rw [e3]; exact hge, ?_⟩
  intro n
  rw [e4]
  have hbr' : ({ base with g := g } : Macid).role n = .chance := hbr n
  rw [hbr']
  cases hr : m.role n with
  | chance => simp [Role.owner]
  | decision a => simp [Role.owner]
  | utility a =>
    have : a ∈ m.agents := by
      have h := (role_utility hm).1 hr
      obtain ⟨l, hl, _⟩ := (hm.util.iff n a).1 h
      exact Dict.mem_keys.2 ⟨l, hl⟩
    simp [Role.owner, this]

/-- **C16** for networks whose agents have entries in both dictionaries the copy is exact. -/
theorem C16_copy_exact (m : Macid) (hm : m.Consistent) (base : Macid)
    (hb : base = Macid.new ∨ base = Macid.newCid)
    (hag : ∀ a, a ∈ m.agentUtilities.keys ↔ a ∈ m.agentDecisions.keys) :
    ∃ m', Macid.copyWithoutCpds base m = .ok m' ∧ m'.Consistent ∧ m'.g.nodes = m.g.nodes ∧
      (∀ u v, m'.g.Edge u v ↔ m.g.Edge u v) ∧ ∀ n, m'.role n = m.role n := by
  obtain ⟨m', h1, h2, h3, h4, h5⟩ := (C16_copy_without_cpds m hm base hb).1 (fun a ha => (hag a).1 ha)
  refine ⟨m', h1, h2, h3, h4, ?_⟩
  intro n
  rw [h5]
  cases hr : m.role n with
  | chance => rfl
  | utility a => rfl
  | decision a =>
    have : a ∈ m.agents := by
      have h := role_decision.1 hr
      obtain ⟨l, hl, _⟩ := (hm.dec.iff n a).1 h
      exact (hag a).2 (Dict.mem_keys.2 ⟨l, hl⟩)
    simp [this]

example : exMacid.Consistent ∧ (∀ a ∈ exMacid.agentUtilities.keys, a ∈ exMacid.agentDecisions.keys) ∧
    Macid.copyWithoutCpds Macid.new exMacid = .ok { exMacid with
      g := ⟨exMacid.g.nodes, [("A", "D"), ("A", "U"), ("A", "C"), ("D", "U"), ("D", "C"), ("C", "E")]⟩ } :=
  ⟨exMacid_consistent, by decide, by decide +kernel⟩

/-- **C16** disagreement with "the copy has the same roles": an agent that only has decisions loses
them, an agent that only has utilities makes the copy raise KeyError. -/
theorem C16_copy_loses_roles :
    (∃ m m', m.Consistent ∧ Macid.copyWithoutCpds Macid.new m = .ok m' ∧ "D" ∈ m.decisions ∧
      "D" ∉ m'.decisions) ∧
    (∃ m, m.Consistent ∧ Macid.copyWithoutCpds Macid.new m = .error .key) := by
  refine ⟨⟨(exMacid.runOps [.makeDecision "D" 7]),
    ((Macid.copyWithoutCpds Macid.new (exMacid.runOps [.makeDecision "D" 7])).toOption.getD Macid.new),
    (C15_role_histories _ exMacid_consistent _).1, by decide +kernel, by decide +kernel,
    by decide +kernel⟩, exMacid.runOps [.makeUtility "U" 7],
    (C15_role_histories _ exMacid_consistent _).1, by decide +kernel⟩

/-- **C17** the mechanism graph: original nodes and edges plus exactly one fresh parent per node. -/
theorem C17_mechanism_graph (g : Graph) (hw : g.WF)
    (hnames : NamesOk g) :
    ∃ mg, mechGraph g = .ok mg ∧ mg.WF ∧
      (∀ x, x ∈ mg.nodes ↔ x ∈ g.nodes ∨ ∃ v ∈ g.nodes, x = v ++ "mec") ∧
      (∀ a b, mg.Edge a b ↔ g.Edge a b ∨ (b ∈ g.nodes ∧ a = b ++ "mec")) := by
  obtain ⟨mg, h1, h2, h3, h4⟩ := mechGraph_spec hw (mecFree_of_names hnames)
  exact ⟨mg, h1, h2, h4, h3⟩

theorem exG_names : NamesOk exG := ⟨by decide +kernel, by decide +kernel⟩

example : exG.WF ∧ NamesOk exG := ⟨exG_wf, exG_names⟩

/-- **C17** the guard compares everything but the last three characters with "mec": it fires exactly
for six-character names beginning with "mec" ... -/
theorem C17_guard_fires (v : Node) :
    dropLast3 v = "mec" ↔ v.toList.length = 6 ∧ v.toList.take 3 = ['m', 'e', 'c'] := by
  unfold dropLast3
  constructor
  · intro h
    have h' := congrArg String.toList h
    rw [String.toList_ofList] at h'
    have h'' : List.take (v.toList.length - 3) v.toList = ['m', 'e', 'c'] := h'
    have hl := congrArg List.length h''
    simp only [List.length_take, List.length_cons, List.length_nil] at hl
    have h6 : v.toList.length = 6 := by omega
    refine ⟨h6, ?_⟩
    rw [h6] at h''
    exact h''
  · rintro ⟨h6, h3⟩
    rw [h6, h3]

/-- **C17** ... so it rejects harmless names and accepts names that end with "mec", for which the
mechanism graph then merges nodes. -/
theorem C17_guard_is_wrong :
    (∃ g, g.WF ∧ (∀ v ∈ g.nodes, ∀ w, v ≠ w ++ "mec") ∧ mechGraph g = .error .value) ∧
    (∃ g mg, g.WF ∧ mechGraph g = .ok mg ∧ "A" ∈ g.nodes ∧ "Amec" ∈ g.nodes ∧ mg.nodes.length = 3) := by
  refine ⟨⟨⟨["mecoid"], []⟩, ?_, ?_, by decide +kernel⟩,
    ⟨⟨["A", "Amec"], []⟩, ⟨["Amec", "A", "Amecmec"], [("Amec", "A"), ("Amecmec", "Amec")]⟩, ?_,
      by decide +kernel, by decide, by decide, by decide⟩⟩
  · exact wf_addNode (g := Graph.empty) wf_empty "mecoid"
  · intro v hv w h
    simp at hv
    subst hv
    have h' := congrArg (fun s : String => s.toList.reverse.head?) h
    simp at h'
  · exact wf_addNode (wf_addNode (g := Graph.empty) wf_empty "A") "Amec"

end Verif

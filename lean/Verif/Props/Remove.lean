import Verif.Lemmas.Remove
import Verif.Lemmas.Do
import Verif.Lemmas.Build
import Verif.Lemmas.Requisite
import Verif.Props.Structure
import Verif.Props.Query

/-!
# C107: removing nodes of a parameterised network; roles of nodes that are not there
-/

namespace Verif
open Net Macid Graph
namespace Macid

theorem makeAll_key (f : Node → RoleOp) (hf : ∀ n, (f n).node = n) : ∀ (ns : List Node) {m : Macid}, m.Consistent →
    (makeAll (fun m n => m.runOp (f n)) m ns = .error .key ∧ ∃ n ∈ ns, n ∉ m.g.nodes) ∨
    (∃ m', makeAll (fun m n => m.runOp (f n)) m ns = .ok m' ∧ m'.Consistent ∧ m'.g = m.g ∧ ∀ n ∈ ns, n ∈ m.g.nodes) := by
  intro ns
  induction ns with
  | nil => intro m hc; exact Or.inr ⟨m, rfl, hc, rfl, by simp⟩
  | cons n ns ih =>
    intro m hc
    have hs := runOp_spec hc (f n)
    rw [hf] at hs
    by_cases hn : n ∈ m.g.nodes
    · obtain ⟨m1, h1, h2, h3, _⟩ := hs.2 hn
      rcases ih h2 with ⟨h, k, hk1, hk2⟩ | ⟨m', h, k1, k2, k3⟩
      · exact Or.inl ⟨by simp only [makeAll, h1]; exact h, k, by simp [hk1], by rw [← h3]; exact hk2⟩
      · refine Or.inr ⟨m', by simp only [makeAll, h1]; exact h, k1, k2.trans h3, ?_⟩
        intro k hk
        rcases List.mem_cons.1 hk with rfl | hk
        · exact hn
        · rw [← h3]; exact k3 k hk
    · exact Or.inl ⟨by simp only [makeAll, hs.1 hn], n, by simp, hn⟩

theorem copyRoles_key (m : Macid) : ∀ (as : List Agent) {acc : Macid}, acc.Consistent →
    copyRoles m acc as = .error .key ∨
    ∀ a ∈ as, (∀ l, m.agentDecisions.get? a = some l → ∀ n ∈ l, n ∈ acc.g.nodes) ∧
      (∀ l, m.agentUtilities.get? a = some l → ∀ n ∈ l, n ∈ acc.g.nodes) := by
  intro as
  induction as with
  | nil => intro acc _; exact Or.inr (by simp)
  | cons a as ih =>
    intro acc hc
    unfold copyRoles
    cases hd : m.agentDecisions.get? a with
    | none => exact Or.inl (by simp [Dict.get, hd])
    | some ds =>
      simp only [Dict.get, hd]
      rcases makeAll_key (fun n => .makeDecision n a) (fun _ => rfl) ds hc with ⟨h, _⟩ | ⟨m1, h1, h2, h3, h4⟩
      · left
        have h' : makeAll (fun m n => m.makeDecision n a) acc ds = .error .key := h
        rw [h']
      · have h1' : makeAll (fun m n => m.makeDecision n a) acc ds = .ok m1 := h1
        rw [h1']
        simp only
        cases hu : m.agentUtilities.get? a with
        | none => exact Or.inl rfl
        | some us =>
          simp only
          rcases makeAll_key (fun n => .makeUtility n a) (fun _ => rfl) us h2 with ⟨h, _⟩ | ⟨m2, k1, k2, k3, k4⟩
          · left
            have h' : makeAll (fun m n => m.makeUtility n a) m1 us = .error .key := h
            rw [h']
          · have k1' : makeAll (fun m n => m.makeUtility n a) m1 us = .ok m2 := k1
            rw [k1']
            simp only
            rcases ih k2 with h | h
            · exact Or.inl h
            · right
              intro b hb
              rcases List.mem_cons.1 hb with rfl | hb
              · rw [hd, hu]
                refine ⟨fun l e => by cases e; exact h4, fun l e => by cases e; rw [← h3]; exact k4⟩
              · have := h b hb
                rw [k3, h3] at this
                exact this

end Macid

/-- **C107** `copy_without_cpds` raises KeyError whenever some agent with an entry in `agent_utilities` has a decision or
a utility that is not a node of the graph. -/
theorem C107_role_without_node {m : Macid} (hw : m.g.WF) {base : Macid} (hb : base = Macid.new ∨ base = Macid.newCid)
    {a : Agent} (ha : a ∈ m.agents) {n : Node} (hn : n ∉ m.g.nodes)
    (hl : (∃ l, m.agentDecisions.get? a = some l ∧ n ∈ l) ∨ ∃ l, m.agentUtilities.get? a = some l ∧ n ∈ l) :
    Macid.copyWithoutCpds base m = .error .key := by
  have hbc : base.Consistent ∧ base.g = Graph.empty := by
    rcases hb with rfl | rfl
    · exact ⟨new_consistent, rfl⟩
    · exact ⟨newCid_consistent, rfl⟩
  obtain ⟨hbc, hbg⟩ := hbc
  have hnodes := addNodes_nodes m.g.nodes Graph.empty (by simp [empty]) hw.nodesNodup
  have hwf0 : (Graph.empty.addNodes m.g.nodes).WF := wf_addNodes wf_empty _
  obtain ⟨g, h1, h2, h3, _⟩ := addEdges_ok (R := m.g.Edge) hw.acyclic m.g.edgesView hwf0
    (by intro a b h; unfold Edge at h; rw [hnodes.2] at h; simp [empty] at h)
    (fun e he => (mem_edgesView hw).1 he)
  have hgn : g.nodes = m.g.nodes := by
    rw [addEdges_nodes_eq m.g.edgesView _ h1, hnodes.1]
    · simp [empty]
    · intro e he
      rw [hnodes.1]
      have := hw.edgeNodes _ _ ((mem_edgesView hw).1 he)
      simpa [empty] using this
  have hacc : ({ base with g := g } : Macid).Consistent := by
    refine ⟨h2, hbc.dec, hbc.util, hbc.disj, ?_⟩
    intro n hn
    have := hbc.nodes n hn
    rw [hbg] at this
    simp [empty] at this
  unfold Macid.copyWithoutCpds
  rw [hbg, h1]
  rcases copyRoles_key m m.agents hacc with h | h
  · exact h
  · exfalso
    obtain ⟨k1, k2⟩ := h a ha
    rcases hl with ⟨l, e1, e2⟩ | ⟨l, e1, e2⟩
    · exact hn (hgn ▸ k1 l e1 n e2)
    · exact hn (hgn ▸ k2 l e1 n e2)

theorem Graph.addEdges_new {n : Node} : ∀ {es : List (Node × Node)} {G g' : Graph}, G.addEdges es = .ok g' → n ∈ g'.nodes →
    n ∈ G.nodes ∨ ∃ e ∈ es, n = e.1 ∨ n = e.2
  | [], G, g', h, hn => by
    simp only [addEdges, Except.ok.injEq] at h
    exact Or.inl (h ▸ hn)
  | (u, v) :: es, G, g', h, hn => by
    unfold addEdges at h
    cases ha : G.addEdge u v with
    | error e => rw [ha] at h; cases h
    | ok g1 =>
      rw [ha] at h
      rcases Graph.addEdges_new h hn with h1 | ⟨e, he, h1⟩
      · unfold addEdge at ha
        split_ifs at ha
        cases ha
        have : n ∈ ((G.addNode u).addNode v).nodes := by
          unfold nxAddEdge at h1
          simp only at h1
          split at h1 <;> exact h1
        have hadd : ∀ (G : Graph) (w : Node), n ∈ (G.addNode w).nodes → n ∈ G.nodes ∨ n = w := by
          intro G w h
          unfold addNode at h
          split at h
          · exact Or.inl h
          · simpa using h
        rcases hadd _ _ this with h2 | h2
        · rcases hadd _ _ h2 with h3 | h3
          · exact Or.inl h3
          · exact Or.inr ⟨(u, v), by simp, Or.inl h3⟩
        · exact Or.inr ⟨(u, v), by simp, Or.inr h2⟩
      · exact Or.inr ⟨e, by simp [he], h1⟩

/-- **C107** The constructor of a MACID accepts decisions and utilities that occur in no edge; the diagram it returns cannot
be copied. -/
theorem C107_constructor {edges : List (Node × Node)} {ad au : Dict Agent (List Node)} {m : Macid}
    (h : Macid.init edges ad au = .ok m) {base : Macid} (hb : base = Macid.new ∨ base = Macid.newCid)
    {a : Agent} (ha : a ∈ au.keys) {n : Node} (hn : ∀ e ∈ edges, n ≠ e.1 ∧ n ≠ e.2)
    (hl : (∃ l, Dict.get? ad a = some l ∧ n ∈ l) ∨ ∃ l, Dict.get? au a = some l ∧ n ∈ l) :
    Macid.copyWithoutCpds base m = .error .key := by
  unfold Macid.init at h
  cases hg : Graph.ofEdges edges with
  | error e => rw [hg] at h; cases h
  | ok g0 =>
    rw [hg] at h
    cases h
    refine C107_role_without_node (m := ⟨g0, ad, au, _, _⟩) (wf_of_ofEdges hg) hb ha ?_ hl
    intro hm
    rcases Graph.addEdges_new hg hm with h | ⟨e, he, h⟩
    · simp [empty] at h
    · exact h.elim (hn e he).1 (hn e he).2

namespace Net

/-- everything `remove_node` does to a sound network -/
theorem removeNode_spec {net : Net} (hG : net.Good) (hN : net.Normalised) {v : Node} (hv : v ∈ net.g.nodes) :
    ∃ net', net.removeNode v = (net', .ok ()) ∧ net'.base = net.base ∧ net'.domain = net.domain ∧
      net'.m = { net.m with g := ⟨net.g.nodes.filter (fun x => decide (x ≠ v)),
        net.g.edges.filter (fun e => decide (e.1 ≠ v ∧ e.2 ≠ v))⟩ } ∧
      net'.rels.keys = net.rels.keys.filter (fun x => decide (x ≠ v)) ∧
      net'.cpds.get? v = none ∧
      (∀ u, u ≠ v → ¬ net.g.Edge v u → net'.cpds.get? u = net.cpds.get? u ∧ net'.rels.get? u = net.rels.get? u) ∧
      (∀ u, net.g.Edge v u → ∀ c, net.cpds.get? u = some c → ∃ c', c.margOut net.domain v = .ok c' ∧
        net'.cpds.get? u = some c' ∧ net'.rels.get? u = (net.rels.get? u).map (touch c')) := by
  have hch : ∀ w, w ∈ net.g.children v ↔ net.g.Edge v w := fun w => Graph.mem_children
  obtain ⟨n1, h1, h2, h3, h4, h5, h6, h7⟩ := averageOut_spec v (net.g.children v) net
    (Graph.nodup_children hG.wf.edgesNodup v) (fun w hw => by
      have he := (hch w).1 hw
      obtain ⟨c, hc, _⟩ := hG.complete w (hG.wf.edgeNodes v w he).2
      obtain ⟨c', hc', _⟩ := margOut_prob hG hN he hc
      exact ⟨c, c', hc, hc'⟩)
  have hvv : v ∉ net.g.children v := fun h => hG.wf.acyclic v (.single ((hch v).1 h))
  obtain ⟨c, hc, _⟩ := hG.complete v hv
  have hcv : n1.cpds.get? v = some c := by rw [(h6 v hvv).1, hc]
  have hg1 : n1.g = net.g := congrArg Macid.g h2
  have hget : n1.getCpd v = .ok (some c) := by
    unfold getCpd
    rw [hg1, if_pos hv, hcv]
  have hkey : v ∈ n1.rels.keys := by
    rw [h5]
    obtain ⟨_, r, hr, _⟩ := hG.reflects v c hc
    exact Dict.mem_keys.2 ⟨r, hr⟩
  have hrm : net.g.removeNode v = .ok ⟨net.g.nodes.filter (fun x => decide (x ≠ v)),
        net.g.edges.filter (fun e => decide (e.1 ≠ v ∧ e.2 ≠ v))⟩ := by
    unfold Graph.removeNode
    rw [if_pos hv]
  refine ⟨(n1.delKey v).withGraph ⟨net.g.nodes.filter (fun x => decide (x ≠ v)),
        net.g.edges.filter (fun e => decide (e.1 ≠ v ∧ e.2 ≠ v))⟩, ?_, h3, h4, ?_, ?_, ?_, ?_, ?_⟩
  · unfold removeNode
    rw [h1]
    simp only [hget, Net.del, if_pos hkey]
    have : (n1.delKey v).g = net.g := hg1
    rw [this, hrm]
  · simp only [withGraph, delKey, h2]
  · show (n1.rels.erase v).keys = _
    rw [Dict.keys_erase, h5]
  · show (n1.cpds.erase v).get? v = none
    rw [Dict.get?_erase, if_pos rfl]
  · intro u hu he
    show (n1.cpds.erase v).get? u = _ ∧ (n1.rels.erase v).get? u = _
    rw [Dict.get?_erase, Dict.get?_erase, if_neg hu, if_neg hu]
    exact h6 u (fun h => he ((hch u).1 h))
  · intro u he d hd
    obtain ⟨d', hd', _⟩ := margOut_prob hG hN he hd
    have hu : u ≠ v := fun e => hG.wf.acyclic v (.single (e ▸ he))
    refine ⟨d', hd', ?_⟩
    show (n1.cpds.erase v).get? u = _ ∧ (n1.rels.erase v).get? u = _
    rw [Dict.get?_erase, Dict.get?_erase, if_neg hu, if_neg hu]
    exact h7 u ((hch u).2 he) d d' hd hd'

end Net

/-- **C107** `remove_node` of a node returns.  It removes the node, its edges, its relationship and its CPD.  The CPD of a
child becomes the plain average over the outcomes of the removed node, the CPDs of the other nodes are as before, and the
network passes pgmpy's `check_model`.  The roles and the recorded outcomes are left as they are, also those of the removed
node. -/
theorem C107_remove {net : Net} (hU : net.Usable) {v : Node} (hv : v ∈ net.g.nodes) :
    ∃ net', net.removeNode v = (net', .ok ()) ∧
      (∀ u, u ∈ net'.g.nodes ↔ u ∈ net.g.nodes ∧ u ≠ v) ∧
      (∀ a b, net'.g.Edge a b ↔ net.g.Edge a b ∧ a ≠ v ∧ b ≠ v) ∧
      (∀ u, u ∈ net'.rels.keys ↔ u ∈ net.rels.keys ∧ u ≠ v) ∧ net'.cpds.get? v = none ∧
      net'.domain = net.domain ∧ (∀ n, net'.m.role n = net.m.role n) ∧
      net'.checkModel = true ∧
      ∀ w ∈ net.g.nodes, w ≠ v → ∀ a, (∀ u ∈ net.g.nodes, u ≠ v → a u ∈ net.dom u) →
        (¬ net.g.Edge v w → net'.kernel w a = net.kernel w a) ∧
        (net.g.Edge v w → net'.kernel w a =
          ((net.dom v).map (fun x => net.kernel w (Assign.upd a v x))).sum / (net.dom v).length) := by
  have hG := hU.good
  obtain ⟨net', h1, h2, h3, h4, h5, h6, h7, h8⟩ := removeNode_spec hG hU.normalised hv
  have hgn : ∀ u, u ∈ net'.g.nodes ↔ u ∈ net.g.nodes ∧ u ≠ v := by
    intro u
    show u ∈ net'.m.g.nodes ↔ _
    rw [h4]
    simp
  have hge : ∀ a b, net'.g.Edge a b ↔ net.g.Edge a b ∧ a ≠ v ∧ b ≠ v := by
    intro a b
    show (a, b) ∈ net'.m.g.edges ↔ _
    rw [h4]
    simp [Graph.Edge]
  have hcp : ∀ w ∈ net.g.nodes, w ≠ v → ∃ c c', net.cpds.get? w = some c ∧ net'.cpds.get? w = some c' ∧ c'.domain = c.domain ∧
      (∀ p, p ∈ c'.evidence ↔ p ∈ c.evidence ∧ p ≠ v) ∧ c'.table.all colClose = true ∧
      c'.evCard = c'.evidence.map (fun p => ((net.domain.get? p).getD []).length) := by
    intro w hw hwv
    obtain ⟨c, hc, _⟩ := hG.complete w hw
    have hF := hG.fits w c hc
    by_cases he : net.g.Edge v w
    · obtain ⟨c', k1, k2, _⟩ := h8 w he c hc
      obtain ⟨c'', j1, _, j2, _, _, _, j3, j4, j5, _⟩ := margOut_prob hG hU.normalised he hc
      rw [k1] at j1
      cases j1
      refine ⟨c, c', hc, k2, j2, fun p => by rw [j3]; simp, ?_, j4⟩
      rw [List.all_eq_true]
      intro col hcol
      simp only [colClose, j5 col hcol, decide_eq_true_eq]
      norm_num
    · refine ⟨c, c, hc, by rw [(h7 w hwv he).1, hc], rfl, fun p => ?_, hF.sums, hF.cards⟩
      refine ⟨fun h => ⟨h, fun e => he ?_⟩, fun h => h.1⟩
      rw [← e]
      exact (hF.parents p).1 h
  refine ⟨net', h1, hgn, hge, ?_, h6, h3, ?_, ?_, ?_⟩
  · intro u
    rw [h5]
    simp
  · intro n
    rw [h4]
    rfl
  · unfold checkModel
    rw [List.all_eq_true]
    intro w hw
    obtain ⟨hw1, hw2⟩ := (hgn w).1 hw
    obtain ⟨c, c', k1, k2, k3, k4, k5, k6⟩ := hcp w hw1 hw2
    have hF := hG.fits w c k1
    simp only [k2, Bool.and_eq_true, List.all_eq_true, decide_eq_true_eq, mem_parents]
    refine ⟨⟨⟨fun p hp => ?_, fun p hp => ?_⟩, List.all_eq_true.1 k5⟩, ?_⟩
    · have := (k4 p).1 hp
      exact (hge p w).2 ⟨(hF.parents p).1 this.1, this.2, hw2⟩
    · have := (hge p w).1 hp
      exact (k4 p).2 ⟨(hF.parents p).2 this.1, this.2.1⟩
    · rw [k6]
      apply List.map_congr_left
      intro p hp
      have hpe := (k4 p).1 hp
      obtain ⟨d, d', e1, e2, e3, _⟩ := hcp p (hG.wf.edgeNodes p w ((hF.parents p).1 hpe.1)).1 hpe.2
      rw [e2]
      simp only [e3]
      rw [(hG.reflects p d e1).1]
      rfl
  · intro w hw hwv a ha
    obtain ⟨c, hc, _⟩ := hG.complete w hw
    constructor
    · intro he
      unfold Net.kernel
      rw [(h7 w hwv he).1, h3]
    · intro he
      obtain ⟨c', k1, k2, _⟩ := h8 w he c hc
      obtain ⟨c'', j1, _, j2, _, _, _, j3, j4, j5, j6⟩ := margOut_prob hG hU.normalised he hc
      rw [k1] at j1
      cases j1
      rw [← j6 a ha]
      unfold Net.kernel
      rw [k2, h3]

/-- **C107** `remove_node` of something that is not a node raises ValueError and changes nothing. -/
theorem C107_not_a_node {net : Net} (hG : net.Good) {v : Node} (hv : v ∉ net.g.nodes) :
    net.removeNode v = (net, .error .value) := by
  have hch : net.g.children v = [] := by
    rw [List.eq_nil_iff_forall_not_mem]
    intro w hw
    exact hv (hG.wf.edgeNodes v w (Graph.mem_children.1 hw)).1
  unfold Net.removeNode
  rw [hch]
  simp [averageOut, getCpd, hv]

/-- **C107** Removing a chance node without children is harmless: the network stays usable and every event about the other
variables keeps its probability. -/
theorem C107_leaf {net : Net} (hU : net.Usable) {v : Node} (hv : v ∈ net.g.nodes) (hr : net.m.role v = .chance)
    (hl : ∀ w, ¬ net.g.Edge v w) :
    ∃ net', net.removeNode v = (net', .ok ()) ∧ net'.Usable ∧
      ∀ E : Assign → Bool, DependsOn E (· ∈ net'.g.nodes) → net'.P E = net.P E := by
  have hG := hU.good
  obtain ⟨net', h1, h2, h3, h4, h5, h6, h7, h8⟩ := removeNode_spec hG hU.normalised hv
  have hgn : ∀ u, u ∈ net'.g.nodes ↔ u ∈ net.g.nodes ∧ u ≠ v := by
    intro u
    show u ∈ net'.m.g.nodes ↔ _
    rw [h4]
    simp
  have hge : ∀ a b, net'.g.Edge a b ↔ net.g.Edge a b ∧ a ≠ v ∧ b ≠ v := by
    intro a b
    show (a, b) ∈ net'.m.g.edges ↔ _
    rw [h4]
    simp [Graph.Edge]
  have hwf : net'.g.WF := by
    refine wf_removeNode hG.wf (v := v) ?_
    unfold Graph.removeNode
    rw [if_pos hv]
    show _ = Except.ok net'.m.g
    rw [h4]
  have hpar : ∀ w, w ≠ v → net'.g.parents w = net.g.parents w := by
    intro w hw
    show net'.m.g.parents w = _
    rw [h4]
    unfold Graph.parents
    simp only
    rw [List.filter_filter]
    congr 1
    apply List.filter_congr
    intro e he
    have hev : e.1 ≠ v := fun h => hl e.2 (by show (v, e.2) ∈ _; rw [← h]; exact he)
    by_cases hew : e.2 = w
    · simp [hew, hw, hev]
    · simp [hew]
  have hcpd : ∀ w, net'.cpds.get? w = if w = v then none else net.cpds.get? w := by
    intro w
    by_cases hw : w = v
    · rw [if_pos hw, hw, h6]
    · rw [if_neg hw, (h7 w hw (hl w)).1]
  have hcomp : ∀ w, w ≠ v → ∀ r, computed net'.g net'.domain w r = computed net.g net.domain w r := by
    intro w hw r
    cases r <;> simp only [computed, hpar w hw, h3]
  have hsome : ∀ {w c}, net'.cpds.get? w = some c → w ≠ v ∧ net.cpds.get? w = some c := by
    intro w c h
    rw [hcpd] at h
    split at h
    · cases h
    · exact ⟨by assumption, h⟩
  have hker : ∀ w, w ≠ v → ∀ a, net'.kernel w a = net.kernel w a := by
    intro w hw a
    unfold Net.kernel
    rw [hcpd, if_neg hw, h3]
  have hdom : ∀ w, net'.dom w = net.dom w := fun w => by unfold Net.dom; rw [h3]
  have hext : ∀ a, net'.InDom a → ∃ b, net.InDom b ∧ ∀ u, u ≠ v → b u = a u := by
    intro a ha
    exact exists_inDom hG a (fun u => u ≠ v) (fun u hu hun => by rw [← hdom]; exact ha u ((hgn u).2 ⟨hun, hu⟩))
  have hG' : net'.Good := by
    refine ⟨hwf, ?_, ?_, ?_, ?_, ?_, ?_, ?_⟩
    · rw [h5]
      exact hG.keys.filter _
    · intro w hw
      rw [h5] at hw
      have := List.mem_filter.1 hw
      exact (hgn w).2 ⟨hG.relNodes w this.1, by simpa using this.2⟩
    · intro w c hc
      obtain ⟨e1, e2⟩ := hsome hc
      obtain ⟨k1, r, k2, k3⟩ := hG.reflects w c e2
      exact ⟨by rw [h3]; exact k1, r, by rw [(h7 w e1 (hl w)).2, k2], by rw [hcomp w e1, k3]⟩
    · intro w hw
      obtain ⟨e1, e2⟩ := (hgn w).1 hw
      obtain ⟨c, k1, k2⟩ := hG.complete w e1
      exact ⟨c, by rw [hcpd, if_neg e2, k1], by rw [h3]; exact k2⟩
    · intro w c hc
      obtain ⟨e1, e2⟩ := hsome hc
      have hf := hG.fits w c e2
      refine ⟨hf.var, fun p => ?_, by rw [h3]; exact hf.cards, hf.sums⟩
      rw [hf.parents, hge]
      refine ⟨fun h => ⟨h, fun e => hl w (by rw [← e]; exact h), e1⟩, fun h => h.1⟩
    · intro w c hc
      exact hG.cpdOk w c (hsome hc).2
    · intro w c hc hk
      have hw : w ≠ v := by
        intro e
        have : w ∈ net'.rels.keys := Dict.mem_keys.2 ⟨_, hc⟩
        rw [h5] at this
        simpa [e] using (List.mem_filter.1 this).2
      rw [(h7 w hw (hl w)).2] at hc
      obtain ⟨c', k1, k2, k3⟩ := hG.tabs w c hc hk
      refine ⟨c', by rw [hpar w hw, h3]; exact k1, k2, fun a ha x => ?_⟩
      obtain ⟨b, hb1, hb2⟩ := hext a ha
      obtain ⟨c2, hc2, _⟩ := hG.complete w (hG.relNodes w (Dict.mem_keys.2 ⟨_, hc⟩))
      have hce : c2 = c := by
        obtain ⟨_, r', e2, e3⟩ := hG.reflects w c2 hc2
        rw [hc] at e2
        cases e2
        simpa [computed] using e3.symm
      subst hce
      have hev' : c'.evidence = net.g.parents w := (mkCpd_fields k1).2.1
      have hne : ∀ p, net.g.Edge p w → p ≠ v := fun p hp e => hl w (by rw [← e]; exact hp)
      have := k3 b hb1 x
      rw [List.map_congr_left (fun p hp => hb2 p (hne p (Graph.mem_parents.1 (hev' ▸ hp)))),
        List.map_congr_left (fun p hp => hb2 p (hne p (((hG.fits w c2 hc2).parents p).1 hp)))] at this
      rw [h3]
      exact this
  have hN' : net'.Normalised := by
    intro w hw a ha
    obtain ⟨e1, e2⟩ := (hgn w).1 hw
    obtain ⟨b, hb1, hb2⟩ := hext a ha
    have hk : ∀ a b : Assign, (∀ u, u ≠ v → b u = a u) → net.kernel w a = net.kernel w b := by
      intro a b h
      apply kernel_depends hG e1
      rintro u (rfl | hu)
      · exact (h u e2).symm
      · exact (h u (fun e => hl w (by rw [← e]; exact hu))).symm
    obtain ⟨n1, n2⟩ := hU.normalised w e1 b hb1
    rw [hker w e2, hk a b hb2]
    refine ⟨n1, ?_⟩
    rw [← n2, hdom]
    congr 1
    apply List.map_congr_left
    intro x _
    rw [hker w e2]
    apply hk
    intro u hu
    by_cases huw : u = w
    · subst huw; simp
    · rw [Assign.upd_ne _ _ huw, Assign.upd_ne _ _ huw]
      exact hb2 u hu
  have hrole : ∀ n, net'.m.role n = net.m.role n := fun n => by rw [h4]; rfl
  have hnr : v ∉ net.m.decisions ∧ v ∉ net.m.utilities := by
    constructor
    · intro h
      obtain ⟨a, ha⟩ := mem_decisions.1 h
      rw [role_decision.2 ha] at hr
      cases hr
    · intro h
      obtain ⟨a, ha⟩ := mem_utilities.1 h
      rw [(role_utility hU.roles).2 ha] at hr
      cases hr
  refine ⟨net', h1, ⟨hG', hN', ?_, by rw [h2]; exact hU.base, ?_⟩, ?_⟩
  · have hc := hU.roles
    have e : ∀ n, (n ∈ net'.m.decisions ↔ n ∈ net.m.decisions) ∧ (n ∈ net'.m.utilities ↔ n ∈ net.m.utilities) := by
      intro n; rw [h4]; exact ⟨Iff.rfl, Iff.rfl⟩
    refine ⟨hwf, by rw [h4]; exact hc.dec, by rw [h4]; exact hc.util, fun n hn hm => hc.disj n ((e n).1.1 hn) ((e n).2.1 hm), ?_⟩
    intro n hn
    refine (hgn n).2 ⟨hc.nodes n (hn.imp (e n).1.1 (e n).2.1), ?_⟩
    rintro rfl
    exact hn.elim (fun h => hnr.1 ((e n).1.1 h)) (fun h => hnr.2 ((e n).2.1 h))
  · have hs := hU.staffed
    refine ⟨fun a => by rw [h4]; exact hs.both a, fun a ha => ?_⟩
    rw [h4] at ha
    rcases hs.owns a ha with ⟨⟨n, hn⟩, ⟨k, hk⟩⟩ | h
    · exact Or.inl ⟨⟨n, by rw [hrole]; exact hn⟩, ⟨k, by rw [hrole]; exact hk⟩⟩
    · exact Or.inr (by rw [h2]; exact h)
  · intro E hE
    rw [P_eq_W, P_eq_W, BN.W_ancestral (bn_prob hG hU.normalised) (U := net'.g.nodes) hwf.nodesNodup
      (fun w hw => ((hgn w).1 hw).1)
      (fun u w huw hw => (hgn u).2 ⟨(hG.wf.edgeNodes u w huw).1, fun e => hl w (by rw [← e]; exact huw)⟩)
      (f := fun a => if E a then 1 else 0) (hE.comp (fun b : Bool => if b then (1 : Rat) else 0)) (fun _ => 0)]
    unfold BN.W
    rw [show net'.bn.dom = net.bn.dom from funext hdom]
    apply sumOver_congr
    intro b _ _
    congr 1
    unfold BN.prod
    congr 1
    apply List.map_congr_left
    intro w hw
    exact hker w ((hgn w).1 hw).2 b

/-- **C107** (what goes wrong) After removing a decision or a utility node the network still lists it as a decision or
utility, and it cannot be copied any more: `copy_without_cpds`, `copy` and every query with an intervention raise KeyError. -/
theorem C107_dangling_role {net : Net} (hU : net.Usable) {v : Node} (hv : v ∈ net.g.nodes) (hr : net.m.role v ≠ .chance) :
    ∃ net', net.removeNode v = (net', .ok ()) ∧ v ∉ net'.g.nodes ∧ (v ∈ net'.m.decisions ∨ v ∈ net'.m.utilities) ∧
      Macid.copyWithoutCpds net'.base net'.m = .error .key ∧ net'.copy = .error .key ∧
      ∀ ord q ctx int, int ≠ [] → net'.queryCore ord q ctx int = (net', .error .key) := by
  have hG := hU.good
  obtain ⟨net', h1, h2, h3, h4, h5, h6, h7, h8⟩ := removeNode_spec hG hU.normalised hv
  have hgn : v ∉ net'.g.nodes := by
    show v ∉ net'.m.g.nodes
    rw [h4]
    simp
  have hwf : net'.m.g.WF := by
    refine wf_removeNode hG.wf (v := v) ?_
    unfold Graph.removeNode
    rw [if_pos hv, h4]
  have hkey : Macid.copyWithoutCpds net'.base net'.m = .error .key := by
    cases hrole : net.m.role v with
    | chance => exact absurd hrole hr
    | decision a =>
      obtain ⟨l, e1, e2⟩ := (hU.roles.dec.iff v a).1 (role_decision.1 hrole)
      have ha : a ∈ net.m.agents := (hU.staffed.both a).2 (Dict.mem_keys.2 ⟨l, e1⟩)
      exact C107_role_without_node hwf (h2 ▸ hU.base) (a := a) (by rw [h4]; exact ha) hgn
        (Or.inl ⟨l, by rw [h4]; exact e1, e2⟩)
    | utility a =>
      obtain ⟨l, e1, e2⟩ := (hU.roles.util.iff v a).1 (role_eq_utility hrole)
      have ha : a ∈ net.m.agents := Dict.mem_keys.2 ⟨l, e1⟩
      exact C107_role_without_node hwf (h2 ▸ hU.base) (a := a) (by rw [h4]; exact ha) hgn
        (Or.inr ⟨l, by rw [h4]; exact e1, e2⟩)
  have hcopy : net'.copy = .error .key := by
    unfold Net.copy
    rw [hkey]
  refine ⟨net', h1, hgn, ?_, hkey, hcopy, ?_⟩
  · rw [h4]
    cases hrole : net.m.role v with
    | chance => exact absurd hrole hr
    | decision a => exact Or.inl (mem_decisions.2 ⟨a, role_decision.1 hrole⟩)
    | utility a => exact Or.inr (mem_utilities.2 ⟨a, role_eq_utility hrole⟩)
  · intro ord q ctx int hi
    unfold queryCore
    cases int with
    | nil => exact absurd rfl hi
    | cons p int => simp only [hcopy]

/-- without table objects `copy` assigns the same relationships again -/
theorem copyLoop_noTab (net : Net) : ∀ {l : List (Node × Rel)} {acc c : Net}, (∀ p ∈ l, p.2.isTab = false) →
    copyLoop net acc l = .ok c → acc.addCpds l = (c, .ok ())
  | [], acc, c, _, h => by
    simp only [copyLoop, Except.ok.injEq] at h
    simp [addCpds, h]
  | (v, r) :: l, acc, c, ht, h => by
    have hr : net.copyRel v r = .ok r := by
      have := ht (v, r) (by simp)
      cases r with
      | tab c => simp [Rel.isTab] at this
      | func f => rfl
      | dist f => rfl
      | seq f => rfl
    unfold copyLoop at h
    rw [hr] at h
    simp only at h
    unfold addCpds
    cases hs : acc.set v r with
    | mk n x =>
      rw [hs] at h
      cases x with
      | error e => cases h
      | ok u => exact copyLoop_noTab net (fun p hp => ht p (by simp [hp])) h

/-- **C107** (what goes wrong) If a child of the removed node is given by a function that cannot do without its argument, the
network cannot be copied any more, although the CPD of the child was adapted. -/
theorem C107_function_of_removed {net : Net} (hU : net.Usable) {v w : Node} (he : net.g.Edge v w) {f : Func}
    (hw : net.rels.get? w = some (.func f)) (hf : ∀ pv : PV, pv v = none → ∃ e, f pv = .error e)
    (ht : ∀ u r, net.rels.get? u = some r → r.isTab = false ∧ Honest r) :
    ∃ net', net.removeNode v = (net', .ok ()) ∧ net'.checkModel = true ∧ ∀ c, net'.copy ≠ .ok c := by
  have hG := hU.good
  have hv := (hG.wf.edgeNodes v w he).1
  obtain ⟨net1, q1, q2, q3, _, _, _, _, qc, _⟩ := C107_remove hU hv
  by_cases hr : net.m.role v = .chance
  swap
  · obtain ⟨net', h1, _, _, _, h2, _⟩ := C107_dangling_role hU hv hr
    rw [q1] at h1
    cases h1
    exact ⟨net1, q1, qc, fun c hc => by rw [h2] at hc; cases hc⟩
  obtain ⟨net', h1, h2, h3, h4, h5, h6, h7, h8⟩ := removeNode_spec hG hU.normalised hv
  rw [q1] at h1
  cases h1
  refine ⟨net1, q1, qc, fun c hc => ?_⟩
  -- relationships after the removal
  have hrel : ∀ u, u ≠ v → net1.rels.get? u = net.rels.get? u := by
    intro u hu
    by_cases heu : net.g.Edge v u
    · obtain ⟨k, hk, _⟩ := hG.complete u (hG.wf.edgeNodes v u heu).2
      obtain ⟨k', _, _, e3⟩ := h8 u heu k hk
      rw [e3]
      cases hru : net.rels.get? u with
      | none => rfl
      | some r =>
        have := (ht u r hru).1
        cases r with
        | tab c => simp [Rel.isTab] at this
        | func f => rfl
        | dist f => rfl
        | seq f => rfl
    · exact (h7 u hu heu).2
  have hrv : ∀ u, u ∈ net1.rels.keys → u ≠ v := by
    intro u hu
    rw [h5] at hu
    simpa using (List.mem_filter.1 hu).2
  have hkeys : net1.rels.keys.Nodup := by rw [h5]; exact hG.keys.filter _
  have hmem : ∀ p ∈ net1.rels, net.rels.get? p.1 = some p.2 := by
    intro p hp
    have hk : p.1 ∈ net1.rels.keys := List.mem_map_of_mem hp
    rw [← hrel p.1 (hrv p.1 hk)]
    exact Dict.get?_of_mem hkeys hp
  -- the graph of the copy
  have hwf : net1.m.g.WF := by
    refine wf_removeNode hG.wf (v := v) ?_
    unfold Graph.removeNode
    rw [if_pos hv, h4]
  have hcons : net1.m.Consistent := by
    have hc := hU.roles
    have e : ∀ n, (n ∈ net1.m.decisions ↔ n ∈ net.m.decisions) ∧ (n ∈ net1.m.utilities ↔ n ∈ net.m.utilities) := by
      intro n; rw [h4]; exact ⟨Iff.rfl, Iff.rfl⟩
    refine ⟨hwf, by rw [h4]; exact hc.dec, by rw [h4]; exact hc.util, fun n hn hm => hc.disj n ((e n).1.1 hn) ((e n).2.1 hm), ?_⟩
    intro n hn
    refine (q2 n).2 ⟨hc.nodes n (hn.imp (e n).1.1 (e n).2.1), ?_⟩
    rintro rfl
    rcases hn with hn | hn
    · obtain ⟨a, ha⟩ := mem_decisions.1 ((e n).1.1 hn)
      rw [role_decision.2 ha] at hr
      cases hr
    · obtain ⟨a, ha⟩ := mem_utilities.1 ((e n).2.1 hn)
      rw [(role_utility hc).2 ha] at hr
      cases hr
  obtain ⟨m', e1, e2, e3, e4, _⟩ := C16_copy_exact net1.m hcons net1.base (h2 ▸ hU.base)
    (fun a => by rw [h4]; exact hU.staffed.both a)
  unfold Net.copy at hc
  rw [e1] at hc
  have hadd := copyLoop_noTab net1 (fun p hp => (ht p.1 p.2 (hmem p hp)).1) hc
  have hfresh : (⟨m', [], [], [], net1.base⟩ : Net).Fresh := ⟨rfl, rfl, rfl⟩
  have hruns := addCpds_runs hadd
  have hrels : ∀ u, c.rels.get? u = net1.rels.get? u := by
    intro u
    rw [addCpds_rels hkeys hadd u]
    cases Dict.get? net1.rels u <;> rfl
  have hgc : c.g = m'.g := by
    have := (runs_inv hruns e2.wf (.ofFresh hfresh) hfresh.honest (fun op ho => by
      obtain ⟨p, hp, rfl⟩ := List.mem_map.1 ho
      exact (ht p.1 p.2 (hmem p hp)).2)).1
    exact this
  have hGc : c.Good := by
    refine good_of_runs (net := ⟨m', [], [], [], net1.base⟩) e2.wf hfresh (fun op ho => ?_) hruns (fun u hu => ?_) (fun u k hk => ?_)
    · obtain ⟨p, hp, rfl⟩ := List.mem_map.1 ho
      exact (ht p.1 p.2 (hmem p hp)).2
    · have hu1 : u ∈ net1.g.nodes := by
        show u ∈ net1.m.g.nodes
        rw [← e3]; exact hu
      obtain ⟨hu2, hu3⟩ := (q2 u).1 hu1
      obtain ⟨k, hk, _⟩ := hG.complete u hu2
      obtain ⟨_, r, hr', _⟩ := hG.reflects u k hk
      exact Dict.mem_keys.2 ⟨r, by rw [hrels, hrel u hu3, hr']⟩
    · rw [hrels] at hk
      have huv := hrv u (Dict.mem_keys.2 ⟨_, hk⟩)
      rw [hrel u huv] at hk
      have := (ht u _ hk).1
      simp [Rel.isTab] at this
  -- the function of the child is called without the removed parent
  have hwv : w ≠ v := fun e => hG.wf.acyclic v (.single (e ▸ he))
  have hwc : w ∈ c.g.nodes := by
    rw [hgc, e3]
    exact (q2 w).2 ⟨(hG.wf.edgeNodes v w he).2, hwv⟩
  obtain ⟨k, hk, _⟩ := hGc.complete w hwc
  obtain ⟨_, r, hr', hcomp⟩ := hGc.reflects w k hk
  rw [hrels, hrel w hwv, hw] at hr'
  cases hr'
  unfold computed at hcomp
  obtain ⟨ds, possible, domain, cards, cols, hds, hposs, _⟩ := mkCpd_ok_iff.1 hcomp
  have hdn : ∀ d ∈ ds, d ≠ [] := by
    intro d hd
    obtain ⟨p, hp1, hp2⟩ := mapPy_mem' hds hd
    obtain ⟨kp, hkp, hkd⟩ := hGc.complete p (hGc.wf.edgeNodes p w (Graph.mem_parents.1 hp1)).1
    simp only [domOf, hkd, Except.ok.injEq] at hp2
    exact hp2 ▸ (hGc.cpdOk p kp hkp).nonempty
  obtain ⟨vals, hvals⟩ := List.exists_mem_of_ne_nil _ (product_ne_nil hdn)
  have hnone : pvOf (c.g.parents w) vals v = none := by
    unfold pvOf
    rw [Dict.get?_none]
    intro hm
    unfold Dict.keys at hm
    obtain ⟨p, hp, e⟩ := List.mem_map.1 hm
    have hpar := List.of_mem_zip hp
    rw [e] at hpar
    have hedge := Graph.mem_parents.1 hpar.1
    rw [hgc, e4] at hedge
    exact ((q3 v w).1 hedge).2.1 rfl
  obtain ⟨e, hfe⟩ := hf _ hnone
  have hst : stochasticFunction f (pvOf (c.g.parents w) vals) = .error e := by
    unfold stochasticFunction
    rw [hfe]
  obtain ⟨e', he'⟩ := mapPy_error_of (f := stochasticFunction f) (List.mem_map_of_mem (f := pvOf (c.g.parents w)) hvals) hst
  unfold possibleValues at hposs
  rw [he'] at hposs
  cases hposs

namespace ExRm

/-- A → B, A → D → U, A → U -/
def m : Macid := ⟨⟨["A", "B", "D", "U"], [("A", "B"), ("A", "D"), ("D", "U"), ("A", "U")]⟩, [(0, ["D"])], [(0, ["U"])],
  [("D", 0)], [("U", 0)]⟩

/-- B repeats A -/
def echo : Func := fun pv => match pv "A" with
  | some x => .ok (.val x)
  | none => .error .type

/-- A is 1 with probability 3/4; B repeats A; U = 1 iff D matches A -/
def rels : List (Node × Rel) :=
  [("U", .func Ex.utility), ("D", .seq [0, 1]), ("B", .func echo), ("A", .dist [(0, some (1 / 4)), (1, some (3 / 4))])]

/-- the parameterised network -/
def net : Net := build m Macid.new rels

theorem m_consistent : m.Consistent :=
  C15_constructor_consistent [("A", "B"), ("A", "D"), ("D", "U"), ("A", "U")] [(0, ["D"])] [(0, ["U"])] m
    (by decide +kernel) (by decide) (by decide) (by decide) (by decide)

theorem net_usable : net.Usable ∧ net.m = m ∧ net.base = Macid.new := by
  refine usable_build m_consistent (Or.inl rfl) (by decide +kernel) (by decide) ?_ (by decide) (by decide +kernel)
    (by decide +kernel) (by decide +kernel)
  intro p hp
  simp only [rels, List.mem_cons, List.not_mem_nil, or_false] at hp
  rcases hp with rfl | rfl | rfl | rfl
  · intro pv; simp [Ex.utility]
  · trivial
  · intro pv; simp only [echo]; split <;> simp
  · trivial

end ExRm

/-- **C107** The hypotheses are met.  In the example B repeats A, and A is 1 with probability 3/4.  Removing the leaf B leaves
the probability of A alone.  Removing A makes B a fair coin, which is not its distribution before, and then the network
cannot be copied.  Removing the decision D leaves a network that still lists D.  The last two parts are for the constructor. -/
theorem C107_example :
    (ExRm.net.m.role "B" = .chance ∧ (∀ w, ¬ ExRm.net.g.Edge "B" w) ∧
      (ExRm.net.removeNode "B").1.P (fun a => decide (a "A" = 1)) = 3 / 4) ∧
    (ExRm.net.g.Edge "A" "B" ∧ ExRm.net.P (fun a => decide (a "B" = 1)) = 3 / 4 ∧
      (ExRm.net.removeNode "A").1.P (fun a => decide (a "B" = 1)) = 1 / 2 ∧
      ∀ c, (ExRm.net.removeNode "A").1.copy ≠ .ok c) ∧
    (ExRm.net.m.role "D" = .decision 0 ∧ "D" ∈ (ExRm.net.removeNode "D").1.m.decisions ∧
      (ExRm.net.removeNode "D").1.copy.isOk = false) ∧
    (Macid.init [("A", "B")] [(0, ["D"])] [(0, ["B"])]).isOk = true := by
  have hU := ExRm.net_usable.1
  have hg : ExRm.net.g.edges = [("A", "B"), ("A", "D"), ("D", "U"), ("A", "U")] := by decide +kernel
  refine ⟨⟨by decide +kernel, ?_, by decide +kernel⟩, ⟨?_, by decide +kernel, by decide +kernel, ?_⟩, ⟨by decide +kernel, by decide +kernel, ?_⟩,
    by decide +kernel⟩
  · intro w h
    unfold Edge at h
    rw [hg] at h
    simp at h
  · unfold Edge
    rw [hg]
    simp
  · have he : ExRm.net.g.Edge "A" "B" := by
      unfold Edge
      rw [hg]
      simp
    have hadd : (⟨ExRm.m, [], [], [], Macid.new⟩ : Net).addCpds ExRm.rels = (ExRm.net, .ok ()) := by
      have e : ((⟨ExRm.m, [], [], [], Macid.new⟩ : Net).addCpds ExRm.rels).2 = .ok () := by decide +kernel
      unfold ExRm.net build
      rw [← e]
    have hrels : ∀ u, Dict.get? ExRm.net.rels u = Dict.get? ExRm.rels u := by
      intro u
      rw [addCpds_rels (by decide) hadd u]
      cases Dict.get? ExRm.rels u <;> rfl
    obtain ⟨net', h1, _, h2⟩ := C107_function_of_removed hU he (f := ExRm.echo) (by rw [hrels]; rfl)
      (fun pv h => ⟨.type, by simp [ExRm.echo, h]⟩) (fun u r h => by
        rw [hrels] at h
        have hm := Dict.mem_of_get? h
        simp only [ExRm.rels, List.mem_cons, Prod.mk.injEq, List.not_mem_nil, or_false] at hm
        rcases hm with ⟨_, rfl⟩ | ⟨_, rfl⟩ | ⟨_, rfl⟩ | ⟨_, rfl⟩
        · exact ⟨rfl, fun pv => by simp [Ex.utility]⟩
        · exact ⟨rfl, trivial⟩
        · exact ⟨rfl, fun pv => by simp only [ExRm.echo]; split <;> simp⟩
        · exact ⟨rfl, trivial⟩)
    rw [h1]
    exact h2
  · obtain ⟨net', h1, _, _, _, h2, _⟩ := C107_dangling_role hU (v := "D") (by decide +kernel) (by decide +kernel)
    rw [h1]
    show net'.copy.isOk = false
    rw [h2]
    rfl

/-- **C107** What `remove_node` does to the other relationships: nothing, except that a child given as a CPD object is now
given by the averaged object. -/
theorem C107_relationships {net : Net} (hU : net.Usable) {v : Node} (hv : v ∈ net.g.nodes) :
    ∃ net', net.removeNode v = (net', .ok ()) ∧ ∀ w r, w ≠ v → net.rels.get? w = some r →
      ((¬ net.g.Edge v w ∨ ∀ c, r ≠ .tab c) → net'.rels.get? w = some r) ∧
      (net.g.Edge v w → ∀ c, r = .tab c → ∃ c', net'.cpds.get? w = some c' ∧ net'.rels.get? w = some (.tab c') ∧ v ∉ c'.evidence) := by
  have hG := hU.good
  obtain ⟨net', h1, _, _, _, _, _, h7, h8⟩ := removeNode_spec hG hU.normalised hv
  refine ⟨net', h1, fun w r hw hr => ?_⟩
  by_cases he : net.g.Edge v w
  · obtain ⟨c, hc, _⟩ := hG.complete w (hG.wf.edgeNodes v w he).2
    obtain ⟨c', k1, k2, k3⟩ := h8 w he c hc
    obtain ⟨c'', j1, _, _, _, _, _, j3, _⟩ := margOut_prob hG hU.normalised he hc
    rw [k1] at j1
    cases j1
    rw [hr] at k3
    refine ⟨fun h => ?_, fun _ d hd => ⟨c', k2, ?_, by rw [j3]; simp⟩⟩
    · rw [k3]
      cases r with
      | tab d => exact absurd rfl ((h.resolve_left (not_not_intro he)) d)
      | _ => rfl
    · rw [k3, hd]
      rfl
  · exact ⟨fun _ => by rw [(h7 w hw he).2, hr], fun h => absurd h he⟩

theorem margOut_ok {c : Cpd} {dom : Dict Node (List Outcome)} {v : Node} (h : v ∈ c.evidence) :
    ∃ c', c.margOut dom v = .ok c' ∧ ∀ p, p ∈ c'.evidence ↔ p ∈ c.evidence ∧ p ≠ v := by
  unfold Cpd.margOut
  rw [if_neg (not_not_intro h)]
  exact ⟨_, rfl, fun p => by simp⟩

theorem margOut_err {c : Cpd} {dom : Dict Node (List Outcome)} {v : Node} (h : v ∉ c.evidence) : c.margOut dom v = .error .value := by
  unfold Cpd.margOut
  rw [if_pos h]

theorem averageOut_gen (v : Node) : ∀ (ws : List Node) (net : Net), ws.Nodup →
    (∀ w ∈ ws, ∀ c, net.cpds.get? w = some c → v ∈ c.evidence) →
    ∃ net', averageOut v net ws = (net', .ok ()) ∧ net'.m = net.m ∧ net'.rels.keys = net.rels.keys ∧
      (∀ u, u ∉ ws → net'.cpds.get? u = net.cpds.get? u) ∧
      (∀ u ∈ ws, (net.cpds.get? u = none → net'.cpds.get? u = none) ∧ ∀ c, net.cpds.get? u = some c →
        ∃ c', net'.cpds.get? u = some c' ∧ ∀ p, p ∈ c'.evidence ↔ p ∈ c.evidence ∧ p ≠ v) := by
  intro ws
  induction ws with
  | nil => intro net _ _; exact ⟨net, rfl, rfl, rfl, fun u _ => rfl, fun u h => by simp at h⟩
  | cons w ws ih =>
    intro net hn h
    have hw := List.nodup_cons.1 hn
    cases hcw : net.cpds.get? w with
    | none =>
      obtain ⟨net', k1, k2, k3, k4, k5⟩ := ih net hw.2 (fun u hu => h u (by simp [hu]))
      refine ⟨net', ?_, k2, k3, fun u hu => k4 u (fun e => hu (by simp [e])), ?_⟩
      · unfold averageOut
        rw [hcw]
        exact k1
      · intro u hu
        rcases List.mem_cons.1 hu with rfl | hu
        · refine ⟨fun _ => by rw [k4 u hw.1, hcw], fun c hc => ?_⟩
          rw [hcw] at hc
          cases hc
        · exact k5 u hu
    | some c =>
      obtain ⟨c', h2, h3⟩ := margOut_ok (dom := net.domain) (h w (by simp) c hcw)
      set n1 : Net := { net with
          cpds := net.cpds.set w c'
          rels := net.rels.map (fun p => if p.1 = w then (p.1, touch c' p.2) else p) } with hn1
      have hc1 : ∀ u, n1.cpds.get? u = if u = w then some c' else net.cpds.get? u := fun u => Dict.get?_set _ _ _ _
      obtain ⟨net', k1, k2, k3, k4, k5⟩ := ih n1 hw.2 (fun u hu d hd => by
        have : u ≠ w := fun e => hw.1 (e ▸ hu)
        rw [hc1, if_neg this] at hd
        exact h u (by simp [hu]) d hd)
      refine ⟨net', ?_, k2, k3.trans (keys_map_touch _ _ _), ?_, ?_⟩
      · unfold averageOut
        rw [hcw]
        simp only [h2]
        exact k1
      · intro u hu
        have hne : u ≠ w := fun e => hu (by simp [e])
        rw [k4 u (fun e => hu (by simp [e])), hc1, if_neg hne]
      · intro u hu
        by_cases hne : u = w
        · subst hne
          refine ⟨fun e => absurd (hcw.symm.trans e) (by simp), fun d hd => ?_⟩
          rw [hcw] at hd
          cases hd
          exact ⟨c', by rw [k4 u hw.1, hc1, if_pos rfl], h3⟩
        · have := k5 u ((List.mem_cons.1 hu).resolve_left hne)
          rw [hc1, if_neg hne] at this
          exact this

/-- **C107** Networks that are not (completely) parameterised: if the CPDs of the children mention the node, it is removed; the
children that have a CPD keep one, which no longer mentions the node, and the others still have none. -/
theorem C107_incomplete {net : Net} (hw : net.g.WF) {v : Node} (hv : v ∈ net.g.nodes)
    (hev : ∀ w c, net.g.Edge v w → net.cpds.get? w = some c → v ∈ c.evidence)
    (hk : ∀ c, net.cpds.get? v = some c → v ∈ net.rels.keys) :
    ∃ net', net.removeNode v = (net', .ok ()) ∧ v ∉ net'.g.nodes ∧ net'.cpds.get? v = none ∧
      ∀ w, w ≠ v → (¬ net.g.Edge v w → net'.cpds.get? w = net.cpds.get? w) ∧
        (net.g.Edge v w → (net.cpds.get? w = none → net'.cpds.get? w = none) ∧ ∀ c, net.cpds.get? w = some c →
          ∃ c', net'.cpds.get? w = some c' ∧ ∀ p, p ∈ c'.evidence ↔ p ∈ c.evidence ∧ p ≠ v) := by
  have hch : ∀ w, w ∈ net.g.children v ↔ net.g.Edge v w := fun w => Graph.mem_children
  obtain ⟨n1, h1, h2, h3, h4, h5⟩ := averageOut_gen v (net.g.children v) net (Graph.nodup_children hw.edgesNodup v)
    (fun w hw c hc => hev w c ((hch w).1 hw) hc)
  have hvv : v ∉ net.g.children v := fun h => hw.acyclic v (.single ((hch v).1 h))
  have hg1 : n1.g = net.g := congrArg Macid.g h2
  have hget : n1.getCpd v = .ok (net.cpds.get? v) := by
    unfold getCpd
    rw [hg1, if_pos hv, h4 v hvv]
  have hrm : ∀ n : Net, n.g = net.g → ∃ g, n.g.removeNode v = .ok g ∧ v ∉ g.nodes := by
    intro n hn
    unfold Graph.removeNode
    rw [hn, if_pos hv]
    exact ⟨_, rfl, by simp⟩
  cases hcv : net.cpds.get? v with
  | none =>
    obtain ⟨g, e1, e2⟩ := hrm n1 hg1
    refine ⟨n1.withGraph g, ?_, e2, by show n1.cpds.get? v = none; rw [h4 v hvv, hcv], fun w hwv => ?_⟩
    · unfold Net.removeNode
      rw [h1]
      simp only [hget, hcv]
      rw [e1]
    · exact ⟨fun he => h4 w (fun h => he ((hch w).1 h)), fun he => h5 w ((hch w).2 he)⟩
  | some c =>
    have hkey : v ∈ n1.rels.keys := by rw [h3]; exact hk c hcv
    obtain ⟨g, e1, e2⟩ := hrm (n1.delKey v) hg1
    have hd : ∀ w, w ≠ v → ((n1.delKey v).withGraph g).cpds.get? w = n1.cpds.get? w := by
      intro w hwv
      show (n1.cpds.erase v).get? w = _
      rw [Dict.get?_erase, if_neg hwv]
    refine ⟨(n1.delKey v).withGraph g, ?_, e2, ?_, fun w hwv => ?_⟩
    · unfold Net.removeNode
      rw [h1]
      simp only [hget, hcv, Net.del, if_pos hkey]
      rw [e1]
    · show (n1.cpds.erase v).get? v = none
      rw [Dict.get?_erase, if_pos rfl]
    · rw [hd w hwv]
      exact ⟨fun he => h4 w (fun h => he ((hch w).1 h)), fun he => h5 w ((hch w).2 he)⟩

theorem averageOut_err (v : Node) : ∀ (ws : List Node) (net : Net), ws.Nodup →
    (∃ w ∈ ws, ∃ c, net.cpds.get? w = some c ∧ v ∉ c.evidence) →
    ∃ net', averageOut v net ws = (net', .error .value) ∧ net'.m = net.m := by
  intro ws
  induction ws with
  | nil => rintro net _ ⟨w, hw, _⟩; simp at hw
  | cons w ws ih =>
    rintro net hn ⟨u, hu, c, hc, hcv⟩
    have hw := List.nodup_cons.1 hn
    unfold averageOut
    cases hcw : net.cpds.get? w with
    | none =>
      refine ih net hw.2 ⟨u, ?_, c, hc, hcv⟩
      rcases List.mem_cons.1 hu with rfl | hu
      · rw [hcw] at hc
        cases hc
      · exact hu
    | some d =>
      by_cases hd : v ∈ d.evidence
      · obtain ⟨d', h2, _⟩ := margOut_ok (dom := net.domain) hd
        simp only [h2]
        have huw : u ≠ w := by
          rintro rfl
          rw [hcw] at hc
          cases hc
          exact hcv hd
        exact ih { net with
          cpds := net.cpds.set w d'
          rels := net.rels.map (fun p => if p.1 = w then (p.1, touch d' p.2) else p) } hw.2
          ⟨u, (List.mem_cons.1 hu).resolve_left huw, c, by show (net.cpds.set w d').get? u = some c; rw [Dict.get?_set, if_neg huw, hc], hcv⟩
      · simp only [margOut_err hd]
        exact ⟨net, rfl, rfl⟩

/-- **C107** (what goes wrong) If the CPD of a child does not mention the node, for example because the edge was added after the
CPD, `remove_node` raises ValueError and the node stays. -/
theorem C107_stale_child {net : Net} (hw : net.g.WF) {v w : Node} (he : net.g.Edge v w) {c : Cpd} (hc : net.cpds.get? w = some c)
    (hv : v ∉ c.evidence) : ∃ net', net.removeNode v = (net', .error .value) ∧ net'.g = net.g := by
  obtain ⟨n1, h1, h2⟩ := averageOut_err v (net.g.children v) net (Graph.nodup_children hw.edgesNodup v)
    ⟨w, Graph.mem_children.2 he, c, hc, hv⟩
  refine ⟨n1, ?_, congrArg Macid.g h2⟩
  unfold Net.removeNode
  rw [h1]

/-- B repeats A, as a table object -/
def ExRm.echoTable : Cpd := ⟨"B", [0, 1], ["A"], [2], [[1, 0], [0, 1]], .tabular, fun _ => .error .type, none⟩

/-- **C107** The hypotheses are met.  Without the relationship of B, the child D of A still gets its new CPD when A is removed.  After
an edge B → U was added, B cannot be removed.  If B is given as a table object, this object is averaged when A is removed. -/
theorem C107_more_examples :
    (((ExRm.net.del "B").1.removeNode "A").2 = .ok () ∧ ((ExRm.net.del "B").1.cpds.get? "B").isNone = true ∧
      (((ExRm.net.del "B").1.removeNode "A").1.cpds.get? "U").map (·.evidence) = some ["D"] ∧
      ((ExRm.net.del "B").1.cpds.get? "U").map (·.evidence) = some ["D", "A"]) ∧
    ((ExRm.net.addEdge "B" "U").2 = .ok () ∧ ((ExRm.net.addEdge "B" "U").1.removeNode "B").2 = .error .value) ∧
    ((ExRm.net.set "B" (.tab ExRm.echoTable)).2 = .ok () ∧
      ((ExRm.net.set "B" (.tab ExRm.echoTable)).1.removeNode "A").2 = .ok () ∧
      (match ((ExRm.net.set "B" (.tab ExRm.echoTable)).1.removeNode "A").1.rels.get? "B" with
        | some (.tab c) => c.table
        | _ => []) = [[1 / 2, 1 / 2]]) := by
  refine ⟨by decide +kernel, by decide +kernel, by decide +kernel⟩

end Verif

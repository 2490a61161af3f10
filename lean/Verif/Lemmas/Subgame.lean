import Verif.Model.Subgame
import Verif.Spec.Subgame
import Verif.Lemmas.Assign
import Verif.Lemmas.Incentive
import Verif.Props.Structure

/-! Subgames. -/

namespace Verif
open Relation Graph Macid

theorem groupByAgent_ok {owner : Dict Node Agent} : ∀ {ns : List Node} {acc : Dict Agent (List Node)},
    (∀ n ∈ ns, ∃ a, owner.get? n = some a) → ∃ res, groupByAgent owner acc ns = .ok res ∧
      (acc.keys.Nodup → res.keys.Nodup) ∧
      (∀ a, (res.get? a).getD [] = (acc.get? a).getD [] ++ ns.filter (fun n => decide (owner.get? n = some a))) ∧
      ∀ a, a ∈ res.keys ↔ a ∈ acc.keys ∨ ∃ n ∈ ns, owner.get? n = some a := by
  intro ns
  induction ns with
  | nil => intro acc _; exact ⟨acc, rfl, fun h => h, by simp, by simp⟩
  | cons n ns ih =>
    intro acc h
    obtain ⟨a, ha⟩ := h n (by simp)
    obtain ⟨res, h1, h2, h3, h4⟩ := ih (acc := acc.set a ((acc.get? a).getD [] ++ [n])) (fun x hx => h x (by simp [hx]))
    refine ⟨res, by simp only [groupByAgent, Dict.get_ok.2 ha]; exact h1, fun hn => h2 (Dict.nodup_keys_set hn), ?_, ?_⟩
    · intro b
      rw [h3, Dict.get?_set]
      by_cases hb : b = a
      · subst hb
        simp [ha]
      · have : ¬ a = b := fun e => hb e.symm
        simp [hb, ha, this]
    · intro b
      rw [h4, Dict.mem_keys, Dict.mem_keys]
      simp only [Dict.get?_set, List.mem_cons, exists_eq_or_imp, ha, Option.some.injEq]
      by_cases hb : b = a
      · subst hb; simp
      · have : ¬ a = b := fun e => hb e.symm
        simp [hb, this]

theorem groupByAgent_nodup {owner : Dict Node Agent} {ns : List Node} {res : Dict Agent (List Node)}
    (hk : res.keys.Nodup) (hn : ns.Nodup)
    (hl : ∀ a, (res.get? a).getD [] = ns.filter (fun n => decide (owner.get? n = some a))) :
    (res.flatMap (·.2)).Nodup ∧ ∀ n, n ∈ res.flatMap (·.2) → n ∈ ns ∧ ∃ a, owner.get? n = some a := by
  have hp : ∀ p ∈ res, p.2 = ns.filter (fun n => decide (owner.get? n = some p.1)) := by
    intro p hp
    have := hl p.1
    rw [Dict.get?_of_mem hk (show (p.1, p.2) ∈ res from hp)] at this
    exact this
  refine ⟨List.nodup_flatMap.2 ⟨fun p h => by rw [hp p h]; exact hn.filter _, ?_⟩, ?_⟩
  · have : res.Pairwise (fun p q => p.1 ≠ q.1) := List.pairwise_map.1 hk
    refine this.imp_of_mem ?_
    intro p q h1 h2 hne
    show List.Disjoint p.2 q.2
    rw [hp p h1, hp q h2]
    intro n h3 h4
    simp only [List.mem_filter, decide_eq_true_eq] at h3 h4
    rw [h3.2] at h4
    exact hne (by simpa using h4.2)
  · intro n hnm
    obtain ⟨p, h1, h2⟩ := List.mem_flatMap.1 hnm
    rw [hp p h1] at h2
    simp only [List.mem_filter, decide_eq_true_eq] at h2
    exact ⟨h2.1, _, h2.2⟩

theorem nodes_ofEdges {es : List (Node × Node)} {g : Graph} (h : Graph.ofEdges es = .ok g) (v : Node) :
    v ∈ g.nodes ↔ ∃ w, g.Edge v w ∨ g.Edge w v := by
  have key : ∀ (es : List (Node × Node)) (g g' : Graph), g.addEdges es = .ok g' →
      (∀ v, v ∈ g.nodes ↔ ∃ w, g.Edge v w ∨ g.Edge w v) → ∀ v, v ∈ g'.nodes ↔ ∃ w, g'.Edge v w ∨ g'.Edge w v := by
    intro es
    induction es with
    | nil => intro g g' h hg; simp [addEdges] at h; exact h ▸ hg
    | cons e es ih =>
      intro g g' h hg
      obtain ⟨a, b⟩ := e
      unfold addEdges at h
      cases h1 : g.addEdge a b with
      | error e => rw [h1] at h; cases h
      | ok g1 =>
        rw [h1] at h
        refine ih g1 g' h ?_
        have h2 : g1 = g.nxAddEdge a b := by
          unfold addEdge at h1
          split at h1
          · cases h1
          · split at h1
            · cases h1
            · exact (Except.ok.inj h1).symm
        subst h2
        intro v
        rw [nxAddEdge_nodes, hg]
        simp only [nxAddEdge_edge]
        constructor
        · rintro (⟨w, h | h⟩ | rfl | rfl)
          · exact ⟨w, Or.inl (Or.inl h)⟩
          · exact ⟨w, Or.inr (Or.inl h)⟩
          · exact ⟨b, Or.inl (Or.inr ⟨rfl, rfl⟩)⟩
          · exact ⟨a, Or.inr (Or.inr ⟨rfl, rfl⟩)⟩
        · rintro ⟨w, (h | ⟨rfl, rfl⟩) | (h | ⟨rfl, rfl⟩)⟩
          · exact Or.inl ⟨w, Or.inl h⟩
          · exact Or.inr (Or.inl rfl)
          · exact Or.inl ⟨w, Or.inr h⟩
          · exact Or.inr (Or.inr rfl)
  refine key es Graph.empty g h ?_ v
  intro v; simp [Graph.empty, Graph.Edge]
/-- what `r_nodes` contains -/
theorem relevantNodes_spec {m : Macid} (hc : m.Consistent) (hn : NamesOk m.g) (pick : Pick) {active : List Node}
    (hd : ∀ d ∈ active, m.Playable d) : ∃ r, relevantNodes pick m active = .ok r ∧ r.Nodup ∧
      ∀ v, v ∈ r ↔ v ∈ m.g.nodes ∧ m.RelevantTo active v := by
  classical
  have h1 := filterM'_spec (f := fun n => isRReachable pick m active [n]) (P := fun n => m.RelevantTo active n)
    (xs := m.g.nodes) (by
      intro n hnn
      obtain ⟨b, e1, e2⟩ := isRReachable_spec hc (mecFree_of_names hn) pick (ns := [n]) hd (by simpa using hnn)
      exact ⟨b, e1, by rw [e2]; simp [RelevantTo]⟩)
  exact ⟨_, h1, hc.wf.nodesNodup.filter _, fun v => by simp⟩

/-- a relevant node has a neighbour in the subgame -/
theorem relevant_incident {m : Macid} (hc : m.Consistent) {active : List Node} {v : Node} (hv : v ∈ m.g.nodes)
    (h : m.RelevantTo active v) : ∃ w, (m.g.Edge v w ∧ m.RelevantTo active w) ∨ m.g.Edge w v := by
  obtain ⟨d, hd, hr⟩ := h
  obtain ⟨a, u, h1, h2, h3, h4⟩ := (rreach_iff hc.wf hv).1 hr
  obtain ⟨huZ, r, ⟨p1, p2, p3, p4⟩, hact, hnil, hcons⟩ := h4
  cases r with
  | nil =>
    simp at p2
    subst p2
    obtain ⟨c, _, hc'⟩ := TransGen.tail'_iff.1 h3
    exact ⟨c, Or.inr hc'⟩
  | cons c r =>
    rw [List.isChain_cons_cons] at p3
    rcases p3.1 with hvc | hcv
    · refine ⟨c, Or.inl ⟨hvc, d, hd, (rreach_iff hc.wf (hc.wf.edgeNodes v c hvc).2).2 ⟨a, u, h1, h2, h3, huZ, r, ?_⟩⟩⟩
      have hcv : ¬ m.g.Edge c v := fun h => hc.wf.acyclic c (TransGen.tail (TransGen.single h) hvc)
      refine ⟨⟨rfl, by simpa using p2, p3.2, (List.nodup_cons.1 p4).2⟩, fun l x y z t ht => hact (v :: l) x y z t (by simp [ht]), ?_, ?_⟩
      · rintro rfl
        simp at p2
        exact p2 ▸ huZ
      · rintro e r' rfl
        obtain ⟨k1, k2⟩ := hact [] v c e r' rfl
        refine ⟨fun he => k1 ⟨hvc, he⟩, fun he => k2 (fun hh => he hh.2)⟩
    · exact ⟨c, Or.inr hcv⟩

/-- a decision that can influence a utility of its owner has a child in the subgame -/
theorem active_incident {m : Macid} (hc : m.Consistent) {active : List Node} {d u : Node} {a : Agent} (hd : d ∈ active)
    (h1 : m.role d = .decision a) (h2 : m.role u = .utility a) (h3 : m.g.Desc d u) :
    ∃ w, m.g.Edge d w ∧ m.RelevantTo active w := by
  obtain ⟨c, hdc, hcu⟩ := TransGen.head'_iff.1 h3
  refine ⟨c, hdc, d, hd, (rreach_iff hc.wf (hc.wf.edgeNodes d c hdc).2).2 ⟨a, u, h1, h2, h3, ?_⟩⟩
  refine into_of_desc hc.wf hcu ?_
  intro z hz hcz
  rcases mem_family.1 hz with rfl | hz
  · exact hc.wf.acyclic z (TransGen.head' hdc hcz)
  · exact hc.wf.acyclic d (TransGen.head' hdc (hcz.tail hz))

/-- the skeleton -/
theorem subgameSkeleton_spec {m : Macid} (hc : m.Consistent) {setOrd : List Node → List Node}
    (hset : ∀ l, (setOrd l).Perm l) {active relevant : List Node} (hnd : active.Nodup) (hrn : relevant.Nodup)
    (hd : ∀ d ∈ active, m.Playable d) (hr : ∀ v, v ∈ relevant ↔ v ∈ m.g.nodes ∧ m.RelevantTo active v) :
    ∃ sg, subgameSkeleton setOrd m active relevant = .ok sg ∧ m.IsSubgame active sg ∧
      (∀ a, a ∈ sg.agentDecisions.keys ↔ ∃ d ∈ active, m.role d = .decision a) ∧
      (∀ a, a ∈ sg.agentUtilities.keys ↔ ∃ u, m.RelevantTo active u ∧ m.role u = .utility a) ∧
      ((∀ d ∈ active, d ∈ sg.g.nodes) → (∀ v, m.RelevantTo active v → v ∈ m.g.nodes → v ∈ sg.g.nodes) → sg.Consistent) := by
  obtain ⟨ad, a1, a2, a3, a4⟩ := groupByAgent_ok (owner := m.decisionAgent) (ns := active) (acc := []) (by
    intro n hn
    obtain ⟨a, ha, _⟩ := hd n hn
    exact ⟨a, role_decision.1 ha⟩)
  let us := setOrd (relevant.filter (fun n => decide (n ∈ m.utilities)))
  have hus : us.Nodup := (hset _).nodup_iff.2 (hrn.filter _)
  have husm : ∀ v, v ∈ us ↔ m.RelevantTo active v ∧ v ∈ m.utilities := by
    intro v
    rw [(hset _).mem_iff]
    simp only [List.mem_filter, decide_eq_true_eq, hr]
    exact ⟨fun h => ⟨h.1.2, h.2⟩, fun h => ⟨⟨hc.nodes v (Or.inr h.2), h.1⟩, h.2⟩⟩
  obtain ⟨au, b1, b2, b3, b4⟩ := groupByAgent_ok (owner := m.utilityAgent) (ns := us) (acc := []) (by
    intro n hn
    exact mem_utilities.1 ((husm n).1 hn).2)
  have a2' := a2 (by simp [Dict.keys])
  have b2' := b2 (by simp [Dict.keys])
  simp only [Dict.get?, Option.getD_none, List.nil_append] at a3 b3
  obtain ⟨a5, a6⟩ := groupByAgent_nodup a2' hnd a3
  obtain ⟨b5, b6⟩ := groupByAgent_nodup b2' hus b3
  set es := m.g.edges.filter (fun e => decide (e.2 ∈ relevant ∨ e.2 ∈ active)) with hes
  have hmem : ∀ u v, (u, v) ∈ es ↔ m.g.Edge u v ∧ m.InGame active v := by
    intro u v
    simp only [hes, List.mem_filter, decide_eq_true_eq, hr]
    constructor
    · rintro ⟨h1, h2⟩
      exact ⟨h1, h2.elim (fun h => Or.inr h.2) (fun h => Or.inl h)⟩
    · rintro ⟨h1, h2⟩
      exact ⟨h1, h2.elim (fun h => Or.inr h) (fun h => Or.inl ⟨(hc.wf.edgeNodes u v h1).2, h⟩)⟩
  obtain ⟨c1, c2⟩ := C13_constructor es
  obtain ⟨g, hg⟩ := c1.2 (fun a h => hc.wf.acyclic a (TransGen.mono (fun x y hxy => ((hmem x y).1 hxy).1) _ _ h))
  have hinit : Macid.init es ad au = .ok ⟨g, ad, au, invert ad, invert au⟩ := by simp [Macid.init, hg]
  have hAd := invert_agree a2' a5
  have hAu := invert_agree b2' b5
  have key : ∀ {owner : Dict Node Agent} {ns : List Node} {res : Dict Agent (List Node)}, Agree res (invert res) →
      (∀ a, (res.get? a).getD [] = ns.filter (fun n => decide (owner.get? n = some a))) →
      ∀ v a, (invert res).get? v = some a ↔ v ∈ ns ∧ owner.get? v = some a := by
    intro owner ns res hA hl v a
    rw [hA.iff]
    have := hl a
    constructor
    · rintro ⟨l, h1, h2⟩
      rw [h1] at this
      simp only [Option.getD_some] at this
      rw [this] at h2
      simpa using h2
    · intro h
      have hv : v ∈ (res.get? a).getD [] := by rw [this]; simpa using h
      cases hx : res.get? a with
      | none => rw [hx] at hv; simp at hv
      | some l => rw [hx] at hv; exact ⟨l, rfl, hv⟩
  have kd := key hAd a3
  have ku := key hAu b3
  refine ⟨⟨g, ad, au, invert ad, invert au⟩, ?_, ⟨fun u v => ?_, fun v => nodes_ofEdges hg v, wf_of_ofEdges hg, fun v a => ?_, fun v a => ?_⟩, ?_, ?_, ?_⟩
  · simp only [subgameSkeleton, a1]
    show (match groupByAgent m.utilityAgent [] us with | .error e => _ | .ok au => _) = _
    rw [b1]
    exact hinit
  · rw [← hmem]; exact c2 g hg u v
  · rw [role_decision]
    show (invert ad).get? v = some a ↔ _
    rw [kd, role_decision]
  · have hrole : Macid.role ⟨g, ad, au, invert ad, invert au⟩ v = .utility a ↔
        (invert ad).get? v = none ∧ (invert au).get? v = some a := by
      simp only [Macid.role]
      cases (invert ad).get? v with
      | some b => simp
      | none => cases (invert au).get? v <;> simp
    rw [hrole, ku, husm, role_utility hc]
    constructor
    · rintro ⟨_, ⟨h1, _⟩, h2⟩; exact ⟨h1, h2⟩
    · rintro ⟨h1, h2⟩
      have hu : v ∈ m.utilities := mem_utilities.2 ⟨a, h2⟩
      refine ⟨?_, ⟨h1, hu⟩, h2⟩
      cases hx : (invert ad).get? v with
      | none => rfl
      | some b => exact absurd hu (hc.disj v (mem_decisions.2 ⟨b, ((kd v b).1 hx).2⟩))
  · intro a
    show a ∈ ad.keys ↔ _
    rw [a4]
    simp [Dict.keys, role_decision]
  · intro a
    show a ∈ au.keys ↔ _
    rw [b4]
    simp only [Dict.keys, List.map_nil, List.not_mem_nil, false_or, husm]
    constructor
    · rintro ⟨n, h1, h2⟩; exact ⟨n, h1.1, (role_utility hc).2 h2⟩
    · rintro ⟨n, h1, h2⟩; exact ⟨n, ⟨h1, mem_utilities.2 ⟨a, (role_utility hc).1 h2⟩⟩, (role_utility hc).1 h2⟩
  · intro hact hrel
    refine C15_constructor_consistent es ad au _ hinit a2' b2' ?_ ?_
    · refine List.nodup_append.2 ⟨a5, b5, ?_⟩
      rintro x hx y hy rfl
      obtain ⟨_, a, ha⟩ := a6 x hx
      obtain ⟨_, b, hb⟩ := b6 x hy
      exact hc.disj x (mem_decisions.2 ⟨a, ha⟩) (mem_utilities.2 ⟨b, hb⟩)
    · intro n hn
      rcases List.mem_append.1 hn with h | h
      · exact hact n (a6 n h).1
      · have := (husm n).1 (b6 n h).1
        exact hrel n this.1 (hc.nodes n (Or.inr this.2))

end Verif

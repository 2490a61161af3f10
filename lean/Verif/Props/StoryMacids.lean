import Verif.Model.StoryMacids
import Verif.Props.Reliance
import Verif.Props.Relevance
import Verif.Props.SimpleCids
import Mathlib.Data.List.Sublists

/-!
# C131: reliance, subgames and recall in the multi-agent example diagrams
-/

namespace Verif
open Net Graph Relation Macid

/-- The diagram can be given CPDs and rules such that a change of the rule of `e` leaves no rule of `d`, a decision of `agent`, that is a best response
before and after. -/
def MayRely (net : Net) (agent : Agent) (d e : Node) : Prop :=
  ∃ rels N N', net.addCpds rels = (N, .ok ()) ∧ N.m = net.m ∧ N.Usable ∧ N'.Usable ∧ OnlyRules N [e] N' ∧ ¬ CommonRule N N' agent d

/-- The builder returns a diagram without CPDs with these decisions, for which, whatever order networkx uses: `is_s_reachable` is True for the pairs in `rel`,
`RelevanceGraph` has these edges, `decs_in_each_maid_subgame` lists these sets of decisions, and `sufficient_recall` answers as in `recall`.  The pairs in
`rel` are those for which CPDs exist that make the first decision rely on the second. -/
def Relevance (b : Py Net) (decs : List Node) (rel : List (Node × Node)) (subgames : List (List Node)) (recall : List (Agent × Bool)) : Prop :=
  ∃ net, b = .ok net ∧ net.Fresh ∧ net.m.decisions = decs ∧
    (∀ d ∈ decs, ∃ agent, net.m.role d = .decision agent ∧ ∀ e ∈ decs, (d, e) ∈ rel ↔ MayRely net agent d e) ∧
    ∀ pick : Pick,
      (∀ d ∈ decs, ∀ e ∈ decs, isSReachable pick net.m [d] e = .ok (decide ((d, e) ∈ rel))) ∧
      (∃ rg, relevanceGraph pick net.m decs = .ok rg ∧ rg.nodes = decs ∧ (∀ u v, rg.Edge u v ↔ (u, v) ∈ rel) ∧
        ∀ sccs, IsSccs decs rg.Edge sccs → ∃ out, decsInEachSubgame rg sccs = .ok out ∧ (∀ S ∈ out, ∀ x ∈ S, x ∈ decs) ∧
          (out.map (fun S => decs.filter (fun x => decide (x ∈ S)))).Perm subgames) ∧
      ∀ q ∈ recall, ∀ tpick, sufficientRecall pick tpick net.m (some q.1) = .ok q.2

/-- to be computed -/
def relevanceB (m : Macid) (decs : List Node) (rel : List (Node × Node)) (subgames : List (List Node)) (recall : List (Agent × Bool)) : Bool :=
  staffedB m && (m.g.edges.all fun e => decide (e.1 ∉ m.utilities)) && decide (m.decisions = decs) &&
  (decs.all fun d => m.agents.any fun a => decide (m.role d = .decision a)) &&
  (decs.all fun d => decs.all fun e => decide (isSReachable (fun _ => 0) m [d] e = .ok (decide ((d, e) ∈ rel)))) &&
  (rel.all fun p => decide (p.1 ∈ decs ∧ p.2 ∈ decs ∧ p.1 ≠ p.2)) &&
  decide (subgames.Nodup) &&
  (decs.sublists.all fun T => decide (T ∈ subgames ↔ T ≠ [] ∧ ∀ p ∈ rel, p.1 ∈ T → p.2 ∈ T)) &&
  (subgames.all fun T => decide (decs.filter (fun x => decide (x ∈ T)) = T)) &&
  (recall.all fun q => decide (q.1 ∈ m.agents) && decide (q.1 ∈ m.agentDecisions.keys) &&
    decide (sufficientRecall (fun _ => 0) (fun _ => 0) m (some q.1) = .ok q.2))

theorem relevance_of {edges : List (Node × Node)} {ad au : Dict Agent (List Node)} {m : Macid} {decs : List Node} {rel : List (Node × Node)}
    {subgames : List (List Node)} {recall : List (Agent × Bool)} (hi : Macid.init edges ad au = .ok m) (hc : m.Consistent) (hn : NamesOk m.g)
    (hB : relevanceB m decs rel subgames recall = true) : Relevance (macidOf edges ad au) decs rel subgames recall := by
  unfold relevanceB at hB
  simp only [Bool.and_eq_true, decide_eq_true_eq, List.all_eq_true, List.any_eq_true] at hB
  obtain ⟨⟨⟨⟨⟨⟨⟨⟨⟨c1, c2⟩, c3⟩, c4⟩, c5⟩, c6⟩, c7⟩, c8⟩, c9⟩, c10⟩ := hB
  have hnd : decs.Nodup := by rw [← c3]; exact hc.dec.nodeKeys
  let net : Net := ⟨m, [], [], [], Macid.new⟩
  have hbare : Bare net := ⟨⟨rfl, rfl, rfl⟩, hc, .inl rfl, staffed_of c1, fun u v a hu he => c2 _ he (Dict.mem_keys.2 ⟨a, (role_utility hc).1 hu⟩)⟩
  have hplay : ∀ d ∈ decs, m.Playable d := fun d hd => by
    obtain ⟨a, q1, q2⟩ := c4 d hd
    exact ⟨a, q2, q1⟩
  have hdec : ∀ d ∈ decs, ∃ a, m.role d = .decision a := fun d hd => (hplay d hd).imp fun _ h => h.1
  have hrel : ∀ d ∈ decs, ∀ e ∈ decs, ((d, e) ∈ rel ↔ m.RReach d e) := by
    intro d hd e he
    obtain ⟨b, e1, e2⟩ := (C18_is_s_reachable m hc hn (fun _ => 0) [d] e (by simpa using hplay d hd)).1 (hdec e he)
    rw [c5 d hd e he] at e1
    rw [← (by simpa using e2 : b = true ↔ m.RReach d e), ← Except.ok.inj e1, decide_eq_true_eq]
  refine ⟨net, by unfold macidOf; rw [hi], ⟨rfl, rfl, rfl⟩, c3, fun d hd => ?_, fun pick => ⟨fun d hd e he => ?_, ?_, fun q hq tpick => ?_⟩⟩
  · obtain ⟨a, q1, q2⟩ := hplay d hd
    refine ⟨a, q1, fun e he => ?_⟩
    obtain ⟨b, q3⟩ := hdec e he
    unfold MayRely
    rw [← C94_s_reachable_iff hbare hn (pick := fun _ => 0) q1 q2 q3]
    show _ ↔ isSReachable (fun _ => 0) m [d] e = _
    rw [c5 d hd e he]
    simp
  · obtain ⟨b, e1, e2⟩ := (C18_is_s_reachable m hc hn pick [d] e (by simpa using hplay d hd)).1 (hdec e he)
    show isSReachable pick m [d] e = _
    rw [e1]
    congr 1
    rw [Bool.eq_iff_iff, decide_eq_true_eq, hrel d hd e he]
    simpa using e2
  · obtain ⟨rg, h1, h2⟩ := C21_subgames m hc hn pick (by rw [c3]; exact hplay)
    obtain ⟨rg', h3, h4, h5⟩ := C19_relevance_graph m hc hn pick decs hnd hplay
    rw [c3, h3] at h1
    cases h1
    refine ⟨rg, h3, h4, fun u v => (h5 u v).trans ⟨fun h => (hrel u h.1 v h.2.1).2 h.2.2.2, fun h => ?_⟩, fun sccs hs => ?_⟩
    · obtain ⟨k1, k2, k3⟩ := c6 _ h
      exact ⟨k1, k2, k3, (hrel u k1 v k2).1 h⟩
    · rw [c3] at h2
      obtain ⟨out, o1, o2, o3, o4⟩ := h2 sccs hs
      refine ⟨out, o1, fun S hS => (o2 S hS).2.1, ?_⟩
      refine (List.perm_ext_iff_of_nodup ?_ c7).2 (fun T => ?_)
      · rw [List.nodup_iff_pairwise_ne, List.pairwise_map]
        refine o4.imp_of_mem (fun {S S'} hS hS' hne heq => hne (fun x => ?_))
        have key : ∀ S ∈ out, (x ∈ S ↔ x ∈ decs.filter (fun x => decide (x ∈ S))) := fun S hS => by
          simp only [List.mem_filter, decide_eq_true_eq]
          exact ⟨fun h => ⟨(o2 S hS).2.1 x h, h⟩, fun h => h.2⟩
        rw [key S hS, key S' hS', heq]
      · rw [List.mem_map]
        constructor
        · rintro ⟨S, hS, rfl⟩
          obtain ⟨k1, k2, k3⟩ := o2 S hS
          refine (c8 _ (List.mem_sublists.2 List.filter_sublist)).2 ⟨?_, fun p hp h => ?_⟩
          · obtain ⟨x, hx⟩ := List.exists_mem_of_ne_nil S k1
            exact List.ne_nil_of_mem (List.mem_filter.2 ⟨k2 x hx, by simpa using hx⟩)
          · simp only [List.mem_filter, decide_eq_true_eq] at h ⊢
            obtain ⟨l1, l2, l3⟩ := c6 p hp
            exact ⟨l2, k3 _ h.2 _ l2 ((hrel _ l1 _ l2).1 hp)⟩
        · intro hT
          have hT' : T ∈ decs.sublists := by rw [← c9 T hT]; exact List.mem_sublists.2 List.filter_sublist
          have hsub := List.mem_sublists.1 hT'
          obtain ⟨k1, k2⟩ := (c8 T hT').1 hT
          obtain ⟨S, hS, hST⟩ := o3 T k1 (fun x hx => hsub.subset hx) (fun x hx y hy hr => k2 (x, y) ((hrel x (hsub.subset hx) y hy).2 hr) hx)
          refine ⟨S, hS, ?_⟩
          have : decs.filter (fun x => decide (x ∈ S)) = decs.filter (fun x => decide (x ∈ T)) := by
            apply List.filter_congr
            intro x _
            rw [decide_eq_decide]
            exact hST x
          rw [this, c9 T hT]
  · obtain ⟨⟨d1, d2⟩, d3⟩ := c10 q hq
    obtain ⟨ds, hds⟩ := Dict.mem_keys.1 d2
    obtain ⟨b, e1, e2⟩ := (C19_sufficient_recall_agent m hc hn (fun _ => 0) (fun _ => 0) q.1).1 d1 ds hds
    obtain ⟨b', f1, f2⟩ := (C19_sufficient_recall_agent m hc hn pick tpick q.1).1 d1 ds hds
    show sufficientRecall pick tpick m (some q.1) = _
    rw [f1]
    rw [d3] at e1
    rw [Except.ok.inj e1]
    congr 1
    exact Bool.eq_iff_iff.2 (f2.trans e2.symm)

/-- the diagram that the constructor builds -/
def madeM (edges : List (Node × Node)) (ad au : Dict Agent (List Node)) : Macid :=
  match Macid.init edges ad au with
  | .ok m => m
  | .error _ => ⟨Graph.empty, [], [], [], []⟩

/-- to be computed -/
def madeB (edges : List (Node × Node)) (ad au : Dict Agent (List Node)) : Bool :=
  decide (Macid.init edges ad au = .ok (madeM edges ad au)) && decide ad.keys.Nodup && decide au.keys.Nodup &&
  decide (ad.flatMap (·.2) ++ au.flatMap (·.2)).Nodup && ((ad.flatMap (·.2) ++ au.flatMap (·.2)).all fun n => decide (n ∈ (madeM edges ad au).g.nodes))

theorem relevance_made {edges : List (Node × Node)} {ad au : Dict Agent (List Node)} {decs : List Node} {rel : List (Node × Node)}
    {subgames : List (List Node)} {recall : List (Agent × Bool)} (h : madeB edges ad au = true) (hn : NamesOk (madeM edges ad au).g)
    (hB : relevanceB (madeM edges ad au) decs rel subgames recall = true) : Relevance (macidOf edges ad au) decs rel subgames recall := by
  unfold madeB at h
  simp only [Bool.and_eq_true, decide_eq_true_eq, List.all_eq_true] at h
  obtain ⟨⟨⟨⟨c1, c2⟩, c3⟩, c4⟩, c5⟩ := h
  exact relevance_of c1 (C15_constructor_consistent _ _ _ _ c1 c2 c3 c4 c5) hn hB

/-- **C131** Reliance, subgames and recall in the multi-agent diagrams without CPDs.  The answers do not depend on the order networkx uses, and a decision is
listed as relying on another exactly if CPDs exist under which it does. -/
theorem C131_multi_agent_examples :
    Relevance basicSubgames ["D11", "D12", "D2", "D3"] [("D2", "D11"), ("D2", "D3"), ("D3", "D11"), ("D3", "D12"), ("D3", "D2")]
      [["D11"], ["D12"], ["D11", "D12"], ["D11", "D12", "D2", "D3"]] [(0, true), (1, true), (2, true)] ∧
    Relevance basicSubgames2 ["D1", "D2", "D3", "D4"] [("D1", "D2"), ("D1", "D4"), ("D2", "D1"), ("D2", "D3")]
      [["D3"], ["D4"], ["D3", "D4"], ["D1", "D2", "D3", "D4"]] [(1, true), (2, true), (3, true), (4, true)] ∧
    Relevance basicSubgames3 ["D1", "D2", "D3", "D4"] [("D2", "D1"), ("D3", "D1"), ("D4", "D2"), ("D4", "D3")]
      [["D1"], ["D1", "D2"], ["D1", "D3"], ["D1", "D2", "D3"], ["D1", "D2", "D3", "D4"]] [(1, true), (2, true), (3, true), (4, true)] ∧
    Relevance treeDoctor ["PT", "BP", "TDoc"] [("PT", "BP"), ("PT", "TDoc"), ("BP", "TDoc")] [["TDoc"], ["BP", "TDoc"], ["PT", "BP", "TDoc"]]
      [(0, true), (1, true)] ∧
    Relevance forgetfulMovieStar ["D11", "D12", "D2"] [("D11", "D12"), ("D11", "D2"), ("D12", "D11"), ("D2", "D11")] [["D11", "D12", "D2"]]
      [(1, false), (2, true)] ∧
    Relevance subgameDifference ["D1", "D2"] [("D1", "D2")] [["D2"], ["D1", "D2"]] [(1, true), (2, true)] ∧
    Relevance politician ["D1", "D2"] [("D1", "D2"), ("D2", "D1")] [["D1", "D2"]] [(1, true), (2, true)] :=
  ⟨relevance_made (by decide +kernel) ⟨by decide +kernel, by decide +kernel⟩ (by decide +kernel),
    relevance_made (by decide +kernel) ⟨by decide +kernel, by decide +kernel⟩ (by decide +kernel),
    relevance_made (by decide +kernel) ⟨by decide +kernel, by decide +kernel⟩ (by decide +kernel),
    relevance_made (by decide +kernel) ⟨by decide +kernel, by decide +kernel⟩ (by decide +kernel),
    relevance_made (by decide +kernel) ⟨by decide +kernel, by decide +kernel⟩ (by decide +kernel),
    relevance_made (by decide +kernel) ⟨by decide +kernel, by decide +kernel⟩ (by decide +kernel),
    relevance_made (by decide +kernel) ⟨by decide +kernel, by decide +kernel⟩ (by decide +kernel)⟩

end Verif

import Verif.Lemmas.SubgameNet
import Verif.Lemmas.MaxEU

/-!
# The whole of `create_subgame`
-/

namespace Verif
open Relation Macid
namespace Net

theorem playable_of {net : Net} (hU : net.Usable) {e : Node} (he : e ∈ net.m.decisions) : net.m.Playable e := by
  obtain ⟨a, ha⟩ := Dict.mem_keys.1 he
  refine ⟨a, role_decision.2 ha, ?_⟩
  obtain ⟨l, hl, _⟩ := (hU.roles.dec.iff e a).1 ha
  exact (hU.staffed.both a).2 (Dict.mem_keys.2 ⟨l, hl⟩)

/-- the copy with the unplayed decisions mixed -/
theorem mixedCopy {net : Net} (hU : net.Usable) (hnames : NamesOk net.g) (pick : Pick) {active : List Node}
    (ha : ∀ d ∈ active, d ∈ net.m.decisions) :
    ∃ copy N, net.copy = .ok copy ∧ forNet (mixStep pick active) copy copy.m.decisions = (N, .ok ()) ∧ N.Usable ∧
      N.g.nodes = net.g.nodes ∧ (∀ u v, N.g.Edge u v ↔ net.g.Edge u v) ∧ (∀ v ∈ net.g.nodes, N.dom v = net.dom v) ∧
      (∀ v ∈ net.g.nodes, net.Own v → N.Own v) ∧
      (∀ v ∈ net.g.nodes, ∀ a, net.InDom a → N.kernel v a = net.start active v a) ∧
      ∀ v ∈ net.g.nodes, (N.undecided v = true ↔ net.undecided v = true ∧ ¬ net.Unplayed active v) := by
  classical
  obtain ⟨n1, h1, h2, h3, h4, h5, _⟩ := hU.copy
  have hdec : ∀ d, d ∈ n1.m.decisions ↔ d ∈ net.m.decisions := fun d => by
    rw [decisions_role, decisions_role, h4]
  have hrr : ∀ d v, n1.m.RReach d v ↔ net.m.RReach d v := Macid.rreach_congr h4 (fun v => by
    rw [show n1.m.g.nodes = net.m.g.nodes from h3.nodes]) h3.edges
  have hrel : ∀ v, n1.m.RelevantTo active v ↔ net.m.RelevantTo active v := fun v => by
    unfold Macid.RelevantTo
    simp only [hrr]
  have hunp : ∀ v ∈ net.g.nodes, n1.Unplayed active v ↔ net.Unplayed active v := fun v hv => by
    unfold Unplayed
    rw [hdec, hrel, h3.undecided v hv]
  have hnames1 : NamesOk n1.g := ⟨fun u hu v hv => hnames.1 u (h3.nodes ▸ hu) v (h3.nodes ▸ hv), fun v hv => hnames.2 v (h3.nodes ▸ hv)⟩
  obtain ⟨N, k1, k2, k3, k4, k5⟩ := mixSteps_spec (pick := pick) (ds := active) n1.m.decisions h2 hnames1
    (fun d hd => (hdec d).2 (ha d hd)) (fun d hd => hd) h2.roles.dec.nodeKeys
  have hN : N.g = n1.g := k3.g
  refine ⟨n1, N, h1, k1, k2, by rw [hN, h3.nodes], by rw [hN]; exact h3.edges, fun v hv => ?_, fun v hv ho => ?_, fun v hv a hav => ?_, fun v hv => ?_⟩
  · rw [show N.dom v = n1.dom v by unfold dom; rw [k3.domain]]
    exact h3.dom hv
  · intro c hc
    by_cases hun : n1.Unplayed active v
    · obtain ⟨_, ⟨c', e1, e2⟩, _⟩ := k4 v hun.1 hun
      rw [e1] at hc
      cases hc
      rw [e2]
      simp
    · rw [k5 v hun] at hc
      exact own_copy hU h1 ho c hc
  · unfold start
    by_cases hun : n1.Unplayed active v
    · rw [if_pos ((hunp v hv).1 hun), (k4 v hun.1 hun).2.2 a ((h3.inDom a).2 hav), h3.dom hv]
    · rw [if_neg (fun h => hun ((hunp v hv).2 h)), ← h3.kernel v hv a hav]
      unfold kernel
      rw [k5 v hun, k3.domain]
  · by_cases hun : n1.Unplayed active v
    · rw [(k4 v hun.1 hun).1]
      simp [(hunp v hv).1 hun]
    · rw [← h3.undecided v hv]
      have : N.undecided v = n1.undecided v := by unfold undecided; rw [k5 v hun]
      rw [this]
      exact ⟨fun h => ⟨h, fun h' => hun ((hunp v hv).2 h')⟩, fun h => h.1⟩

theorem createSubgame_spec {net : Net} (hU : net.Usable) (hnames : NamesOk net.g) (pick : Pick)
    {setOrd : List Node → List Node} (hset : ∀ l, (setOrd l).Perm l) {active : List Node} (hnd : active.Nodup)
    (ha : ∀ d ∈ active, d ∈ net.m.decisions)
    (hm : ∀ v ∈ net.g.nodes, ¬ net.m.InGame active v → (∃ w, net.g.Edge v w ∧ net.m.InGame active w) →
      net.Own v ∧ (net.dom v).Pairwise (· ≤ ·)) :
    ∃ sg, createSubgame pick setOrd net active = .ok sg ∧ net.m.IsSubgame active sg.m ∧ SubgameProbs net active sg ∧
      Good sg ∧ sg.Normalised ∧ sg.base = Macid.new ∧
      (∀ a, a ∈ sg.m.agentDecisions.keys ↔ ∃ d ∈ active, net.m.role d = .decision a) ∧
      (∀ a, a ∈ sg.m.agentUtilities.keys ↔ ∃ u, net.m.RelevantTo active u ∧ net.m.role u = .utility a) ∧
      ((∀ d ∈ active, d ∈ sg.g.nodes) → sg.m.Consistent) ∧ (∀ v ∈ sg.g.nodes, net.Own v → sg.Own v) := by
  classical
  have hplay : ∀ d ∈ active, net.m.Playable d := fun d hd => playable_of hU (ha d hd)
  obtain ⟨rel, r1, r2, r3⟩ := relevantNodes_spec hU.roles hnames pick hplay
  obtain ⟨sk, s1, s2, s3, s4, s5⟩ := subgameSkeleton_spec hU.roles hset hnd r2 hplay r3
  obtain ⟨copy, N, c1, c2, c3, c4, c5, c6, c7, c8, c9⟩ := mixedCopy hU hnames pick ha
  have hsub : ∀ v ∈ sk.g.nodes, v ∈ net.g.nodes := by
    intro v hv
    obtain ⟨w, h | h⟩ := (s2.nodes v).1 hv
    · exact (hU.good.wf.edgeNodes v w ((s2.edges v w).1 h).1).1
    · exact (hU.good.wf.edgeNodes w v ((s2.edges w v).1 h).1).2
  have hin : ∀ v ∈ sk.g.nodes, (v ∈ rel ∨ v ∈ active) ↔ net.m.InGame active v := by
    intro v hv
    rw [r3]
    have := hsub v hv
    unfold Macid.InGame
    constructor
    · rintro (h | h)
      · exact Or.inr h.2
      · exact Or.inl h
    · rintro (h | h)
      · exact Or.inr h
      · exact Or.inl ⟨this, h⟩
  have hinc : ∀ v, net.m.RelevantTo active v → v ∈ net.m.g.nodes → v ∈ sk.g.nodes := by
    intro v h hv
    obtain ⟨w, ⟨h1, h2⟩ | h1⟩ := relevant_incident hU.roles hv h
    · exact (s2.nodes v).2 ⟨w, Or.inl ((s2.edges v w).2 ⟨h1, Or.inr h2⟩)⟩
    · exact (s2.nodes v).2 ⟨w, Or.inr ((s2.edges w v).2 ⟨h1, Or.inr h⟩)⟩
  obtain ⟨t1, sg, f1, f2, f3, f4, f5, f6, f7, f8, f9, f10⟩ := fill_spec (N := N) c3.good c3.normalised (sk := sk)
    (K := fun v => net.m.InGame active v) s2.wf (fun v hv => by rw [c4]; exact hsub v hv)
    (fun u v => by rw [c5]; exact s2.edges u v)
    (l1 := setOrd (sk.g.nodes.filter (fun v => decide (¬ (v ∈ rel ∨ v ∈ active)))))
    (l2 := setOrd (sk.g.nodes.filter (fun v => decide (v ∈ rel ∨ v ∈ active))))
    (by
      intro v
      rw [(hset _).mem_iff, List.mem_filter, decide_eq_true_eq]
      exact and_congr_right (fun hv => not_congr (hin v hv)))
    (by
      intro v
      rw [(hset _).mem_iff, List.mem_filter, decide_eq_true_eq]
      exact and_congr_right (fun hv => hin v hv))
    ((hset _).nodup_iff.2 (s2.wf.nodesNodup.filter _)) ((hset _).nodup_iff.2 (s2.wf.nodesNodup.filter _))
    (by
      intro v hv
      rw [(hset _).mem_iff, List.mem_filter, decide_eq_true_eq] at hv
      have hvn := hsub v hv.1
      have hng : ¬ net.m.InGame active v := fun h => hv.2 ((hin v hv.1).2 h)
      obtain ⟨w, h | h⟩ := (s2.nodes v).1 hv.1
      · obtain ⟨q1, q2⟩ := hm v hvn hng ⟨w, (s2.edges v w).1 h⟩
        exact ⟨c7 v hvn q1, by rw [c6 v hvn]; exact q2⟩
      · exact absurd ((s2.edges w v).1 h).2 hng)
  have hsgn : sg.g.nodes = sk.g.nodes := by rw [show sg.g = sk.g from congrArg Macid.g f3]
  have hl1 : ∀ v ∈ sk.g.nodes, ¬ net.m.InGame active v → v ∈ setOrd (sk.g.nodes.filter (fun v => decide (¬ (v ∈ rel ∨ v ∈ active)))) := by
    intro v hv h
    rw [(hset _).mem_iff, List.mem_filter, decide_eq_true_eq]
    exact ⟨hv, fun h' => h ((hin v hv).1 h')⟩
  have hl2 : ∀ v ∈ sk.g.nodes, net.m.InGame active v → v ∈ setOrd (sk.g.nodes.filter (fun v => decide (v ∈ rel ∨ v ∈ active))) := by
    intro v hv h
    rw [(hset _).mem_iff, List.mem_filter, decide_eq_true_eq]
    exact ⟨hv, (hin v hv).2 h⟩
  have hNdom : ∀ a, net.InDom a → N.InDom a := by
    intro a h v hv
    rw [c4] at hv
    rw [c6 v hv]
    exact h v hv
  refine ⟨sg, ?_, by rw [f3]; exact s2, ⟨?_, ?_, ?_, ?_⟩, f5, f6, f4, by rw [f3]; exact s3, by rw [f3]; exact s4, ?_, fun v hv ho => ?_⟩
  · unfold createSubgame
    rw [r1]; simp only
    rw [s1]; simp only
    rw [c1]; simp only
    rw [c2]; simp only
    rw [f1]; simp only
    exact f2
  · intro v hv
    rw [hsgn] at hv
    rw [f7 v hv, c6 v (hsub v hv)]
  · intro v hv h a ha
    rw [hsgn] at hv
    rw [(f8 v (hl2 v hv h)).1 a, c8 v (hsub v hv) a ha]
  · intro v hv h a ha
    rw [hsgn] at hv
    rw [(f9 v (hl1 v hv h)).2 a (hNdom a ha)]
    have hvn := hsub v hv
    have hperm : (N.g.parents v).Perm (net.g.parents v) :=
      (List.perm_ext_iff_of_nodup (Graph.nodup_parents c3.good.wf.edgesNodup v) (Graph.nodup_parents hU.good.wf.edgesNodup v)).2
        (fun p => by rw [Graph.mem_parents, Graph.mem_parents, c5])
    have hpn : ∀ p ∈ net.g.parents v, p ∈ net.g.nodes := fun p hp => (hU.good.wf.edgeNodes p v (Graph.mem_parents.1 hp)).1
    have hgen : ∀ k k' : Assign → Rat, (∀ b, net.InDom b → k b = k' b) →
        sumOver N.dom (N.g.parents v) k a = sumOver net.dom (net.g.parents v) k' a := by
      intro k k' hk
      rw [sumOver_perm hperm, sumOver_dom_perm (fun p hp => by rw [c6 p (hpn p hp)])]
      apply sumOver_congr
      intro b hb1 hb2
      apply hk
      intro w hw
      by_cases hwp : w ∈ net.g.parents v
      · exact hb1 w hwp
      · rw [hb2 w hwp]; exact ha w hw
    unfold average
    rw [hgen _ _ (fun b hb => c8 v hvn b hb), hgen (fun _ => 1) (fun _ => 1) (fun _ _ => rfl)]
  · intro v hv
    rw [hsgn] at hv
    by_cases h : net.m.InGame active v
    · rw [(f8 v (hl2 v hv h)).2, c9 v (hsub v hv)]
      tauto
    · rw [(f9 v (hl1 v hv h)).1]
      simp [h]
  · intro h
    rw [f3]
    exact s5 (fun d hd => by rw [← hsgn]; exact h d hd) hinc
  · rw [hsgn] at hv
    exact f10 v hv (c7 v (hsub v hv) ho)

end Net
end Verif

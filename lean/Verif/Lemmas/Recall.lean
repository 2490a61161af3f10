import Verif.Lemmas.Revise
import Verif.Lemmas.Relevance

/-!
# Recall, reliance and optimal values in a part of a diagram
-/

namespace Verif

open Graph Relation Macid

/-- an active path in a part of a diagram is active in the whole diagram -/
theorem active_sub {g G : Graph} (hG : G.WF) (hE : ∀ u v, g.Edge u v → G.Edge u v) {Z p : List Node} (hc : p.IsChain g.Adj)
    (h : g.Active Z p) : G.Active Z p := by
  have back : ∀ a b, g.Adj a b → G.Edge a b → g.Edge a b := fun a b h1 h2 => h1.resolve_right (fun h3 =>
    hG.acyclic a (.tail (.single h2) (hE _ _ h3)))
  intro l a b c r hp
  obtain ⟨h1, h2⟩ := h l a b c r hp
  have hab : g.Adj a b ∧ g.Adj b c := by
    rw [hp] at hc
    have := hc.right_of_append
    simp only [List.isChain_cons_cons] at this
    exact ⟨this.1, this.2.1⟩
  have hiff : (G.Edge a b ∧ G.Edge c b) ↔ (g.Edge a b ∧ g.Edge c b) :=
    ⟨fun q => ⟨back _ _ hab.1 q.1, back _ _ hab.2.symm q.2⟩, fun q => ⟨hE _ _ q.1, hE _ _ q.2⟩⟩
  rw [hiff]
  refine ⟨fun q => ?_, h2⟩
  obtain ⟨z, hz, hd⟩ := h1 q
  exact ⟨z, hz, ReflTransGen.mono hE _ _ hd⟩

theorem Into.sub {g G : Graph} (hG : G.WF) (hE : ∀ u v, g.Edge u v → G.Edge u v) {Z : List Node} {v u : Node} (h : Into g Z v u) :
    Into G Z v u := by
  obtain ⟨h1, r, ⟨p1, p2, p3, p4⟩, h3, h4, h5⟩ := h
  have hadj : ∀ a b, g.Adj a b → G.Adj a b := fun a b q => q.imp (hE a b) (hE b a)
  refine ⟨h1, r, ⟨p1, p2, p3.imp hadj, p4⟩, active_sub hG hE p3 h3, h4, fun c r' e => ?_⟩
  obtain ⟨k1, k2⟩ := h5 c r' e
  have hvc : g.Adj v c := by
    rw [e] at p3
    simp only [List.isChain_cons_cons] at p3
    exact p3.1
  have hiff : G.Edge c v ↔ g.Edge c v := ⟨fun q => hvc.resolve_left (fun q' => hG.acyclic c (.tail (.single q) (hE _ _ q'))), hE c v⟩
  rw [hiff]
  refine ⟨fun q => ?_, k2⟩
  obtain ⟨z, hz, hd⟩ := k1 q
  exact ⟨z, hz, ReflTransGen.mono hE _ _ hd⟩

/-- reliance in a part that contains all observations of its decisions -/
theorem rreach_sub {m M : Macid} (hw : m.g.WF) (hW : M.g.WF) (hr : ∀ v, m.role v = M.role v) (hn : ∀ v ∈ m.g.nodes, v ∈ M.g.nodes)
    (hE : ∀ u v, v ∈ m.g.nodes → (m.g.Edge u v ↔ M.g.Edge u v)) {d v : Node} (hv : v ∈ m.g.nodes) (h : m.RReach d v) : M.RReach d v := by
  rw [rreach_iff hw hv] at h
  rw [rreach_iff hW (hn v hv)]
  obtain ⟨a, u, h1, h2, h3, h4⟩ := h
  have hs : ∀ u v, m.g.Edge u v → M.g.Edge u v := fun u v q => (hE u v (hw.edgeNodes u v q).2).1 q
  refine ⟨a, u, by rw [← hr]; exact h1, by rw [← hr]; exact h2, TransGen.mono hs _ _ h3, ?_⟩
  have hd : d ∈ m.g.nodes := by
    obtain ⟨e, he, _⟩ := TransGen.head'_iff.1 h3
    exact (hw.edgeNodes d e he).1
  have := h4.sub hW hs
  obtain ⟨q1, r, q2, q3, q4, q5⟩ := this
  have hz : ∀ z, z ∈ d :: m.g.parents d ↔ z ∈ d :: M.g.parents d := fun z => by
    rw [mem_family, mem_family, hE z d hd]
  refine ⟨fun q => q1 ((hz _).2 q), r, q2, active_congr hz q3, fun e q => q4 e ((hz _).2 q), fun c r' e => ?_⟩
  obtain ⟨k1, k2⟩ := q5 c r' e
  refine ⟨fun q => ?_, fun q q' => k2 q ((hz _).2 q')⟩
  obtain ⟨z, hz1, hz2⟩ := k1 q
  exact ⟨z, (hz z).1 hz1, hz2⟩

theorem recall_sub {m M : Macid} (hw : m.g.WF) (hW : M.g.WF) (hr : ∀ v, m.role v = M.role v) (hn : ∀ v ∈ m.g.nodes, v ∈ M.g.nodes)
    (hE : ∀ u v, v ∈ m.g.nodes → (m.g.Edge u v ↔ M.g.Edge u v)) {ds es : List Node} (hd : ∀ d ∈ ds, d ∈ m.g.nodes ∧ d ∈ es)
    (h : M.NoRelianceCycle es) : m.NoRelianceCycle ds := by
  intro d hd'
  refine h d (TransGen.mono (fun a b q => ?_) _ _ hd')
  exact ⟨(hd a q.1).2, (hd b q.2.1).2, q.2.2.1, rreach_sub hw hW hr hn hE (hd b q.2.1).1 q.2.2.2⟩

namespace Net

/-- the whole components of the utilities are left after `expected_utility` -/
theorem utility_state {c s : Net} {us : List Node} {agent : Agent} {pick : Pick} {ord : List Node → List Node}
    (hus : c.m.agentUtilities.get? agent = some us) {eu : Rat} (he : c.expectedUtility pick ord [] [] agent = (s, .ok eu)) :
    s = c ∨ s = c.prune (keepOf c us) := by
  unfold expectedUtility at he
  rw [Dict.get_ok.2 hus] at he
  simp only at he
  have h1 := expectedValue_state c pick ord us [] []
  have h2 := query_state c pick ord us []
  generalize c.expectedValue pick ord us [] [] = x at he h1
  obtain ⟨s1, r⟩ := x
  simp only at h1
  cases r with
  | error e => simp at he
  | ok l =>
    simp only [Prod.mk.injEq] at he
    rw [← he.1, h1]
    exact h2

/-- nothing that matters for the agent is missing in `s` -/
structure Rest (c : Net) (us : List Node) (s : Net) : Prop where
  sess : Sess c us s
  base : s.base = c.base
  closed : Closed c.g s.g.nodes

theorem Rest.of_utility {c s : Net} {us : List Node} (hU : c.Usable) {pick : Pick} {ord : List Node → List Node} (hord : ∀ l, (ord l).Perm l)
    {agent : Agent} (hus : c.m.agentUtilities.get? agent = some us) {eu : Rat} (he : c.expectedUtility pick ord [] [] agent = (s, .ok eu)) :
    Rest c us s ∧ eu = c.EU agent := by
  obtain ⟨h1, h2⟩ := (Sess.refl hU.good hU.normalised us).utility hU hord hus he
  refine ⟨⟨h1, ?_, ?_⟩, h2⟩
  · rcases utility_state hus he with rfl | rfl <;> rfl
  · rcases utility_state hus he with rfl | rfl
    · intro u v huv _
      rcases huv with q | q
      · exact (hU.good.wf.edgeNodes u v q).2
      · exact (hU.good.wf.edgeNodes v u q).1
    · intro u v huv hu
      obtain ⟨k1, k2⟩ := mem_prune.1 hu
      refine mem_prune.2 ⟨?_, closed_keep hU.good.wf us u v huv k2⟩
      rcases huv with q | q
      · exact (hU.good.wf.edgeNodes u v q).2
      · exact (hU.good.wf.edgeNodes v u q).1

/-- pruning to any set of whole components that contains the utilities -/
theorem Rest.prune {c : Net} {us K : List Node} (hU : c.Usable) (hK : Closed c.g K) (hus : ∀ u ∈ us, u ∈ K) : Rest c us (c.prune K) := by
  have hall : ∀ v, v ∈ keepOf c us → v ∈ K := by
    intro v hv
    obtain ⟨x, hx, hxv⟩ := (mem_keepOf hU.good.wf).1 hv
    have : ∀ v, c.g.Connected x v → v ∈ K := by
      intro v h
      induction h with
      | refl => exact hus x hx
      | tail _ q ih => exact hK _ _ q ih
    exact this v hxv
  refine ⟨⟨prune_good hU.good hK, prune_normalised hU.good hU.normalised hK, rfl, rfl, fun v hv => (mem_prune.1 hv).1,
    fun v hv hk => mem_prune.2 ⟨hv, hall v hk⟩, fun u v hv => prune_edge hK (Or.inr (mem_prune.1 hv).2),
    fun x hx v => connected_prune hK (hus x hx), fun v hv => ?_⟩, rfl, fun u v huv hu => ?_⟩
  · rw [prune_cpds, if_pos (Or.inr (mem_prune.1 hv).2)]
  · obtain ⟨k1, k2⟩ := mem_prune.1 hu
    refine mem_prune.2 ⟨?_, hK u v huv k2⟩
    rcases huv with q | q
    · exact (hU.good.wf.edgeNodes u v q).2
    · exact (hU.good.wf.edgeNodes v u q).1

/-- every utility belongs to the only decision maker -/
theorem Usable.oneUtility {net : Net} (hU : net.Usable) (hone : ∀ e b, net.m.role e = .decision b → b = 0) {u : Node} {b : Agent}
    (hu : net.m.role u = .utility b) : b = 0 := by
  have h1 := (role_utility hU.roles).1 hu
  obtain ⟨l, h2, _⟩ := (hU.roles.util.iff u b).1 h1
  rcases hU.staffed.owns b (Dict.mem_keys.2 ⟨l, h2⟩) with ⟨⟨n, hn⟩, _⟩ | h
  · exact hone n b hn
  · exact h.2

theorem Rest.role {c s : Net} {us : List Node} (h : Rest c us s) (v : Node) : s.m.role v = c.m.role v := by
  rw [h.sess.roles]; rfl

theorem Rest.usable {c s : Net} {us : List Node} (h : Rest c us s) (hU : c.Usable) (hone : ∀ e b, c.m.role e = .decision b → b = 0)
    (hus : c.m.agentUtilities.get? 0 = some us) (hdec : ∀ d ∈ c.m.decisions, d ∈ s.g.nodes) : s.Usable := by
  refine ⟨h.sess.good, h.sess.normalised, ?_, by rw [h.base]; exact hU.base, ?_⟩
  · have hr := h.sess.roles
    refine ⟨h.sess.good.wf, by rw [hr]; exact hU.roles.dec, by rw [hr]; exact hU.roles.util, by rw [hr]; exact hU.roles.disj, fun n hn => ?_⟩
    rw [hr] at hn
    rcases hn with hn | hn
    · exact hdec n hn
    · obtain ⟨b, hb⟩ := Dict.mem_keys.1 hn
      have hb' := (role_utility hU.roles).2 hb
      obtain rfl := hU.oneUtility hone hb'
      obtain ⟨l, h2, h3⟩ := (hU.roles.util.iff n 0).1 hb
      rw [hus] at h2
      cases h2
      exact h.sess.keep n (hU.roles.nodes n (Or.inr hn)) ((mem_keepOf hU.good.wf).2 ⟨n, h3, .refl⟩)
  · have hr := h.sess.roles
    refine ⟨fun a => by rw [hr]; exact hU.staffed.both a, fun a ha => ?_⟩
    rw [hr] at ha
    have := hU.staffed.owns a ha
    rw [h.base]
    simpa only [h.role] using this

/-- the maximum depends on the world and the graph only -/
theorem IsMaxEU.same {n1 n2 : Net} (hU1 : n1.Usable) (hU2 : n2.Usable) {agent : Agent} (hag : ∀ d b, n1.m.role d = .decision b → b = agent)
    (hw : SameWorld (· ∈ n1.m.decisions) n1 n2) (hE : ∀ u v, n1.g.Edge u v ↔ n2.g.Edge u v) {r : Rat} (h : n1.IsMaxEU agent r) :
    n2.IsMaxEU agent r := by
  have hw' : SameWorld (· ∈ n2.m.decisions) n2 n1 := by
    have := hw.symm
    exact ⟨this.nodes, this.roles, this.outcomes, fun v hv hd => this.kernels v hv (fun q => hd ((hw.decisions v).2 q))⟩
  refine IsMaxEU.of_dominates (fun n k1 k2 => dominates_more hU1 hU2 hag hw (fun u v => (hE u v).1) k1 k2)
    (fun n k1 k2 => dominates_more hU2 hU1 (fun d b hb => hag d b (by rw [← hw.roles]; exact hb)) hw' (fun u v => (hE u v).2) k1 k2) h

/-- the maximum is at least that of a network with fewer observations -/
theorem IsMaxEU.mono {n1 n2 : Net} (hU1 : n1.Usable) (hU2 : n2.Usable) {agent : Agent} (hag : ∀ d b, n1.m.role d = .decision b → b = agent)
    (hw : SameWorld (· ∈ n1.m.decisions) n1 n2) (hE : ∀ u v, n1.g.Edge u v → n2.g.Edge u v) {r1 r2 : Rat} (h1 : n1.IsMaxEU agent r1)
    (h2 : n2.IsMaxEU agent r2) : r1 ≤ r2 := by
  obtain ⟨n, q1, q2, rfl⟩ := h1.reached
  obtain ⟨n', k1, k2, k3⟩ := dominates_more hU1 hU2 hag hw hE q1 q2
  exact le_trans k3 (h2.bound n' k1 k2)

theorem IsMaxEU.rules {n c : Net} {agent : Agent} {r : Rat} (h : n.IsMaxEU agent r) (hO : OnlyRules n n.m.decisions c) : c.IsMaxEU agent r := by
  have hd : c.m.decisions = n.m.decisions := by rw [hO.m]
  have key : ∀ n', OnlyRules n n.m.decisions n' ↔ OnlyRules c c.m.decisions n' := by
    intro n'
    rw [hd]
    constructor
    · intro q
      exact ⟨by rw [q.m, hO.m], by rw [q.base, hO.base], by rw [q.domain, hO.domain],
            fun w hw => by rw [q.cpds w hw, hO.cpds w hw], fun w hw => by rw [q.rels w hw, hO.rels w hw]⟩
    · intro q
      exact ⟨by rw [q.m, hO.m], by rw [q.base, hO.base], by rw [q.domain, hO.domain],
            fun w hw => by rw [q.cpds w hw, hO.cpds w hw], fun w hw => by rw [q.rels w hw, hO.rels w hw]⟩
  obtain ⟨n', h1, h2, h3⟩ := h.reached
  exact ⟨⟨n', h1, (key n').1 h2, h3⟩, fun n' h1 h2 => h.bound n' h1 ((key n').2 h2)⟩

end Net
end Verif

import Verif.Lemmas.WholeGame

/-!
# Equilibria of subgames are equilibria of the game (C78)
-/

namespace Verif

open Graph Relation Macid Net

namespace Net

/-- rules that fit the subgame fit the game -/
theorem policyOk_sub {net sg : Net} (hU : net.Usable) (hsU : sg.Usable) {decs : List Node} (hs : net.m.IsSubgame decs sg.m)
    (hd : ∀ v ∈ sg.g.nodes, sg.dom v = net.dom v) {q : List Cpd} (hv : ∀ c ∈ q, c.var ∈ decs) (h : PolicyOk sg q) : PolicyOk net q := by
  have hw := hU.good.wf
  refine ⟨h.1, fun c hc => ?_⟩
  obtain ⟨h1, h2, h3⟩ := h.2 c hc
  have hget : ∀ p ∈ sg.g.nodes, net.domain.get? p = sg.domain.get? p := by
    intro p hp
    obtain ⟨c1, _, e1⟩ := hU.good.complete p (sub_nodes hw hs hp)
    obtain ⟨c2, _, e2⟩ := hsU.good.complete p hp
    have := hd p hp
    rw [dom_eq e1, dom_eq e2] at this
    rw [e1, e2, this]
  have hpar : ∀ p, sg.g.Edge p c.var → p ∈ sg.g.nodes := fun p hp => (hs.nodes p).2 ⟨c.var, Or.inl hp⟩
  refine ⟨sub_nodes hw hs h1, h2.transfer hsU.good hU.good (fun p => ?_) (fun p hp => ?_), fun a ha => ?_⟩
  · rw [show sg.g.Edge p c.var ↔ _ from hs.edges p c.var]
    exact ⟨fun e => ⟨e, Or.inl (hv c hc)⟩, fun e => e.1⟩
  · rcases hp with rfl | hp
    · exact hget _ h1
    · exact hget _ (hpar p hp)
  · have he : ∀ p ∈ c.evidence, net.domain.get? p = sg.domain.get? p := fun p hp => hget p (hpar p ((h2.fits.parents p).1 hp))
    simp only [prob_congr he]
    rw [← hd c.var h1]
    exact h3 a (sub_inDom hw hs hd ha)

/-- rules mean the same in the subgame and in the game -/
theorem rule_sub {net sg net' sg' : Net} (hU : net.Usable) (hsU : sg.Usable) {decs : List Node} (hs : net.m.IsSubgame decs sg.m)
    (hdom : ∀ v ∈ sg.g.nodes, sg.dom v = net.dom v) {q : List Cpd} (hv : q.map (·.var) = decs) (hok : PolicyOk sg q)
    {ds es : List Node} (n3 : OnlyRules net ds net') (n4 : ∀ c ∈ q, net'.cpds.get? c.var = some c) (k3 : OnlyRules sg es sg')
    (s4 : ∀ c ∈ q, sg'.cpds.get? c.var = some c) {d : Node} (hd : d ∈ decs) (a : Assign) : net'.kernel d a = sg'.kernel d a := by
  rw [← hv] at hd
  obtain ⟨c, hc, rfl⟩ := List.mem_map.1 hd
  unfold kernel
  rw [n4 c hc, s4 c hc]
  simp only
  rw [n3.domain, k3.domain]
  obtain ⟨q1, q2, _⟩ := hok.2 c hc
  rw [prob_congr (dom := sg.domain) (dom' := net.domain)]
  intro p hpe
  have hps : p ∈ sg.g.nodes := (hs.nodes p).2 ⟨c.var, Or.inl ((q2.fits.parents p).1 hpe)⟩
  obtain ⟨c1, _, e1⟩ := hU.good.complete p (sub_nodes hU.good.wf hs hps)
  obtain ⟨c2, _, e2⟩ := hsU.good.complete p hps
  have := hdom p hps
  rw [dom_eq e1, dom_eq e2] at this
  rw [e1, e2, this]

end Net

/-- **C78** What `get_ne_in_sg` finds for some decisions is a Nash equilibrium among these decisions in the whole game: with the rules put
into the network, no owner gains by other rules for their own listed decisions. -/
theorem C78_get_ne_in_sg {net : Net} (hU : net.Usable) (hnames : NamesOk net.g) {pick : Pick} {tpick : List Node → Nat}
    {ord setOrd : List Node → List Node} (hord : ∀ l, (ord l).Perm l) (hset : ∀ l, (setOrd l).Perm l) {agentOrd : List Agent → List Agent}
    (hao : ∀ l, (agentOrd l).Perm l) {run : Efg → Solver → Py (List Behavior)} {conv : Behavior → Behavior} (hrun : SoundSolvers run conv)
    {override : Option String} {decs : List Node} (hnd : decs.Nodup) (ha : ∀ d ∈ decs, d ∈ net.m.decisions)
    (hm : ∀ v ∈ net.g.nodes, ¬ net.m.InGame decs v → (∃ w, net.g.Edge v w ∧ net.m.InGame decs w) →
      net.Own v ∧ (net.dom v).Pairwise (· ≤ ·))
    (hu : ∀ d ∈ decs, ∃ a u, net.m.role d = .decision a ∧ net.m.role u = .utility a ∧ net.g.Desc d u)
    (hleaf : ∀ u a, net.m.role u = .utility a → ∀ w, ¬ net.g.Edge u w)
    (hj : ∀ sg, createSubgame pick setOrd net decs = .ok sg → Joined sg.g ∧ sg.Distinct decs)
    {found : List (List Cpd)} (h : getNeInSg pick tpick ord setOrd agentOrd run conv override net decs = .ok found) :
    ∀ q ∈ found, q.map (·.var) = decs ∧ ∃ net', net.addPolicy q = (net', .ok ()) ∧ net'.Usable ∧ OnlyRules net decs net' ∧
      ∀ agents, (∀ a, a ∈ agents → ∃ d ∈ decs, net.m.role d = .decision a) → NoGain net' decs agents := by
  obtain ⟨sg, h1, hsU, hs, hp, hmem, h3⟩ := ne_in_sg hU hnames hord hset hao hrun hnd ha hm hu hleaf hj h
  intro q hq
  obtain ⟨hv, hok, ⟨U, u1, u2, u3, u4, u5⟩, sg', k1, k2, k3, k4⟩ := h3 q hq
  have hvm : ∀ c ∈ q, c.var ∈ decs := fun c hc => by rw [← hv]; exact List.mem_map.2 ⟨c, hc, rfl⟩
  have hok' := policyOk_sub hU hsU hs hp.domain hvm hok
  obtain ⟨net', n1, n2, n3, n4⟩ := addPolicy_usable q hU hok'
  obtain ⟨sg1, s1, s2, s3, s4⟩ := addPolicy_usable q hsU hok
  rw [k1] at s1
  cases s1
  rw [hv] at n3 s3
  refine ⟨hv, net', n1, n2, n3, fun agents hag agent hagm net'' hU'' hO'' => ?_⟩
  have hrole : ∀ d, net'.m.role d = net.m.role d := fun d => by rw [n3.m]
  have hfl : decs.filter (fun d => decide (net'.m.role d = .decision agent)) = decs.filter (fun d => decide (net.m.role d = .decision agent)) := by
    simp only [hrole]
  rw [hfl] at hO''
  have hfs : decs.filter (fun d => decide (sg'.m.role d = .decision agent)) = decs.filter (fun d => decide (net.m.role d = .decision agent)) := by
    apply List.filter_congr
    intro d hd
    rw [k3.m, decide_eq_decide, hs.decision d agent]
    exact ⟨fun h => h.2, fun h => ⟨hd, h⟩⟩
  have e' : net'.bn = ⟨net.g, net.dom, net'.kernel⟩ := by unfold bn; rw [n3.g, n3.dom]
  have e'' : net''.bn = ⟨net.g, net.dom, net''.kernel⟩ := by unfold bn; rw [hO''.g, hO''.dom, n3.g, n3.dom]
  have hB' := bn_prob n2.good n2.normalised
  have hB'' := bn_prob hU''.good hU''.normalised
  rw [e'] at hB'
  rw [e''] at hB''
  have hE : ∀ s : Net, s.Usable → s.m = net.m → s.EU agent = s.bn.W (fun a => ((net.utils agent).map a).sum) := by
    intro s hs' hm
    rw [EU_eq hs' agent, hm]
    rfl
  rw [hE net'' hU'' (hO''.m.trans n3.m), hE net' n2 n3.m, e', e'']
  refine whole_game hU hnames hnd hs hp.domain hsU hmem k2 k3 u1 u2 u3 (fun d hd u hud => u4 d hd u ((hs.edges u d).2 ⟨hud, Or.inl hd⟩)) hB' ?_ ?_
    (fun s hs1 hs2 => ?_) net''.kernel hB'' (fun v _ hv a _ => hO''.kernel hv a)
  · intro v hvs hg a had
    by_cases hd : v ∈ decs
    · exact rule_sub hU hsU hs hp.domain hv hok n3 n4 k3 s4 hd a
    · rw [n3.kernel hd, k3.kernel hd, kept_kernel hp hvs hg hd had]
  · intro v hv _ a had h0
    exact absurd h0 (u5 v hv a (sub_inDom hU.good.wf hs hp.domain had))
  · exact k4 agents hag agent hagm s hs1 (by rw [hfs]; exact hs2)

/-- **C78** What `get_ne` finds is a Nash equilibrium of the game: one rule for each decision, and no agent gains by other rules for their own
decisions. -/
theorem C78_get_ne {net : Net} (hU : net.Usable) (hnames : NamesOk net.g) {pick : Pick} {tpick : List Node → Nat}
    {ord setOrd : List Node → List Node} (hord : ∀ l, (ord l).Perm l) (hset : ∀ l, (setOrd l).Perm l) {agentOrd : List Agent → List Agent}
    (hao : ∀ l, (agentOrd l).Perm l) {run : Efg → Solver → Py (List Behavior)} {conv : Behavior → Behavior} (hrun : SoundSolvers run conv)
    {override : Option String}
    (hm : ∀ v ∈ net.g.nodes, ¬ net.m.InGame net.m.decisions v → (∃ w, net.g.Edge v w ∧ net.m.InGame net.m.decisions w) →
      net.Own v ∧ (net.dom v).Pairwise (· ≤ ·))
    (hu : ∀ d ∈ net.m.decisions, ∃ a u, net.m.role d = .decision a ∧ net.m.role u = .utility a ∧ net.g.Desc d u)
    (hleaf : ∀ u a, net.m.role u = .utility a → ∀ w, ¬ net.g.Edge u w)
    (hj : ∀ sg, createSubgame pick setOrd net net.m.decisions = .ok sg → Joined sg.g ∧ sg.Distinct net.m.decisions)
    {found : List (List Cpd)} (h : getNe pick tpick ord setOrd agentOrd run conv override net = .ok found) :
    ∀ q ∈ found, q.map (·.var) = net.m.decisions ∧ ∃ net', net.addPolicy q = (net', .ok ()) ∧ net'.Usable ∧
      ∀ agent net'', net''.Usable → OnlyRules net' (net.m.decisions.filter (fun d => decide (net.m.role d = .decision agent))) net'' →
        net''.EU agent ≤ net'.EU agent := by
  intro q hq
  obtain ⟨h1, net', h2, h3, h4, h5⟩ := C78_get_ne_in_sg hU hnames hord hset hao hrun hU.roles.dec.nodeKeys (fun d hd => hd) hm hu hleaf hj h q hq
  refine ⟨h1, net', h2, h3, fun agent net'' hU'' hO'' => ?_⟩
  have hrole : ∀ d, net'.m.role d = net.m.role d := fun d => by rw [h4.m]
  have hmem : ∀ w, w ∈ net.m.decisions.filter (fun d => decide (net.m.role d = .decision agent)) ↔
      w ∈ net.m.decisions.filter (fun d => decide (net'.m.role d = .decision agent)) := fun w => by
    simp only [List.mem_filter, hrole]
  by_cases hag : ∃ d ∈ net.m.decisions, net.m.role d = .decision agent
  · exact h5 [agent] (fun a ha => by rw [List.mem_singleton.1 ha]; exact hag) agent (by simp) net'' hU'' (hO''.congr hmem)
  · have hnil : OnlyRules net' [] net'' := hO''.congr (fun w => by
      rw [hmem, List.mem_filter, decide_eq_true_eq, hrole]
      exact ⟨fun h => absurd ⟨w, h.1, h.2⟩ hag, fun h => by simp at h⟩)
    refine le_of_eq ?_
    rw [EU_eq hU'' agent, EU_eq h3 agent, hnil.m]
    refine BN.W_same (show net''.g = net'.g from hnil.g) (show net''.dom = net'.dom from hnil.dom) (fun v _ a _ => hnil.kernel (by simp) a) _

/-- The theorem applies: in the game where the second player sees the first, something is found and it is an equilibrium. -/
theorem C78_example : ∃ found q net', getNe (fun _ => 0) (fun _ => 0) id id id ExG.solver id none ExG.net = .ok found ∧ q ∈ found ∧
    ExG.net.addPolicy q = (net', .ok ()) ∧ net'.Usable ∧ ∀ agent net'', net''.Usable →
      OnlyRules net' (ExG.net.m.decisions.filter (fun d => decide (ExG.net.m.role d = .decision agent))) net'' → net''.EU agent ≤ net'.EU agent := by
  obtain ⟨h1, h2, h3, h4, h5, h6, h7, h8, h9⟩ := C77_example
  have hD : ExG.net.m.decisions = ["D1", "D2"] := by decide +kernel
  rw [← hD] at h4 h6 h8 h9
  have he : getNeInSg (fun _ => 0) (fun _ => 0) id id id ExG.solver id none ExG.net ExG.net.m.decisions = getNe (fun _ => 0) (fun _ => 0) id id id ExG.solver id none ExG.net := rfl
  rw [he] at h9
  cases hf : getNe (fun _ => 0) (fun _ => 0) id id id ExG.solver id none ExG.net with
  | error e => rw [hf] at h9; simp at h9
  | ok found =>
    rw [hf] at h9
    cases found with
    | nil => simp at h9
    | cons q rest =>
      obtain ⟨_, net', k1, k2, k3⟩ := C78_get_ne h1 h2 (fun l => .refl l) (fun l => .refl l) (fun l => .refl l) h3 (fun v hv _ _ => h5 v hv) h6 h7 h8 hf q (by simp)
      exact ⟨_, q, net', rfl, by simp, k1, k2, k3⟩

end Verif

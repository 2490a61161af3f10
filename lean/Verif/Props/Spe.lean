import Verif.Lemmas.Branch
import Verif.Props.WholeGame

/-!
# Backward induction finds subgame perfect equilibria (C82)
-/

namespace Verif

open Graph Relation Macid Net

namespace Net

theorem behaviorToCpd_kind {net : Net} {keys : Dict InfoKey Nat} {b : Behavior} {decs : List Node} {q : List Cpd}
    (h : net.behaviorToCpd keys b decs = .ok q) : ∀ c ∈ q, c.kind ≠ .tabular := by
  unfold behaviorToCpd at h
  rw [mapPy_ok_iff] at h
  intro c hc
  obtain ⟨d, _, hd⟩ := forall₂_mem_right h hc
  unfold behaviorCpd at hd
  split at hd
  · simp at hd
  · split at hd
    · simp at hd
    · split at hd
      · simp at hd
      · rw [(mkCpd_fields hd).2.2.1]; simp

theorem getNeInSg_kind {pick : Pick} {tpick : List Node → Nat} {ord setOrd : List Node → List Node} {agentOrd : List Agent → List Agent}
    {run : Efg → Solver → Py (List Behavior)} {conv : Behavior → Behavior} {override : Option String} {net : Net} {decs : List Node}
    {found : List (List Cpd)} (h : getNeInSg pick tpick ord setOrd agentOrd run conv override net decs = .ok found) :
    ∀ q ∈ found, ∀ c ∈ q, c.kind ≠ .tabular := by
  unfold getNeInSg at h
  split at h
  · simp at h
  · dsimp only at h
    split at h
    · simp at h
    · split at h
      · simp at h
      · split at h
        · simp at h
        · intro q hq
          obtain ⟨b, _, hb⟩ := mapPy_mem' h hq
          exact behaviorToCpd_kind hb

theorem kernel_same {n1 n2 : Net} {v : Node} (hc : n2.cpds.get? v = n1.cpds.get? v) (hd : n2.domain = n1.domain) (a : Assign) :
    n2.kernel v a = n1.kernel v a := by
  unfold kernel
  rw [hc, hd]

theorem OnlyRules.nil_EU {n1 n2 : Net} (hU1 : n1.Usable) (hU2 : n2.Usable) (h : OnlyRules n1 [] n2) (agent : Agent) :
    n2.EU agent = n1.EU agent := by
  rw [EU_eq hU2 agent, EU_eq hU1 agent, h.m]
  exact BN.W_same (show n2.g = n1.g from h.g) (show n2.dom = n1.dom from h.dom) (fun v _ a _ => h.kernel (by simp) a) _

theorem Solvable.only {net n : Net} (h : net.Solvable) (hU : n.Usable) {ds : List Node} (hO : OnlyRules net ds n)
    (hk : ∀ d ∈ ds, n.Own d) : n.Solvable := by
  have hg := hO.g
  have hm := hO.m
  refine ⟨hU, by rw [hg]; exact h.names, fun v hv => ?_, by rw [hm, hg]; exact h.goal, by rw [hm, hg]; exact h.leaf,
    by rw [hm]; exact h.joined, by rw [hm, hg]; exact h.distinct⟩
  rw [hO.dom]
  rw [hg] at hv
  refine ⟨?_, (h.own v hv).2⟩
  by_cases hd : v ∈ ds
  · exact hk v hd
  · intro c hc
    rw [hO.cpds v hd] at hc
    exact (h.own v hv).1 c hc

theorem Solvable.subgames {N : Net} (hN : N.Solvable) {pick : Pick} {setOrd : List Node → List Node} (hset : ∀ l, (setOrd l).Perm l)
    {decs : List Node} (hgr' : N.m.IsGroup decs) : ∀ sg, createSubgame pick setOrd N decs = .ok sg → Joined sg.g ∧ sg.Distinct decs := by
    have hU := hN.usable
    have ha : ∀ d ∈ decs, d ∈ N.m.decisions := hgr'.decisions
    have hm : ∀ v ∈ N.g.nodes, ¬ N.m.InGame decs v → (∃ w, N.g.Edge v w ∧ N.m.InGame decs w) →
        N.Own v ∧ (N.dom v).Pairwise (· ≤ ·) := fun v hv _ _ => hN.own v hv
    have hu : ∀ d ∈ decs, ∃ a u, N.m.role d = .decision a ∧ N.m.role u = .utility a ∧ N.g.Desc d u := fun d hd => hN.goal d (ha d hd)
    intro sg hsg
    obtain ⟨sg1, e1, e2, e3, e4, _⟩ := subgame_usable hU hN.names pick hset hgr'.nodup ha hm hu hN.leaf
    rw [hsg] at e1
    cases e1
    refine ⟨hN.joined decs sg.m hgr' e3, fun d hd d' hd' h1 h2 => hN.distinct decs hgr' d hd d' hd' ?_ (fun p => ?_)⟩
    · obtain ⟨a, ha1⟩ := decisions_role.1 (ha d hd)
      have := role_decision.1 ((e3.decision d a).2 ⟨hd, ha1⟩)
      rw [h1] at this
      rw [ha1, ((e3.decision d' a).1 (role_decision.2 this)).2]
    · have : p ∈ sg.g.parents d ↔ p ∈ sg.g.parents d' := by rw [h2]
      rw [Graph.mem_parents, Graph.mem_parents] at this
      have hd1 : sg.g.Edge p d ↔ _ := e3.edges p d
      have hd2 : sg.g.Edge p d' ↔ _ := e3.edges p d'
      rw [hd1, hd2] at this
      exact ⟨fun h => (this.1 ⟨h, Or.inl hd⟩).1, fun h => (this.2 ⟨h, Or.inl hd'⟩).1⟩

/-- the rules found for a group fit the network -/
theorem Solvable.policy {N : Net} (hN : N.Solvable) {pick : Pick} {tpick : List Node → Nat}
    {ord setOrd : List Node → List Node} (hord : ∀ l, (ord l).Perm l) (hset : ∀ l, (setOrd l).Perm l) {agentOrd : List Agent → List Agent}
    (hao : ∀ l, (agentOrd l).Perm l) {run : Efg → Solver → Py (List Behavior)} {conv : Behavior → Behavior} (hrun : SoundSolvers run conv)
    {override : Option String} {decs : List Node} (hgr : N.m.IsGroup decs)
    {found : List (List Cpd)} (h : getNeInSg pick tpick ord setOrd agentOrd run conv override N decs = .ok found) {q : List Cpd} (hq : q ∈ found) :
    PolicyOk N q := by
  obtain ⟨sg, h1, hsU, hs, hp, hmem, h3⟩ := ne_in_sg hN.usable hN.names hord hset hao hrun hgr.nodup hgr.decisions (fun v hv _ _ => hN.own v hv)
    (fun d hd => hN.goal d (hgr.decisions d hd)) hN.leaf (hN.subgames hset hgr) h
  obtain ⟨hv, hok, _⟩ := h3 q hq
  exact policyOk_sub hN.usable hsU hs hp.domain (fun c hc => by rw [← hv]; exact List.mem_map.2 ⟨c, hc, rfl⟩) hok

/-- no agent gains in a group, whatever the decisions outside do -/
theorem group_step {macid N σ : Net} (hN : N.Solvable) {W D : List Node} (hON : OnlyRules macid W N) (hOσ : OnlyRules macid D σ)
    {pick : Pick} {tpick : List Node → Nat}
    {ord setOrd : List Node → List Node} (hord : ∀ l, (ord l).Perm l) (hset : ∀ l, (setOrd l).Perm l) {agentOrd : List Agent → List Agent}
    (hao : ∀ l, (agentOrd l).Perm l) {run : Efg → Solver → Py (List Behavior)} {conv : Behavior → Behavior} (hrun : SoundSolvers run conv)
    {override : Option String} {decs : List Node} (hgr : macid.m.IsGroup decs)
    {found : List (List Cpd)} (h : getNeInSg pick tpick ord setOrd agentOrd run conv override N decs = .ok found) {q : List Cpd} (hq : q ∈ found)
    (hσq : ∀ c ∈ q, σ.cpds.get? c.var = some c)
    (hσN : ∀ v ∈ macid.g.nodes, macid.m.RelevantTo decs v → v ∉ decs → σ.cpds.get? v = N.cpds.get? v)
    {kB : Node → Assign → Rat} (hB : BN.Prob ⟨macid.g, macid.dom, kB⟩)
    (hin : ∀ v ∈ macid.g.nodes, macid.m.InGame decs v → ∀ a, macid.InDom a → kB v a = σ.kernel v a) {agent : Agent} :
    ∀ k, BN.Prob ⟨macid.g, macid.dom, k⟩ →
      (∀ v ∈ macid.g.nodes, v ∉ decs.filter (fun d => decide (macid.m.role d = .decision agent)) → ∀ a, k v a = kB v a) →
      BN.W ⟨macid.g, macid.dom, k⟩ (fun a => ((macid.utils agent).map a).sum) ≤
        BN.W ⟨macid.g, macid.dom, kB⟩ (fun a => ((macid.utils agent).map a).sum) := by
  intro k hk hkB
  have hU := hN.usable
  have hgr' : N.m.IsGroup decs := by rw [hON.m]; exact hgr
  have ha : ∀ d ∈ decs, d ∈ N.m.decisions := hgr'.decisions
  have hm : ∀ v ∈ N.g.nodes, ¬ N.m.InGame decs v → (∃ w, N.g.Edge v w ∧ N.m.InGame decs w) →
      N.Own v ∧ (N.dom v).Pairwise (· ≤ ·) := fun v hv _ _ => hN.own v hv
  have hu : ∀ d ∈ decs, ∃ a u, N.m.role d = .decision a ∧ N.m.role u = .utility a ∧ N.g.Desc d u := fun d hd => hN.goal d (ha d hd)
  have hj := hN.subgames hset hgr' (pick := pick)
  obtain ⟨sg, h1, hsU, hs, hp, hmem, h3⟩ := ne_in_sg hU hN.names hord hset hao hrun hgr.nodup ha hm hu hN.leaf hj h
  obtain ⟨hv, hok, ⟨U, u1, u2, u3, u4, u5⟩, sg', k1, k2, k3, k4⟩ := h3 q hq
  obtain ⟨sg1, s1, s2, s3, s4⟩ := addPolicy_usable q hsU hok
  rw [k1] at s1
  cases s1
  have hg := hON.g
  have hdm := hON.dom
  have hOσN : OnlyRules N (W ++ D) σ := ⟨hOσ.m.trans hON.m.symm, hOσ.base.trans hON.base.symm, hOσ.domain.trans hON.domain.symm, fun w hw => by
    simp only [List.mem_append, not_or] at hw
    rw [hOσ.cpds w hw.2, hON.cpds w hw.1], fun w hw => by
    simp only [List.mem_append, not_or] at hw
    rw [hOσ.rels w hw.2, hON.rels w hw.1]⟩
  have key := whole_game hU hN.names hgr.nodup hs hp.domain hsU hmem k2 k3 u1 u2 u3
    (fun d hd u hud => u4 d hd u ((hs.edges u d).2 ⟨hud, Or.inl hd⟩)) (kB := kB) (by rw [hg, hdm]; exact hB) ?_ ?_ (agent := agent)
    (fun s hs1 hs2 => ?_) k (by rw [hg, hdm]; exact hk) (fun v hv hvd a _ => hkB v (by rw [← hg]; exact hv) (by rw [← hON.m]; exact hvd) a)
  · rw [hg, hdm] at key
    unfold utils at key ⊢
    rw [hON.m] at key
    exact key
  · intro v hvs hgm a had
    have hvm : v ∈ macid.g.nodes := by rw [← hg]; exact sub_nodes hU.good.wf hs hvs
    rw [hin v hvm (by rw [← hON.m]; exact hgm) a ((hON.inDom a).1 had)]
    by_cases hd : v ∈ decs
    · exact rule_sub hU hsU hs hp.domain hv hok hOσN hσq k3 s4 hd a
    · rw [k3.kernel hd, kept_kernel hp hvs hgm hd had]
      exact kernel_same (hσN v hvm (by rw [← hON.m]; exact hgm.resolve_left hd) hd) (hOσ.domain.trans hON.domain.symm) a
  · intro v hv _ a had h0
    exact absurd h0 (u5 v hv a (sub_inDom hU.good.wf hs hp.domain had))
  · have hfs : decs.filter (fun d => decide (sg'.m.role d = .decision agent)) = decs.filter (fun d => decide (N.m.role d = .decision agent)) := by
      apply List.filter_congr
      intro d hd
      rw [k3.m, decide_eq_decide, hs.decision d agent]
      exact ⟨fun h => h.2, fun h => ⟨hd, h⟩⟩
    by_cases hag : ∃ d ∈ decs, N.m.role d = .decision agent
    · exact k4 [agent] (by simpa using hag) agent (by simp) s hs1 (by rw [hfs]; exact hs2)
    · refine le_of_eq (OnlyRules.nil_EU k2 hs1 (hs2.mono fun w hw => ?_) agent)
      rw [List.mem_filter, decide_eq_true_eq] at hw
      exact absurd ⟨w, hw.1, hw.2⟩ hag

/-- a probabilistic network with some of the tables of another one -/
theorem _root_.Verif.BN.Prob.mix {g : Graph} {dom : Node → List Outcome} {k k' : Node → Assign → Rat} (h : BN.Prob ⟨g, dom, k⟩)
    (h' : BN.Prob ⟨g, dom, k'⟩) (P : Node → Prop) [DecidablePred P] : BN.Prob ⟨g, dom, fun v => if P v then k v else k' v⟩ := by
  refine ⟨⟨h.wf, h.nodup, fun v hv => ?_⟩, fun v hv a ha => ?_, fun v hv a ha => ?_⟩
  · by_cases hp : P v
    · simp only [hp, if_true]; exact h.scope v hv
    · simp only [hp, if_false]; exact h'.scope v hv
  · by_cases hp : P v
    · simp only [hp, if_true]; exact h.norm v hv a ha
    · simp only [hp, if_false]; exact h'.norm v hv a ha
  · by_cases hp : P v
    · simp only [hp, if_true]; exact h.nonneg v hv a ha
    · simp only [hp, if_false]; exact h'.nonneg v hv a ha

theorem _root_.Verif.Macid.IsGroup.perm {m : Macid} {c c' : List Node} (h : m.IsGroup c) (hp : c'.Perm c) : m.IsGroup c' := by
  refine ⟨fun e => h.nonempty ?_, hp.nodup_iff.2 h.nodup, fun x hx => h.decisions x (hp.mem_iff.1 hx), fun x hx y hy => ?_⟩
  · subst e; exact hp.symm.eq_nil
  · rw [hp.mem_iff]; exact h.classes x (hp.mem_iff.1 hx) y hy

/-- a self-contained set that meets a group contains it -/
theorem _root_.Verif.Macid.SelfContained.group {m : Macid} {S c : List Node} (hS : m.SelfContained S) (h : m.IsGroup c) {x : Node}
    (hx : x ∈ c) (hxS : x ∈ S) : ∀ y ∈ c, y ∈ S := by
  intro y hy
  have hr := ((h.classes x hx y (h.decisions y hy)).1 hy).1
  clear hy
  induction hr with
  | refl => exact hxS
  | @tail b z _ hbz ih => exact hS b ih z hbz.2.1 hbz.2.2.2

/-- whatever is done outside a self-contained set of decisions, no agent gains by deviating inside -/
theorem spe_chain {macid σ : Net} (hM : macid.Solvable) 
    {pick : Pick} {tpick : List Node → Nat}
    {ord setOrd enumSet : List Node → List Node} (hord : ∀ l, (ord l).Perm l) (hset : ∀ l, (setOrd l).Perm l) (hen : ∀ l, (enumSet l).Perm l)
    {agentOrd : List Agent → List Agent}
    (hao : ∀ l, (agentOrd l).Perm l) {run : Efg → Solver → Py (List Behavior)} {conv : Behavior → Behavior} (hrun : SoundSolvers run conv)
    {override : Option String} {groups : List (List Node)} {p : List Cpd} 
    (hb : Branch (fun n group => getNeInSg pick tpick ord setOrd agentOrd run conv override n (enumSet group)) macid groups p)
    (hfl : groups.flatten.Perm macid.m.decisions) (hpw : groups.Pairwise (fun c c' => ∀ x ∈ c, ∀ y ∈ c', ¬ macid.m.RReach x y))
    (hgr : ∀ c ∈ groups, macid.m.IsGroup c) (hOσ : OnlyRules macid (p.map (·.var)) σ) (hσ : ∀ c ∈ p, σ.cpds.get? c.var = some c)
    {S : List Node} (hS : macid.m.SelfContained S) {agent : Agent} {k k' : Node → Assign → Rat} (hk : BN.Prob ⟨macid.g, macid.dom, k⟩)
    (hk' : BN.Prob ⟨macid.g, macid.dom, k'⟩)
    (h1 : ∀ v ∈ macid.g.nodes, (v ∈ macid.m.decisions → v ∈ S) → ∀ a, macid.InDom a → k v a = σ.kernel v a)
    (h2 : ∀ v ∈ macid.g.nodes, ¬ (v ∈ S ∧ macid.m.role v = .decision agent) → ∀ a, macid.InDom a → k' v a = k v a) :
    BN.W ⟨macid.g, macid.dom, k'⟩ (fun a => ((macid.utils agent).map a).sum) ≤
      BN.W ⟨macid.g, macid.dom, k⟩ (fun a => ((macid.utils agent).map a).sum) := by
  classical
  let P : List (List Node) → Node → Prop := fun done v => v ∈ done.flatten ∧ v ∈ S ∧ macid.m.role v = .decision agent
  let K : List (List Node) → Node → Assign → Rat := fun done v => if P done v then k v else k' v
  have hKp : ∀ done, BN.Prob ⟨macid.g, macid.dom, K done⟩ := fun done => hk.mix hk' (P done)
  have step : ∀ pre g post, groups = pre ++ g :: post →
      BN.W ⟨macid.g, macid.dom, K pre⟩ (fun a => ((macid.utils agent).map a).sum) ≤
        BN.W ⟨macid.g, macid.dom, K (pre ++ [g])⟩ (fun a => ((macid.utils agent).map a).sum) := by
    intro pre g post he
    have hPs : ∀ v, P (pre ++ [g]) v ↔ P pre v ∨ (v ∈ g ∧ v ∈ S ∧ macid.m.role v = .decision agent) := by
      intro v
      simp only [P, List.flatten_append, List.mem_append, List.flatten_cons, List.flatten_nil, List.append_nil]
      tauto
    by_cases hmeet : ∃ x ∈ g, x ∈ S
    · obtain ⟨x, hxg, hxS⟩ := hmeet
      have hgg : macid.m.IsGroup g := hgr g (by rw [he]; simp)
      have hgS := hS.group hgg hxg hxS
      obtain ⟨p1, q, p2, N, found, e1, e2, e3, e4, e5, e6, e7, e8⟩ := hb.at_group pre g post he
      have hNs : N.Solvable := hM.only e4 e5 (fun d hd c hc => by
        obtain ⟨c', hc', rfl⟩ := List.mem_map.1 hd
        rw [e6 c' hc'] at hc
        cases hc
        exact e2.kind c hc')
      have hlater : ∀ d ∈ g, ∀ v, v ∈ post.flatten → ¬ macid.m.RReach d v := by
        intro d hd v hv
        obtain ⟨c', hc', hv'⟩ := List.mem_flatten.1 hv
        rw [he] at hpw
        exact (List.pairwise_cons.1 (List.pairwise_append.1 hpw).2.1).1 c' hc' d hd v hv'
      have hdecs : ∀ v, v ∈ macid.m.decisions ↔ v ∈ pre.flatten ∨ v ∈ g ∨ v ∈ post.flatten := by
        intro v
        rw [← hfl.mem_iff, he]
        simp
      have hpv : ∀ v, v ∈ p.map (·.var) ↔ v ∈ macid.m.decisions := fun v => by rw [hb.perm.mem_iff, hfl.mem_iff]
      refine group_step hNs e5 hOσ hord hset hao hrun (hgg.perm (hen g)) e7 e8 (fun c hc => hσ c (by rw [e1]; simp [hc])) ?_ (hKp _) ?_
        (K pre) (hKp _) (fun v hv hvd a => ?_)
      · rintro v hv ⟨d, hd, hdv⟩ hvd
        rw [(hen g).mem_iff] at hd hvd
        by_cases hp1 : v ∈ p1.map (·.var)
        · obtain ⟨c, hc, rfl⟩ := List.mem_map.1 hp1
          rw [e6 c hc, hσ c (by rw [e1]; simp [hc])]
        · rw [e5.cpds v hp1, hOσ.cpds v]
          rw [hpv, hdecs]
          rintro (h | h | h)
          · exact hp1 (e3.mem_iff.2 h)
          · exact hvd h
          · exact hlater d hd v h hdv
      · intro v hv hin a ha
        -- relevant decisions are in the set and solved
        have hvS : v ∈ macid.m.decisions → v ∈ S ∧ v ∈ (pre ++ [g]).flatten := by
          intro hvd
          rcases hin with h | ⟨d, hd, hdv⟩
          · rw [(hen g).mem_iff] at h
            exact ⟨hgS v h, by simp [h]⟩
          · rw [(hen g).mem_iff] at hd
            refine ⟨hS d (hgS d hd) v hvd hdv, ?_⟩
            rcases (hdecs v).1 hvd with h | h | h
            · simp only [List.flatten_append, List.mem_append, h, true_or]
            · simp [h]
            · exact absurd hdv (hlater d hd v h)
        have hKk : K (pre ++ [g]) v a = k v a := by
          by_cases hP : P (pre ++ [g]) v
          · simp only [K, if_pos hP]
          · simp only [K, if_neg hP]
            refine h2 v hv (fun hh => hP ?_) a ha
            exact ⟨(hvS (decisions_role.2 ⟨agent, hh.2⟩)).2, hh⟩
        rw [hKk, h1 v hv (fun h => (hvS h).1) a ha]
      · rw [List.mem_filter, decide_eq_true_eq, (hen g).mem_iff] at hvd
        have : P (pre ++ [g]) v ↔ P pre v := by
          rw [hPs]
          exact ⟨fun h => h.elim id (fun h => absurd ⟨h.1, h.2.2⟩ hvd), Or.inl⟩
        simp only [K, this]
    · have : K (pre ++ [g]) = K pre := by
        funext v
        have : P (pre ++ [g]) v ↔ P pre v := by
          rw [hPs]
          exact ⟨fun h => h.elim id (fun h => absurd ⟨v, h.1, h.2.1⟩ hmeet), Or.inl⟩
        simp only [K, this]
      rw [this]
  have chain : ∀ post pre, groups = pre ++ post → BN.W ⟨macid.g, macid.dom, K pre⟩ (fun a => ((macid.utils agent).map a).sum) ≤
      BN.W ⟨macid.g, macid.dom, K groups⟩ (fun a => ((macid.utils agent).map a).sum) := by
    intro post
    induction post with
    | nil => intro pre he; rw [he, List.append_nil]
    | cons g post ih =>
      intro pre he
      exact (step pre g post he).trans (ih (pre ++ [g]) (by rw [he]; simp))
  have hall := chain groups [] rfl
  have hK0 : K [] = k' := by
    funext v
    simp [K, P]
  have hK1 : BN.W ⟨macid.g, macid.dom, K groups⟩ (fun a => ((macid.utils agent).map a).sum) =
      BN.W ⟨macid.g, macid.dom, k⟩ (fun a => ((macid.utils agent).map a).sum) := by
    refine BN.W_same (B := ⟨macid.g, macid.dom, k⟩) (B' := ⟨macid.g, macid.dom, K groups⟩) rfl rfl (fun v hv a ha => ?_) _
    show K groups v a = k v a
    by_cases hP : P groups v
    · simp only [K, if_pos hP]
    · simp only [K, if_neg hP]
      refine h2 v hv (fun hh => hP ⟨?_, hh⟩) a ha
      exact hfl.mem_iff.2 (decisions_role.2 ⟨agent, hh.2⟩)
  rw [hK0, hK1] at hall
  exact hall

theorem OnlyRules.symm {n1 n2 : Net} {ds : List Node} (h : OnlyRules n1 ds n2) : OnlyRules n2 ds n1 :=
  ⟨h.m.symm, h.base.symm, h.domain.symm, fun w hw => (h.cpds w hw).symm, fun w hw => (h.rels w hw).symm⟩

theorem _root_.Verif.BN.W_nodes {g g' : Graph} {dom dom' : Node → List Outcome} (hn : g'.nodes = g.nodes) (hd : ∀ v ∈ g.nodes, dom' v = dom v)
    (k : Node → Assign → Rat) (F : Assign → Rat) : BN.W ⟨g', dom', k⟩ F = BN.W ⟨g, dom, k⟩ F := by
  unfold BN.W BN.prod
  simp only
  rw [hn]
  exact sumOver_dom_perm (fun v hv => by rw [hd v hv]) _ _

theorem _root_.Verif.BN.Prob.nodes {g g' : Graph} {dom dom' : Node → List Outcome} {k : Node → Assign → Rat} (h : BN.Prob ⟨g, dom, k⟩)
    (hw : g'.WF) (hn : g'.nodes = g.nodes) (he : ∀ u v, g'.Edge u v ↔ g.Edge u v) (hd : ∀ v ∈ g.nodes, dom' v = dom v) :
    BN.Prob ⟨g', dom', k⟩ := by
  have hpar : ∀ p v, g.Edge p v → p ∈ g.nodes := fun p v h' => by
    rw [← hn]; exact (hw.edgeNodes _ _ ((he p v).2 h')).1
  refine ⟨⟨hw, fun v hv => ?_, fun v hv => ?_⟩, fun v hv a ha => ?_, fun v hv a ha => ?_⟩
  · rw [show (BN.mk g' dom' k).g.nodes = g.nodes from hn] at hv
    show (dom' v).Nodup
    rw [hd v hv]; exact h.nodup v hv
  · rw [show (BN.mk g' dom' k).g.nodes = g.nodes from hn] at hv
    exact (h.scope v hv).mono (fun u hu => hu.imp id (he u v).2)
  · rw [show (BN.mk g' dom' k).g.nodes = g.nodes from hn] at hv
    show ((dom' v).map _).sum = 1
    rw [hd v hv]
    exact h.norm v hv a (fun p hp => by
      have := ha p ((he p v).2 hp)
      rw [show (BN.mk g' dom' k).dom p = dom p from hd p (hpar p v hp)] at this
      exact this)
  · rw [show (BN.mk g' dom' k).g.nodes = g.nodes from hn] at hv
    refine h.nonneg v hv a (fun u hu => ?_)
    have := ha u (hu.imp id (he u v).2)
    have hun : u ∈ g.nodes := by
      rcases hu with rfl | hu
      · exact hv
      · exact hpar u v hu
    rw [show (BN.mk g' dom' k).dom u = dom u from hd u hun] at this
    exact this

theorem _root_.Verif.Macid.IsGroup.congr {m m' : Macid} (hd : ∀ d, d ∈ m'.decisions ↔ d ∈ m.decisions) (hr : ∀ d v, m'.RReach d v ↔ m.RReach d v)
    {c : List Node} (h : m'.IsGroup c) : m.IsGroup c := by
  have e : m'.Linked = m.Linked := by
    funext a b
    exact propext (by unfold Linked; rw [hd, hd, hr])
  exact ⟨h.nonempty, h.nodup, fun x hx => (hd x).1 (h.decisions x hx), fun x hx y hy => by
    rw [← e]; exact h.classes x hx y ((hd y).2 hy)⟩

theorem _root_.Verif.Macid.IsSubgame.congr {m m' : Macid} (hro : ∀ n, m'.role n = m.role n) (he : ∀ u v, m'.g.Edge u v ↔ m.g.Edge u v)
    (hr : ∀ d v, m'.RReach d v ↔ m.RReach d v) {c : List Node} {sg : Macid} (h : m'.IsSubgame c sg) : m.IsSubgame c sg := by
  have e : ∀ v, m'.RelevantTo c v ↔ m.RelevantTo c v := fun v => by unfold RelevantTo; simp only [hr]
  refine ⟨fun u v => ?_, h.nodes, h.wf, fun v a => ?_, fun v a => ?_⟩
  · rw [h.edges, he]; unfold InGame; rw [e]
  · rw [h.decision, hro]
  · rw [h.utility, hro, e]

end Net

/-- the loop that `get_spe` runs, on a copy of the network -/
theorem Net.Solvable.spe_frame {net macid : Net} (hN : net.Solvable) (hcopy : net.copy = .ok macid) {pick : Pick} {stpick : List Nat → Nat}
    {enumScc : Graph → List (List Node)} {ne : Net → List Node → Py (List (List Cpd))}
    (hscc : ∀ rg : Graph, rg.nodes.Perm net.m.decisions → (∀ a b, rg.Edge a b ↔ net.m.Linked a b) → IsSccs rg.nodes rg.Edge (enumScc rg)) :
    macid.Solvable ∧ ∃ groups : List (List Node), groups.flatten.Perm macid.m.decisions ∧ groups.flatten.Nodup ∧
      (∀ c ∈ groups, macid.m.IsGroup c) ∧ groups.Pairwise (fun c c' => ∀ x ∈ c, ∀ y ∈ c', ¬ macid.m.RReach x y) ∧
      getSpe pick stpick enumScc ne net = speLoop ne macid [[]] groups := by
  have hU := hN.usable
  obtain ⟨macid', c1, c2, c3, c4, _, _⟩ := hU.copy
  rw [hcopy] at c1
  cases c1
  have c1 := hcopy
  have hdec : ∀ d, d ∈ macid.m.decisions ↔ d ∈ net.m.decisions := fun d => by
    rw [Net.decisions_role, Net.decisions_role, c4]
  have hdn : macid.m.decisions.Nodup := c2.roles.dec.nodeKeys
  have hperm : macid.m.decisions.Perm net.m.decisions :=
    (List.perm_ext_iff_of_nodup hdn hU.roles.dec.nodeKeys).2 hdec
  have hrr : ∀ d v, macid.m.RReach d v ↔ net.m.RReach d v := Macid.rreach_congr c4 (fun v => by
    rw [show macid.m.g.nodes = net.m.g.nodes from c3.nodes]) c3.edges
  have hn' : NamesOk macid.m.g := ⟨fun u hu v hv => hN.names.1 u (c3.nodes ▸ hu) v (c3.nodes ▸ hv), fun v hv => hN.names.2 v (c3.nodes ▸ hv)⟩
  have hplay : ∀ d ∈ macid.m.decisions, macid.m.Playable d := fun d hd => playable_of c2 hd
  obtain ⟨rg, r1, r2, r3, r4⟩ := relevanceGraph_spec c2.roles (mecFree_of_names hn') pick hdn hplay
  have hR : rg.Edge = macid.m.Linked := by
    funext a b
    exact propext (by rw [r4]; rfl)
  have hsc : IsSccs macid.m.decisions rg.Edge (enumScc rg) := by
    have := hscc rg (r2 ▸ hperm) (fun a b => by rw [r4, hdec, hdec, hrr]; rfl)
    rw [r2] at this
    exact this
  obtain ⟨rg', q1, q2, q3⟩ := C20_scc_ordering macid.m c2.roles hn' pick stpick hplay
  rw [r1] at q1
  cases q1
  obtain ⟨out, o1, o2, o3, o4⟩ := q3 _ hsc
  have h : getSpe pick stpick enumScc ne net = speLoop ne macid [[]] out.reverse := by
    unfold getSpe
    rw [c1]; simp only
    rw [r1]; simp only
    rw [o1]
  have hfl : out.reverse.flatten.Perm macid.m.decisions := ((List.reverse_perm out).flatten).trans o3
  have hflN : out.reverse.flatten.Nodup := hfl.nodup_iff.2 hdn
  have hgr : ∀ c ∈ out.reverse, macid.m.IsGroup c := by
    intro c hc
    have hc' := o2.mem_iff.1 (List.mem_reverse.1 hc)
    refine ⟨hsc.nonempty c hc', (List.nodup_flatten.1 hflN).1 c hc, fun x hx => hfl.mem_iff.1 (List.mem_flatten.2 ⟨c, hc, hx⟩),
      fun x hx y hy => ?_⟩
    rw [← hR]
    exact hsc.classes c hc' x hx y hy
  have hpw : out.reverse.Pairwise (fun c c' => ∀ x ∈ c, ∀ y ∈ c', ¬ macid.m.RReach x y) := by
    rw [List.pairwise_reverse]
    exact o4
  have hedge : macid.g.Edge = net.g.Edge := by
    funext u v
    exact propext (c3.edges u v)
  have hdom : ∀ v ∈ net.g.nodes, macid.dom v = net.dom v := fun v hv => c3.dom hv
  have hM : macid.Solvable := by
    refine ⟨c2, hn', fun v hv => ?_, fun d hd => ?_, fun u a hu w => ?_, fun group sg h1 h2 => ?_, fun group h1 d hd d' hd' e1 e2 => ?_⟩
    · rw [c3.nodes] at hv
      exact ⟨own_copy hU c1 (hN.own v hv).1, by rw [hdom v hv]; exact (hN.own v hv).2⟩
    · obtain ⟨a, u, k1, k2, k3⟩ := hN.goal d ((hdec d).1 hd)
      refine ⟨a, u, by rw [c4]; exact k1, by rw [c4]; exact k2, ?_⟩
      unfold Graph.Desc at k3 ⊢
      rw [hedge]; exact k3
    · rw [hedge]
      rw [c4] at hu
      exact hN.leaf u a hu w
    · exact hN.joined group sg (h1.congr hdec hrr) (h2.congr c4 c3.edges hrr)
    · refine hN.distinct group (h1.congr hdec hrr) d hd d' hd' (by rw [← c4, ← c4]; exact e1) (fun p => ?_)
      rw [← hedge]; exact e2 p
  exact ⟨hM, out.reverse, hfl, hflN, hgr, hpw, h⟩

/-- **C82** Every profile that `get_spe` returns has one rule for each decision and is a subgame perfect equilibrium of the game. -/
theorem C82_get_spe {net : Net} (hN : net.Solvable) {pick : Pick} {stpick : List Nat → Nat}
    {enumScc : Graph → List (List Node)} {tpick : List Node → Nat} {ord setOrd enumSet : List Node → List Node} {agentOrd : List Agent → List Agent}
    (hord : ∀ l, (ord l).Perm l) (hset : ∀ l, (setOrd l).Perm l) (hen : ∀ l, (enumSet l).Perm l) (hao : ∀ l, (agentOrd l).Perm l)
    {run : Efg → Solver → Py (List Behavior)} {conv : Behavior → Behavior} (hrun : SoundSolvers run conv) {override : Option String}
    (hscc : ∀ rg : Graph, rg.nodes.Perm net.m.decisions → (∀ a b, rg.Edge a b ↔ net.m.Linked a b) → IsSccs rg.nodes rg.Edge (enumScc rg))
    {spes : List (List Cpd)}
    (h : getSpe pick stpick enumScc (fun n group => getNeInSg pick tpick ord setOrd agentOrd run conv override n (enumSet group)) net = .ok spes) :
    ∀ p ∈ spes, (p.map (·.var)).Perm net.m.decisions ∧
      ∃ net', net.addPolicy p = (net', .ok ()) ∧ net'.Usable ∧ net'.SubgamePerfect := by
  have hU := hN.usable
  obtain ⟨macid, c1, c2, c3, c4, _, _⟩ := hU.copy
  have hdec : ∀ d, d ∈ macid.m.decisions ↔ d ∈ net.m.decisions := fun d => by
    rw [Net.decisions_role, Net.decisions_role, c4]
  have hperm : macid.m.decisions.Perm net.m.decisions :=
    (List.perm_ext_iff_of_nodup c2.roles.dec.nodeKeys hU.roles.dec.nodeKeys).2 hdec
  have hrr : ∀ d v, macid.m.RReach d v ↔ net.m.RReach d v := Macid.rreach_congr c4 (fun v => by
    rw [show macid.m.g.nodes = net.m.g.nodes from c3.nodes]) c3.edges
  have hdom : ∀ v ∈ net.g.nodes, macid.dom v = net.dom v := fun v hv => c3.dom hv
  obtain ⟨hM, groups, hfl, hflN, hgr, hpw, hloop⟩ := hN.spe_frame c1 hscc
  rw [hloop] at h
  have hbr := speLoop_branch (macid := macid) hflN (fun g hg p n done hb hnU hnO hnp found hf q hq => by
    have hnS : n.Solvable := hM.only hnU hnO (fun d hd c hc => by
      obtain ⟨c', hc', rfl⟩ := List.mem_map.1 hd
      rw [hnp c' hc'] at hc
      cases hc
      exact hb.kind c hc')
    have hgn : n.m.IsGroup (enumSet g) := by rw [hnO.m]; exact (hgr g hg).perm (hen g)
    refine ⟨(hnS.policy hord hset hao hrun hgn hf hq).only hnO.symm, getNeInSg_kind hf q hq, ?_⟩
    rw [getNeInSg_vars hf q hq]
    exact hen g) groups [] rfl c2 (.rfl' _ _) (fun p hp => by
      rw [List.mem_singleton.1 hp]; exact .nil) h
  intro p hp
  have hb := hbr p hp
  have hget : ∀ v ∈ net.g.nodes, net.domain.get? v = macid.domain.get? v := fun v hv => (c3.domain v hv).symm
  have hInDom : ∀ a, net.InDom a ↔ macid.InDom a := fun a => by
    unfold InDom
    rw [c3.nodes]
    exact forall₂_congr (fun v hv => by rw [hdom v hv])
  have hpokM : PolicyOk macid p := ⟨hb.perm.nodup_iff.2 hflN, hb.ok⟩
  have hpok : PolicyOk net p := by
    refine ⟨hpokM.1, fun c hc => ?_⟩
    obtain ⟨k1, k2, k3⟩ := hpokM.2 c hc
    have k1' := k1
    rw [c3.nodes] at k1'
    have hpar : ∀ x, macid.g.Edge x c.var → x ∈ net.g.nodes := fun x hx => by
      rw [← c3.nodes]; exact (c2.good.wf.edgeNodes _ _ hx).1
    refine ⟨k1', k2.transfer c2.good hU.good (fun x => (c3.edges x _).symm) (fun x hx => ?_), fun a ha => ?_⟩
    · rcases hx with rfl | hx
      · exact hget _ k1'
      · exact hget _ (hpar x hx)
    · have he : ∀ x ∈ c.evidence, net.domain.get? x = macid.domain.get? x := fun x hx => hget x (hpar x ((k2.fits.parents x).1 hx))
      simp only [prob_congr he]
      rw [← hdom c.var k1']
      exact k3 a ((hInDom a).1 ha)
  obtain ⟨net', n1, n2, n3, n4⟩ := addPolicy_usable p hU hpok
  obtain ⟨σ, s1, s2, s3, s4⟩ := addPolicy_usable p c2 hpokM
  refine ⟨hb.perm.trans (hfl.trans hperm), net', n1, n2, fun S hS n hnU hnO agent n' hnU' hnO' => ?_⟩
  rw [n3.m] at hS hnO hnO'
  have hSm : macid.m.SelfContained S := fun x hx y hy hxy => hS x hx y ((hdec y).1 hy) ((hrr x y).1 hxy)
  have hnm : n.m = net.m := hnO.m.trans n3.m
  have hng : n.g = net.g := hnO.g.trans n3.g
  have hnd : n.dom = net.dom := hnO.dom.trans n3.dom
  have hng' : n'.g = net.g := hnO'.g.trans hng
  have hnd' : n'.dom = net.dom := hnO'.dom.trans hnd
  have hW : ∀ s : Net, s.Usable → s.m = net.m → s.g = net.g → s.dom = net.dom →
      BN.Prob ⟨macid.g, macid.dom, s.kernel⟩ ∧ s.EU agent = BN.W ⟨macid.g, macid.dom, s.kernel⟩ (fun a => ((macid.utils agent).map a).sum) := by
    intro s hs e1 e2 e3
    have hp := bn_prob hs.good hs.normalised
    have eb : s.bn = ⟨net.g, net.dom, s.kernel⟩ := by unfold bn; rw [e2, e3]
    rw [eb] at hp
    refine ⟨hp.nodes c2.good.wf c3.nodes c3.edges hdom, ?_⟩
    rw [EU_eq hs agent, eb, BN.W_nodes (g := net.g) (g' := macid.g) c3.nodes hdom]
    congr 1
    funext a
    refine List.Perm.sum_eq (List.Perm.map a ?_)
    refine (List.perm_ext_iff_of_nodup ?_ ?_).2 (fun u => ?_)
    · rw [e1]; exact utils_nodup hU.roles agent
    · exact utils_nodup c2.roles agent
    · rw [e1]
      rw [show u ∈ (net.m.agentUtilities.get? agent).getD [] ↔ net.m.role u = .utility agent from mem_utils hU, mem_utils c2, c4]
  obtain ⟨p1, w1⟩ := hW n hnU hnm hng hnd
  obtain ⟨p2, w2⟩ := hW n' hnU' (hnO'.m.trans hnm) hng' hnd'
  rw [w1, w2]
  have hkσ : ∀ v ∈ net.g.nodes, ∀ a, net.InDom a → net'.kernel v a = σ.kernel v a := by
    intro v hv a ha
    by_cases hvp : v ∈ p.map (·.var)
    · obtain ⟨c, hc, rfl⟩ := List.mem_map.1 hvp
      obtain ⟨k1, k2, k3⟩ := hpokM.2 c hc
      unfold kernel
      rw [n4 c hc, s4 c hc]
      simp only
      rw [n3.domain, s3.domain]
      rw [prob_congr (dom := macid.domain) (dom' := net.domain)]
      intro x hx
      exact hget x (by rw [← c3.nodes]; exact (c2.good.wf.edgeNodes _ _ ((k2.fits.parents x).1 hx)).1)
    · rw [n3.kernel hvp, s3.kernel hvp, c3.kernel v hv a ha]
  refine spe_chain hM hord hset hen hao hrun hb hfl hpw hgr s3 s4 hSm p1 p2 (fun v hv hvS a ha => ?_) (fun v hv hvS a ha => ?_)
  · rw [c3.nodes] at hv
    rw [← hkσ v hv a ((hInDom a).2 ha)]
    refine hnO.kernel (fun hh => ?_) a
    rw [List.mem_filter, decide_eq_true_eq] at hh
    exact hh.2 (hvS ((hdec v).2 hh.1))
  · refine hnO'.kernel (fun hh => hvS ?_) a
    rw [List.mem_filter, decide_eq_true_eq] at hh
    exact ⟨hh.1, by rw [c4]; exact hh.2⟩

namespace ExG

/-- the other action than the one observed; the first player takes the second action -/
def answer : Behavior := fun i => if i = 0 then [0, 1] else [1, 0]

/-- a solver that knows the game of the second player after a chance move, and a game of the first player without anything at stake -/
def stages : Efg → Solver → Py (List Behavior) := fun t _ =>
  if t.players = [1] ∧ t.infosets = [⟨1, "D2", [0, 1]⟩, ⟨1, "D2", [0, 1]⟩] ∧
    t.moves = [([], .chance [0, 1] [1 / 2, 1 / 2]), ([0], .decision 0), ([1], .decision 1)] ∧
    t.payoffs = [([0, 0], [0]), ([0, 1], [2]), ([1, 0], [2]), ([1, 1], [0])]
  then .ok [answer]
  else if t.players = [0] ∧ t.infosets = [⟨0, "D1", [0, 1]⟩] ∧ t.moves = [([], .decision 0)] ∧ t.payoffs = [([0], [0]), ([1], [0])]
  then .ok [answer] else .ok []

theorem two {t : Efg} {b : Behavior} (hb : IsBehavior t b) {i : Nat} {s : Infoset} (hs : t.infosets[i]? = some s) (ha : s.actions = [0, 1]) :
    ∃ x y, b i = [x, y] ∧ 0 ≤ x ∧ 0 ≤ y ∧ x + y = 1 := by
  obtain ⟨q1, q2, q3⟩ := hb i s hs
  rw [ha] at q1
  match hbi : b i, q1 with
  | [x, y], _ =>
    rw [hbi] at q2 q3
    exact ⟨x, y, rfl, q2 x (by simp), q2 y (by simp), by simpa using q3⟩

theorem leafValue {t : Efg} {b : Behavior} {j : Nat} {idx : List Nat} {rs : List Rat} {r : Rat} (hm : t.moves.get? idx = none)
    (hp : t.payoffs.get? idx = some rs) (hr : rs[j]? = some r) : t.Value b j idx r := .leaf hm hp hr

theorem moveValue {t : Efg} {b : Behavior} {j : Nat} {idx : List Nat} {mv : Move} {c d r s k : Rat} (hm : t.moves.get? idx = some mv)
    (hb : odds b mv = [c, d]) (hr : t.Value b j (idx ++ [0]) r) (hs : t.Value b j (idx ++ [1]) s) (hk : k = c * r + (d * s + 0)) :
    t.Value b j idx k := by
  have := Efg.Value.move (t := t) (b := b) (j := j) (idx := idx) (rs := [r, s]) hm (by simp [hb]) (by
    intro n r' hn
    match n with
    | 0 => simp only [List.getElem?_cons_zero, Option.some.injEq] at hn; exact hn ▸ hr
    | 1 => simp only [List.getElem?_cons_succ, List.getElem?_cons_zero, Option.some.injEq] at hn; exact hn ▸ hs
    | n + 2 => simp at hn)
  simp only [hb, List.zipWith_cons_cons, List.zipWith_nil_left, List.sum_cons, List.sum_nil] at this
  rw [hk]
  exact this

theorem stages_sound : SoundSolvers stages id := by
  intro t s bs h b hb b' hb'
  simp only [id, ite_self] at hb'
  subst hb'
  unfold stages at h
  split at h
  · rename_i hc
    obtain ⟨h0, h1, h2, h3⟩ := hc
    simp only [Except.ok.injEq] at h
    subst h
    rw [List.mem_singleton] at hb
    subst hb
    have val : ∀ (b : Behavior) (x y u v : Rat), b 0 = [x, y] → b 1 = [u, v] → t.Value b 0 [] (y + u) := by
      intro b x y u v e0 e1
      refine moveValue (mv := .chance [0, 1] [1 / 2, 1 / 2]) (c := 1 / 2) (d := 1 / 2) (r := 2 * y) (s := 2 * u) (by rw [h2]; rfl) rfl
        (moveValue (mv := .decision 0) (c := x) (d := y) (r := 0) (s := 2) (by rw [h2]; rfl) e0 (leafValue (by rw [h2]; rfl) (by rw [h3]; rfl) rfl)
          (leafValue (by rw [h2]; rfl) (by rw [h3]; rfl) rfl) (by ring))
        (moveValue (mv := .decision 1) (c := u) (d := v) (r := 2) (s := 0) (by rw [h2]; rfl) e1 (leafValue (by rw [h2]; rfl) (by rw [h3]; rfl) rfl)
          (leafValue (by rw [h2]; rfl) (by rw [h3]; rfl) rfl) (by ring)) (by ring)
    refine ⟨fun i s hs => ?_, fun j agent hj b' hb' hsame r r' hr hr' => ?_⟩
    · rw [h1] at hs
      match i with
      | 0 => simp only [List.getElem?_cons_zero, Option.some.injEq] at hs; subst hs; decide +kernel
      | 1 => simp only [List.getElem?_cons_succ, List.getElem?_cons_zero, Option.some.injEq] at hs; subst hs; decide +kernel
      | i + 2 => simp at hs
    · rw [h0] at hj
      match j with
      | 0 =>
        obtain ⟨x, y, e0, hx, hy, hxy⟩ := two hb' (i := 0) (by rw [h1]; rfl) rfl
        obtain ⟨u, v, e1, hu, hv, huv⟩ := two hb' (i := 1) (by rw [h1]; rfl) rfl
        rw [hr.unique (val answer 0 1 1 0 rfl rfl), hr'.unique (val b' x y u v e0 e1)]
        linarith
      | j + 1 => simp at hj
  · split at h
    · rename_i hc
      obtain ⟨h0, h1, h2, h3⟩ := hc
      simp only [Except.ok.injEq] at h
      subst h
      rw [List.mem_singleton] at hb
      subst hb
      have val : ∀ (b : Behavior) (x y : Rat), b 0 = [x, y] → t.Value b 0 [] 0 := by
        intro b x y e0
        exact moveValue (mv := .decision 0) (c := x) (d := y) (r := 0) (s := 0) (by rw [h2]; rfl) e0 (leafValue (by rw [h2]; rfl) (by rw [h3]; rfl) rfl)
          (leafValue (by rw [h2]; rfl) (by rw [h3]; rfl) rfl) (by ring)
      refine ⟨fun i s hs => ?_, fun j agent hj b' hb' hsame r r' hr hr' => ?_⟩
      · rw [h1] at hs
        match i with
        | 0 => simp only [List.getElem?_cons_zero, Option.some.injEq] at hs; subst hs; decide +kernel
        | i + 1 => simp at hs
      · rw [h0] at hj
        match j with
        | 0 =>
          obtain ⟨x, y, e0, hx, hy, hxy⟩ := two hb' (i := 0) (by rw [h1]; rfl) rfl
          rw [hr.unique (val answer 0 1 rfl), hr'.unique (val b' x y e0)]
        | j + 1 => simp at hj
    · simp only [Except.ok.injEq] at h
      subst h
      simp at hb

theorem solvable : net.Solvable := by
  obtain ⟨h1, h2, h3, h4, h5, h6, h7, h8, h9⟩ := C77_example
  have hdec : ∀ d ∈ net.m.decisions, d ∈ ["D1", "D2"] := by decide +kernel
  refine ⟨h1, h2, h5, fun d hd => h6 d (hdec d hd), h7, fun group sg _ hs => ?_, fun group hg d hd d' hd' hr _ => ?_⟩
  · have hsrc : ∀ e ∈ net.g.edges, (e.1 = "D1" ∨ e.1 = "D2") ∧ ("D1", e.2) ∈ net.g.edges := by decide +kernel
    have hsrc2 : ∀ e ∈ net.g.edges, e.2 = "D2" ∨ ("D2", e.2) ∈ net.g.edges := by decide +kernel
    have hD : ∀ u v, sg.g.Edge u v → (u = "D1" ∨ u = "D2") ∧ sg.g.Edge "D1" v ∧ (v = "D2" ∨ sg.g.Edge "D2" v) := by
      intro u v huv
      obtain ⟨k1, k2⟩ := (hs.edges u v).1 huv
      refine ⟨(hsrc (u, v) k1).1, (hs.edges _ _).2 ⟨(hsrc (u, v) k1).2, k2⟩, (hsrc2 (u, v) k1).imp id (fun h => (hs.edges _ _).2 ⟨h, k2⟩)⟩
    have con : ∀ u v, sg.g.Edge u v → sg.g.Connected u v ∧ sg.g.Connected v u := by
      intro u v h
      exact ⟨.single (Or.inl h), .single (Or.inr h)⟩
    have h1v : ∀ v ∈ sg.g.nodes, sg.g.Connected "D1" v ∧ sg.g.Connected v "D1" := by
      intro v hv
      obtain ⟨w, hw | hw⟩ := (hs.nodes v).1 hv
      · obtain ⟨e1, e2, e3⟩ := hD v w hw
        exact ⟨(con _ _ e2).1.trans (con _ _ hw).2, (con _ _ hw).1.trans (con _ _ e2).2⟩
      · obtain ⟨e1, e2, e3⟩ := hD w v hw
        exact con _ _ e2
    intro u hu v hv
    exact (h1v u hu).2.trans (h1v v hv).1
  · have k1 := hdec d (hg.decisions d hd)
    have k2 := hdec d' (hg.decisions d' hd')
    have : ∀ d ∈ ["D1", "D2"], ∀ d' ∈ ["D1", "D2"], net.m.role d = net.m.role d' → d = d' := by decide +kernel
    exact this d k1 d' k2 hr

end ExG

/-- The theorem applies: first the follower is solved, then the leader, and what comes out is a subgame perfect equilibrium. -/
theorem C82_example : ∃ p net', (match getSpe (fun _ => 0) (fun _ => 0) ExG.sccs
      (fun n group => getNeInSg (fun _ => 0) (fun _ => 0) id id id ExG.stages id none n (id group)) ExG.net with
      | .ok spes => some spes
      | .error _ => none) = some [p] ∧
    p.map (fun c => (c.var, c.table)) = [("D2", [[0, 1], [1, 0]]), ("D1", [[0, 1]])] ∧
    ExG.net.addPolicy p = (net', .ok ()) ∧ net'.Usable ∧ net'.SubgamePerfect := by
  have hr : (match getSpe (fun _ => 0) (fun _ => 0) ExG.sccs
      (fun n group => getNeInSg (fun _ => 0) (fun _ => 0) id id id ExG.stages id none n (id group)) ExG.net with
      | .ok spes => spes.map (fun p => p.map (fun c => (c.var, c.table)))
      | .error _ => []) = [[("D2", [[0, 1], [1, 0]]), ("D1", [[0, 1]])]] := by decide +kernel
  cases hf : getSpe (fun _ => 0) (fun _ => 0) ExG.sccs
      (fun n group => getNeInSg (fun _ => 0) (fun _ => 0) id id id ExG.stages id none n (id group)) ExG.net with
  | error e => rw [hf] at hr; simp at hr
  | ok spes =>
    rw [hf] at hr
    simp only at hr
    match spes with
    | [] => simp at hr
    | _ :: _ :: _ => simp at hr
    | [p] =>
      obtain ⟨_, net', k1, k2, k3⟩ := C82_get_spe ExG.solvable (fun l => .refl l) (fun l => .refl l) (fun l => .refl l) (fun l => .refl l)
        ExG.stages_sound C64_example.2.2.1 hf p (by simp)
      exact ⟨p, net', rfl, by simpa using hr, k1, k2, k3⟩

end Verif

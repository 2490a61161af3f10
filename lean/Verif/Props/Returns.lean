import Verif.Lemmas.Returns
import Verif.Props.Existence

/-!
# When the search for equilibria returns (C98)
-/

namespace Verif

open Graph Relation Macid Net

namespace Net

theorem speStep_ok {ne : Net → List Node → Py (List (List Cpd))} {macid : Net} {group W : List Node} : ∀ (level : List (List Cpd)) {N : Net},
    N.Usable → OnlyRules macid W N → (∀ p ∈ level, PolicyOk macid p ∧ (p.map (·.var)).Perm W) →
    (∀ p ∈ level, ∀ n, n.Usable → OnlyRules macid W n → (∀ c ∈ p, n.cpds.get? c.var = some c) → ∃ found, ne n group = .ok found) →
    ∃ r, speStep ne group N level = .ok r
  | [], N, _, _, _, _ => ⟨_, rfl⟩
  | p :: ps, N, hN, hO, hp, hne => by
    obtain ⟨hok, hperm⟩ := hp p (by simp)
    obtain ⟨n, n1, n2, n3, n4⟩ := addPolicy_usable p hN (hok.only hO)
    have hOn : OnlyRules macid W n := hO.trans n3 (fun _ h => h) (fun w hw => hperm.mem_iff.1 hw)
    obtain ⟨found, hf⟩ := hne p (by simp) n n2 hOn n4
    obtain ⟨⟨N', rest⟩, hr⟩ := speStep_ok (group := group) ps n2 hOn (fun p' h' => hp p' (by simp [h'])) (fun p' h' => hne p' (by simp [h']))
    simp only [speStep]
    rw [n1]
    simp only
    rw [hf]
    simp only
    rw [hr]
    exact ⟨_, rfl⟩

theorem speLoop_ok {ne : Net → List Node → Py (List (List Cpd))} {macid : Net}
    {order : List (List Node)} (hord : order.flatten.Nodup)
    (hne : ∀ done g todo, order = done ++ g :: todo → ∀ (p : List Cpd) (n : Net), Branch ne macid done p → n.Usable →
      OnlyRules macid (p.map (·.var)) n → (∀ c ∈ p, n.cpds.get? c.var = some c) → (∃ found, ne n g = .ok found) ∧
      ∀ found, ne n g = .ok found → ∀ q ∈ found, PolicyOk macid q ∧ (∀ c ∈ q, c.kind ≠ .tabular) ∧ (q.map (·.var)).Perm g) :
    ∀ (todo done : List (List Node)) {N : Net} {level : List (List Cpd)}, order = done ++ todo → N.Usable →
    OnlyRules macid done.flatten N → (∀ p ∈ level, Branch ne macid done p) → ∃ out, speLoop ne N level todo = .ok out
  | [], done, N, level, ho, _, _, hl => ⟨_, rfl⟩
  | g :: todo, done, N, level, ho, hN, hO, hl => by
    have hnd : done.flatten.Nodup := by
      rw [ho, List.flatten_append] at hord
      exact (List.nodup_append.1 hord).1
    have hok : ∀ p ∈ level, PolicyOk macid p := fun p hp => ⟨(hl p hp).perm.nodup_iff.2 hnd, (hl p hp).ok⟩
    obtain ⟨⟨N', level'⟩, hs⟩ := speStep_ok (group := g) level hN hO (fun p hp => ⟨hok p hp, (hl p hp).perm⟩) (fun p hp n j1 j2 j3 =>
      (hne done g todo ho p n (hl p hp) j1 (j2.congr (fun w => (hl p hp).perm.mem_iff.symm)) j3).1)
    obtain ⟨k1, k2, k3⟩ := speStep_branch level hN hO (fun p hp => ⟨hok p hp, (hl p hp).perm⟩) hs
    simp only [speLoop]
    rw [hs]
    refine speLoop_ok hord hne todo (done ++ [g]) (by rw [ho]; simp) k1 (k2.mono (fun w hw => by simp [hw])) (fun x hx => ?_)
    obtain ⟨p, hp, n, found, q, j1, j2, j3, j4, j5, rfl⟩ := k3 x hx
    have j2' : OnlyRules macid (p.map (·.var)) n := j2.congr (fun w => (hl p hp).perm.mem_iff.symm)
    obtain ⟨i1, i2, i3⟩ := (hne done g todo ho p n (hl p hp) j1 j2' j3).2 found j4 q j5
    exact .snoc (hl p hp) j1 j2' j3 j4 j5 i1 i2 i3

theorem Tractable.congr {net macid : Net} (h : net.Tractable) (hw : net.g.WF) (hr : net.m.Consistent) (hE : Equiv net macid) (hrole : ∀ n, macid.m.role n = net.m.role n) :
    macid.Tractable := by
  have hdec : ∀ d, d ∈ macid.m.decisions ↔ d ∈ net.m.decisions := fun d => by
    rw [decisions_role, decisions_role, hrole]
  have hrr : ∀ d v, macid.m.RReach d v ↔ net.m.RReach d v := Macid.rreach_congr hrole (fun v => by
    rw [show macid.m.g.nodes = net.m.g.nodes from hE.nodes]) hE.edges
  have htree : ∀ g v, macid.InTree g v ↔ net.InTree g v := fun g v => by
    unfold InTree
    exact or_congr_right (exists_congr fun d => and_congr_right fun _ => hE.edges v d)
  have hrel : ∀ g v, macid.m.RelevantTo g v ↔ net.m.RelevantTo g v := fun g v => by
    unfold RelevantTo
    exact exists_congr fun d => and_congr_right fun _ => hrr d v
  have hin : ∀ g v, macid.m.InGame g v ↔ net.m.InGame g v := fun g v => or_congr_right (hrel g v)
  have hgrp : ∀ g, macid.m.IsGroup g → net.m.IsGroup g := fun g hg => hg.congr hdec hrr
  have hnode : ∀ g v, net.m.IsGroup g → net.InTree g v → v ∈ net.g.nodes := by
    rintro g v hg (h | ⟨d, _, h⟩)
    · exact hr.nodes v (Or.inl (hg.decisions v h))
    · exact (hw.edgeNodes v d h).1
  have hlink : macid.m.Linked = net.m.Linked := by
    funext a b
    exact propext (by unfold Linked; rw [hdec, hdec, hrr])
  refine ⟨fun d hd a ha => ?_, fun g hg v hv hv' p hp => ?_, fun g hg v hv hd hv' a ha => ?_, fun g hg v hv hd hv' x hx => ?_,
    fun g hg v hv hd hvg => ?_⟩
  · rw [hdec] at hd
    rw [hE.kernel d (hr.nodes d (Or.inl hd)) a ((hE.inDom a).1 ha)]
    exact h.mixed d hd a ((hE.inDom a).1 ha)
  · rw [htree] at hv ⊢
    rw [hin] at hv'
    exact h.closed g (hgrp g hg) v hv hv' p ((hE.edges p v).1 hp)
  · rw [htree] at hv
    rw [hin] at hv'
    rw [hdec] at hd
    rw [hE.kernel v (hnode g v (hgrp g hg) hv) a ((hE.inDom a).1 ha)]
    exact h.members g (hgrp g hg) v hv hd hv' a ((hE.inDom a).1 ha)
  · rw [htree] at hv
    rw [hin] at hv'
    rw [hdec] at hd
    have hvn := hnode g v (hgrp g hg) hv
    rw [hE.dom hvn] at hx
    obtain ⟨a, a1, a2, a3⟩ := h.others g (hgrp g hg) v hv hd hv' x hx
    exact ⟨a, (hE.inDom a).2 a1, a2, by rw [hE.kernel v hvn a a1]; exact a3⟩
  · rw [htree] at hv
    rw [hdec] at hd
    rw [hrel, hlink]
    exact h.later g (hgrp g hg) v hv hd hvg

/-- while backward induction is going on, nothing is in the way of the next search -/
theorem Tractable.searchable {macid n : Net} (h : macid.Tractable) (hM : macid.Usable) (hn : n.Usable) {W : List Node} (hO : OnlyRules macid W n)
    (hW : ∀ w ∈ W, w ∈ macid.m.decisions) {g : List Node} (hg : macid.m.IsGroup g) (hgW : ∀ d ∈ g, d ∉ W)
    (hlater : ∀ v ∈ W, ∀ d ∈ g, ¬ ReflTransGen macid.m.Linked v d) : n.Searchable g := by
  have hm := hO.m
  have hgr := hO.g
  have htree : ∀ v, n.InTree g v ↔ macid.InTree g v := fun v => by unfold InTree; rw [hgr]
  have hdn : ∀ v, macid.InTree g v → v ∈ macid.g.nodes := by
    rintro v (h | ⟨d, _, h⟩)
    · exact hM.roles.nodes v (Or.inl (hg.decisions v h))
    · exact (hM.good.wf.edgeNodes v d h).1
  have hstart : ∀ v, macid.InTree g v → ∀ a, n.kernel v a ≠ 0 → n.start g v a ≠ 0 := by
    intro v hv a hk
    unfold start
    split
    · have : (n.dom v).length ≠ 0 := fun e => (dom_props hn.good (by rw [hgr]; exact hdn v hv)).2 (List.length_eq_zero_iff.1 e)
      positivity
    · exact hk
  refine ⟨fun v hv hin p hp => ?_, fun v hv hin a ha => ?_, fun v hv hin x hx => ?_⟩
  · rw [htree] at hv ⊢
    rw [hm] at hin
    rw [hgr] at hp
    exact h.closed g hg v hv hin p hp
  · rw [htree] at hv
    rw [hm] at hin
    refine hstart v hv a ?_
    rw [hO.inDom] at ha
    by_cases hd : v ∈ macid.m.decisions
    · by_cases hvg : v ∈ g
      · rw [hO.kernel (hgW v hvg)]
        exact h.mixed v hd a ha
      · exact absurd (hin.resolve_left hvg) (h.later g hg v hv hd hvg).1
    · rw [hO.kernel (fun hw => hd (hW v hw))]
      exact h.members g hg v hv hd hin a ha
  · rw [htree] at hv
    rw [hm] at hin
    rw [hO.dom] at hx
    by_cases hd : v ∈ macid.m.decisions
    · have hvg : v ∉ g := fun hv' => hin (Or.inl hv')
      obtain ⟨_, d, hdg, hr⟩ := h.later g hg v hv hd hvg
      obtain ⟨a, a1, a2⟩ := exists_inDom hM.good (fun _ => x) (fun w => w = v) (fun u hu _ => by rw [hu]; exact hx)
      refine ⟨a, (hO.inDom a).2 a1, a2 v rfl, hstart v hv a ?_⟩
      rw [hO.kernel (fun hw => hlater v hw d hdg hr)]
      exact h.mixed v hd a a1
    · obtain ⟨a, a1, a2, a3⟩ := h.others g hg v hv hd hin x hx
      refine ⟨a, (hO.inDom a).2 a1, a2, hstart v hv a ?_⟩
      rw [hO.kernel (fun hw => hd (hW v hw))]
      exact a3

/-- what is solved does not rely on what is not -/
theorem solved_before {m : Macid} {pre post : List (List Node)} (hfl : ∀ d, d ∈ m.decisions ↔ d ∈ (pre ++ post).flatten)
    (hpw : (pre ++ post).Pairwise (fun c c' => ∀ x ∈ c, ∀ y ∈ c', ¬ m.RReach x y)) {v d : Node} (h : ReflTransGen m.Linked v d)
    (hd : d ∈ post.flatten) : v ∈ post.flatten := by
  induction h using ReflTransGen.head_induction_on with
  | refl => exact hd
  | @head a b hab _ ih =>
    have ha := (hfl a).1 hab.1
    rw [List.flatten_append, List.mem_append] at ha
    rcases ha with ha | ha
    · obtain ⟨c, hc, hac⟩ := List.mem_flatten.1 ha
      obtain ⟨c', hc', hbc⟩ := List.mem_flatten.1 ih
      exact absurd hab.2.2.2 ((List.pairwise_append.1 hpw).2.2 c hc c' hc' a hac b hbc)
    · exact ha

end Net

/-- **C98** With solvers that never raise, `get_ne_in_sg` returns exactly when the decisions and what they observe depend only on each other
in the subgame and nothing of this is excluded by a CPD or an existing rule. -/
theorem C98_get_ne_in_sg {net : Net} (hU : net.Usable) (hnames : NamesOk net.g) {pick : Pick} {tpick : List Node → Nat}
    {ord setOrd : List Node → List Node} (hord : ∀ l, (ord l).Perm l) (hset : ∀ l, (setOrd l).Perm l) {agentOrd : List Agent → List Agent}
    (hao : ∀ l, (agentOrd l).Perm l) {run : Efg → Solver → Py (List Behavior)} {conv : Behavior → Behavior} (hrun : SoundSolvers run conv)
    (hnr : NeverRaises run) {override : Option String} (hov : Known override) {decs : List Node} (hnd : decs.Nodup)
    (ha : ∀ d ∈ decs, d ∈ net.m.decisions)
    (hm : ∀ v ∈ net.g.nodes, ¬ net.m.InGame decs v → (∃ w, net.g.Edge v w ∧ net.m.InGame decs w) →
      net.Own v ∧ (net.dom v).Pairwise (· ≤ ·))
    (hu : ∀ d ∈ decs, ∃ a u, net.m.role d = .decision a ∧ net.m.role u = .utility a ∧ net.g.Desc d u)
    (hleaf : ∀ u a, net.m.role u = .utility a → ∀ w, ¬ net.g.Edge u w)
    (hj : ∀ sg, createSubgame pick setOrd net decs = .ok sg → Joined sg.g ∧ sg.Distinct decs)
    (hown : ∀ v, net.InTree decs v → net.Own v) :
    (∃ found, getNeInSg pick tpick ord setOrd agentOrd run conv override net decs = .ok found) ↔ net.Searchable decs :=
  ⟨fun ⟨_, h⟩ => search_needs hU hnames hord hset hnd ha hm hu hleaf (fun sg h => (hj sg h).1) h,
    search_returns hU hnames hord hset hao hrun hnr hov hnd ha hm hu hleaf hj hown⟩

/-- **C98** The same for `get_ne` and all decisions. -/
theorem C98_get_ne {net : Net} (hU : net.Usable) (hnames : NamesOk net.g) {pick : Pick} {tpick : List Node → Nat}
    {ord setOrd : List Node → List Node} (hord : ∀ l, (ord l).Perm l) (hset : ∀ l, (setOrd l).Perm l) {agentOrd : List Agent → List Agent}
    (hao : ∀ l, (agentOrd l).Perm l) {run : Efg → Solver → Py (List Behavior)} {conv : Behavior → Behavior} (hrun : SoundSolvers run conv)
    (hnr : NeverRaises run) {override : Option String} (hov : Known override)
    (hm : ∀ v ∈ net.g.nodes, ¬ net.m.InGame net.m.decisions v → (∃ w, net.g.Edge v w ∧ net.m.InGame net.m.decisions w) →
      net.Own v ∧ (net.dom v).Pairwise (· ≤ ·))
    (hu : ∀ d ∈ net.m.decisions, ∃ a u, net.m.role d = .decision a ∧ net.m.role u = .utility a ∧ net.g.Desc d u)
    (hleaf : ∀ u a, net.m.role u = .utility a → ∀ w, ¬ net.g.Edge u w)
    (hj : ∀ sg, createSubgame pick setOrd net net.m.decisions = .ok sg → Joined sg.g ∧ sg.Distinct net.m.decisions)
    (hown : ∀ v, net.InTree net.m.decisions v → net.Own v) :
    (∃ found, getNe pick tpick ord setOrd agentOrd run conv override net = .ok found) ↔ net.Searchable net.m.decisions :=
  C98_get_ne_in_sg hU hnames hord hset hao hrun hnr hov hU.roles.dec.nodeKeys (fun _ h => h) hm hu hleaf hj hown

/-- **C98** `get_ne_in_sg` never returns when one of the decisions already has a rule that excludes an action, whatever the solver does. -/
theorem C98_decided {net : Net} (hU : net.Usable) (hnames : NamesOk net.g) {pick : Pick} {tpick : List Node → Nat}
    {ord setOrd : List Node → List Node} (hord : ∀ l, (ord l).Perm l) (hset : ∀ l, (setOrd l).Perm l) {agentOrd : List Agent → List Agent}
    {run : Efg → Solver → Py (List Behavior)} {conv : Behavior → Behavior}
    {override : Option String} {decs : List Node} (hnd : decs.Nodup) (ha : ∀ d ∈ decs, d ∈ net.m.decisions)
    (hm : ∀ v ∈ net.g.nodes, ¬ net.m.InGame decs v → (∃ w, net.g.Edge v w ∧ net.m.InGame decs w) →
      net.Own v ∧ (net.dom v).Pairwise (· ≤ ·))
    (hu : ∀ d ∈ decs, ∃ a u, net.m.role d = .decision a ∧ net.m.role u = .utility a ∧ net.g.Desc d u)
    (hleaf : ∀ u a, net.m.role u = .utility a → ∀ w, ¬ net.g.Edge u w)
    (hj : ∀ sg, createSubgame pick setOrd net decs = .ok sg → Joined sg.g) {d : Node} (hd : d ∈ decs) (hdec : net.undecided d = false)
    {a : Assign} (hin : net.InDom a) (h0 : net.kernel d a = 0) :
    ∀ found, getNeInSg pick tpick ord setOrd agentOrd run conv override net decs ≠ .ok found := by
  intro found h
  have := (search_needs hU hnames hord hset hnd ha hm hu hleaf hj h).members d (Or.inl hd) (Or.inl hd) a hin
  unfold start at this
  rw [if_neg (fun h => by rw [h.2.1] at hdec; cases hdec)] at this
  exact this h0

/-- **C98** `get_spe` returns no equilibrium when some decision already has a rule that excludes an action: it raises or returns an empty list,
whatever the solver does. -/
theorem C98_get_spe_decided {net : Net} (hN : net.Solvable) {pick : Pick} {stpick : List Nat → Nat}
    {enumScc : Graph → List (List Node)} {tpick : List Node → Nat} {ord setOrd enumSet : List Node → List Node} {agentOrd : List Agent → List Agent}
    (hord : ∀ l, (ord l).Perm l) (hset : ∀ l, (setOrd l).Perm l) (hen : ∀ l, (enumSet l).Perm l) (hao : ∀ l, (agentOrd l).Perm l)
    {run : Efg → Solver → Py (List Behavior)} {conv : Behavior → Behavior} (hrun : SoundSolvers run conv) {override : Option String}
    (hscc : ∀ rg : Graph, rg.nodes.Perm net.m.decisions → (∀ a b, rg.Edge a b ↔ net.m.Linked a b) → IsSccs rg.nodes rg.Edge (enumScc rg))
    {d : Node} (hd : d ∈ net.m.decisions) (hdec : net.undecided d = false) {a : Assign} (hin : net.InDom a) (h0 : net.kernel d a = 0)
    {spes : List (List Cpd)}
    (h : getSpe pick stpick enumScc (fun n group => getNeInSg pick tpick ord setOrd agentOrd run conv override n (enumSet group)) net = .ok spes) :
    spes = [] := by
  have hU := hN.usable
  obtain ⟨macid, c1, c2, c3, c4, _, _⟩ := hU.copy
  obtain ⟨hM, groups, hfl, hflN, hgr, hpw, hloop⟩ := hN.spe_frame c1 hscc
  rw [hloop] at h
  have hbr := speLoop_branch (macid := macid) hflN (fun g hg p n done hb hnU hnO hnp found hf q hq => by
    have hnS : n.Solvable := hM.only hnU hnO (fun d hd c hc => by
      obtain ⟨c', hc', rfl⟩ := List.mem_map.1 hd
      rw [hnp c' hc'] at hc
      cases hc
      exact hb.kind c hc')
    have hgn : n.m.IsGroup (enumSet g) := by rw [hnO.m]; exact (hgr g hg).perm (hen g)
    refine ⟨(hnS.policy hord hset hao hrun hgn hf hq).only hnO.symm, getNeInSg_kind hf q hq, ?_⟩
    rw [getNeInSg_vars hf q hq]
    exact hen g) groups [] rfl c2 (.rfl' _ _) (fun p hp => by
      rw [List.mem_singleton.1 hp]; exact .nil) h
  rw [List.eq_nil_iff_forall_not_mem]
  intro p hp
  have hb := hbr p hp
  have hdm : d ∈ macid.m.decisions := by rw [decisions_role, c4, ← decisions_role]; exact hd
  have hdn : d ∈ net.g.nodes := hU.roles.nodes d (Or.inl hd)
  obtain ⟨g, hg, hdg⟩ := List.mem_flatten.1 (hfl.mem_iff.2 hdm)
  obtain ⟨pre, post, he⟩ := List.append_of_mem hg
  obtain ⟨p1, q, p2, n, found, e1, e2, e3, e4, e5, e6, e7, e8⟩ := hb.at_group pre g post he
  have hnS : n.Solvable := hM.only e4 e5 (fun d hd c hc => by
    obtain ⟨c', hc', rfl⟩ := List.mem_map.1 hd
    rw [e6 c' hc'] at hc
    cases hc
    exact e2.kind c hc')
  have hgn : n.m.IsGroup (enumSet g) := by rw [e5.m]; exact (hgr g hg).perm (hen g)
  have hdp : d ∉ p1.map (·.var) := fun hdp => by
    have h1 := e3.mem_iff.1 hdp
    rw [he, List.flatten_append, List.nodup_append] at hflN
    exact hflN.2.2 d h1 d (by simp [hdg]) rfl
  have hmi : macid.InDom a := (c3.inDom a).2 hin
  refine C98_decided e4 hnS.names hord hset hgn.nodup hgn.decisions (fun v hv _ _ => hnS.own v hv)
    (fun d hd => hnS.goal d (hgn.decisions d hd)) hnS.leaf (fun sg hsg => (hnS.subgames hset hgn sg hsg).1) ((hen g).mem_iff.2 hdg) ?_
    ((e5.inDom a).2 hmi) ?_ found e7
  · rw [← hdec, ← c3.undecided d hdn]
    unfold undecided
    rw [e5.cpds d hdp]
  · rw [e5.kernel hdp, c3.kernel d hdn a hin]
    exact h0

/-- **C98** `get_spe` returns for every game in which no existing rule excludes an action and, for every group of decisions that rely on each
other, what is observed can be put at the root of a game tree and cannot be excluded by the rules found before. -/
theorem C98_get_spe {net : Net} (hN : net.Solvable) (hT : net.Tractable) {pick : Pick} {stpick : List Nat → Nat}
    {enumScc : Graph → List (List Node)} {tpick : List Node → Nat} {ord setOrd enumSet : List Node → List Node} {agentOrd : List Agent → List Agent}
    (hord : ∀ l, (ord l).Perm l) (hset : ∀ l, (setOrd l).Perm l) (hen : ∀ l, (enumSet l).Perm l) (hao : ∀ l, (agentOrd l).Perm l)
    {run : Efg → Solver → Py (List Behavior)} {conv : Behavior → Behavior} (hrun : SoundSolvers run conv) (hnr : NeverRaises run)
    {override : Option String} (hov : Known override)
    (hscc : ∀ rg : Graph, rg.nodes.Perm net.m.decisions → (∀ a b, rg.Edge a b ↔ net.m.Linked a b) → IsSccs rg.nodes rg.Edge (enumScc rg)) :
    ∃ spes, getSpe pick stpick enumScc (fun n group => getNeInSg pick tpick ord setOrd agentOrd run conv override n (enumSet group)) net = .ok spes := by
  have hU := hN.usable
  obtain ⟨macid, c1, c2, c3, c4, _, _⟩ := hU.copy
  obtain ⟨hM, groups, hfl, hflN, hgr, hpw, hloop⟩ := hN.spe_frame c1 hscc
  rw [hloop]
  have hTm := hT.congr hU.good.wf hU.roles c3 c4
  refine speLoop_ok (macid := macid) hflN (fun done g todo he p n hb hnU hnO hnp => ?_) groups [] rfl c2 (.rfl' _ _) (fun p hp => by
    rw [List.mem_singleton.1 hp]; exact .nil)
  have hg : g ∈ groups := by rw [he]; simp
  have hnS : n.Solvable := hM.only hnU hnO (fun d hd c hc => by
    obtain ⟨c', hc', rfl⟩ := List.mem_map.1 hd
    rw [hnp c' hc'] at hc
    cases hc
    exact hb.kind c hc')
  have hgm : macid.m.IsGroup (enumSet g) := (hgr g hg).perm (hen g)
  have hgn : n.m.IsGroup (enumSet g) := by rw [hnO.m]; exact hgm
  refine ⟨?_, fun found hf q hq => ⟨(hnS.policy hord hset hao hrun hgn hf hq).only hnO.symm, getNeInSg_kind hf q hq, by
    rw [getNeInSg_vars hf q hq]; exact hen g⟩⟩
  have hflN' := hflN
  rw [he, List.flatten_append, List.nodup_append] at hflN'
  have hin : ∀ w ∈ p.map (·.var), w ∈ done.flatten := fun w hw => hb.perm.mem_iff.1 hw
  have htree : ∀ v, n.InTree (enumSet g) v → v ∈ n.g.nodes := by
    rintro v (h | ⟨d, _, h⟩)
    · exact hnU.roles.nodes v (Or.inl (hgn.decisions v h))
    · exact (hnU.good.wf.edgeNodes v d h).1
  refine search_returns hnU hnS.names hord hset hao hrun hnr hov hgn.nodup hgn.decisions (fun v hv _ _ => hnS.own v hv)
    (fun d hd => hnS.goal d (hgn.decisions d hd)) hnS.leaf (hnS.subgames hset hgn) (fun v hv => (hnS.own v (htree v hv)).1)
    (hTm.searchable c2 hnU hnO (fun w hw => ?_) hgm (fun d hd hdp => ?_) (fun v hv d hd hr => ?_))
  · rw [← hfl.mem_iff, he, List.flatten_append]
    exact List.mem_append_left _ (hin w hw)
  · exact hflN'.2.2 d (hin d hdp) d (by simp [(hen g).mem_iff.1 hd]) rfl
  · have := solved_before (m := macid.m) (pre := done) (post := g :: todo) (fun d => by rw [← he]; exact hfl.mem_iff.symm) (by rw [← he]; exact hpw) hr
      (by simp [(hen g).mem_iff.1 hd])
    exact hflN'.2.2 v (hin v hv) v this rfl

/-- **C98** If moreover decisions that rely on each other always belong to one agent and the default solvers find pure equilibria, `get_spe`
returns a subgame perfect equilibrium. -/
theorem C98_get_spe_finds {net : Net} (hN : net.Solvable) (hT : net.Tractable) {pick : Pick} {stpick : List Nat → Nat}
    {enumScc : Graph → List (List Node)} {tpick : List Node → Nat} {ord setOrd enumSet : List Node → List Node} {agentOrd : List Agent → List Agent}
    (hord : ∀ l, (ord l).Perm l) (hset : ∀ l, (setOrd l).Perm l) (hen : ∀ l, (enumSet l).Perm l) (hao : ∀ l, (agentOrd l).Perm l)
    {run : Efg → Solver → Py (List Behavior)} {conv : Behavior → Behavior} (hrun : SoundSolvers run conv) (hnr : NeverRaises run)
    (hfind : FindsPure run) {override : Option String} (hov : Standard override)
    (hscc : ∀ rg : Graph, rg.nodes.Perm net.m.decisions → (∀ a b, rg.Edge a b ↔ net.m.Linked a b) → IsSccs rg.nodes rg.Edge (enumScc rg))
    (hone : ∀ group, net.m.IsGroup group → ∃ a, ∀ d ∈ group, net.m.role d = .decision a) :
    ∃ spes, getSpe pick stpick enumScc (fun n group => getNeInSg pick tpick ord setOrd agentOrd run conv override n (enumSet group)) net = .ok spes ∧
      spes ≠ [] ∧ ∀ p ∈ spes, (p.map (·.var)).Perm net.m.decisions ∧ ∃ net', net.addPolicy p = (net', .ok ()) ∧ net'.Usable ∧ net'.SubgamePerfect := by
  obtain ⟨spes, h⟩ := C98_get_spe hN hT hord hset hen hao hrun hnr (override := override) (by
    rcases hov with rfl | rfl | rfl
    · rintro name ⟨⟩
    · rintro name ⟨⟩; simp
    · rintro name ⟨⟩; simp) hscc (pick := pick) (stpick := stpick) (tpick := tpick)
  refine ⟨spes, h, ?_, C82_get_spe hN hord hset hen hao hrun hscc h⟩
  obtain ⟨p, hp, _⟩ := C97_get_spe hN hord hset hen hao hrun hfind hov hscc hone h
  exact List.ne_nil_of_mem hp

namespace Net

theorem canon_eq {net : Net} (hG : Good net) {v : Node} (hv : v ∈ net.g.nodes) (a : Assign) :
    net.kernel v a = net.kernel v (fun w => (Dict.get? (net.g.nodes.zip (net.g.nodes.map a)) w).getD 0) := by
  apply kernel_depends hG hv
  intro u hu
  have hun : u ∈ net.g.nodes := by
    rcases hu with rfl | hu
    · exact hv
    · exact (hG.wf.edgeNodes u v hu).1
  have : ∀ l : List Node, u ∈ l → Dict.get? (l.zip (l.map a)) u = some (a u) := by
    intro l hl
    induction l with
    | nil => simp at hl
    | cons w l ih =>
      simp only [List.map_cons, List.zip_cons_cons, Dict.get?]
      by_cases e : w = u
      · subst e; simp
      · rw [if_neg e]
        exact ih ((List.mem_cons.1 hl).resolve_left (Ne.symm e))
  rw [this _ hun]
  rfl

theorem canon_mem {net : Net} {a : Assign} (ha : net.InDom a) : net.g.nodes.map a ∈ product (net.g.nodes.map net.dom) :=
  mem_product.2 (by
    rw [List.forall₂_map_left_iff, List.forall₂_map_right_iff]
    exact List.forall₂_same.2 (fun w hw => ha w hw))

/-- to check all assignments by evaluation -/
theorem forall_inDom {net : Net} (hG : Good net) {v : Node} (hv : v ∈ net.g.nodes) {P : Rat → Prop}
    (h : ∀ xs ∈ product (net.g.nodes.map net.dom), P (net.kernel v (fun w => (Dict.get? (net.g.nodes.zip xs) w).getD 0))) :
    ∀ a, net.InDom a → P (net.kernel v a) := by
  intro a ha
  rw [canon_eq hG hv a]
  exact h _ (canon_mem ha)

end Net

namespace ExG

theorem linked (a b : Node) : net.m.Linked a b ↔ a = "D1" ∧ b = "D2" := by
  have hU := usable.1
  obtain ⟨rg, r1, r2, _, r4⟩ := relevanceGraph_spec hU.roles (mecFree_of_names names) (fun _ => 0)
    (show net.m.decisions.Nodup from hU.roles.dec.nodeKeys) (fun d hd => playable_of hU hd)
  have hrg : relevanceGraph (fun _ => 0) net.m net.m.decisions = .ok ⟨["D1", "D2"], [("D1", "D2")]⟩ := by decide +kernel
  rw [hrg] at r1
  cases r1
  refine (r4 a b).symm.trans ?_
  simp [Graph.Edge]

theorem decs : ∀ d, d ∈ net.m.decisions ↔ d = "D1" ∨ d = "D2" := by
  intro d
  rw [show net.m.decisions = ["D1", "D2"] by decide +kernel]
  simp

theorem groups {group : List Node} (hg : net.m.IsGroup group) : ∀ d ∈ group, ∀ d' ∈ group, d = d' := by
  have hr : ∀ x y, ReflTransGen net.m.Linked x y → x = y ∨ (x = "D1" ∧ y = "D2") := by
    intro x y h
    induction h with
    | refl => exact Or.inl rfl
    | tail _ h2 ih =>
      obtain ⟨rfl, rfl⟩ := (linked _ _).1 h2
      rcases ih with rfl | ⟨_, h⟩
      · exact Or.inr ⟨rfl, rfl⟩
      · exact absurd h (by decide)
  intro d hd d' hd'
  obtain ⟨q1, q2⟩ := (hg.classes d hd d' (hg.decisions d' hd')).1 hd'
  rcases hr _ _ q1 with h | ⟨rfl, rfl⟩
  · exact h
  · rcases hr _ _ q2 with h | ⟨h, _⟩ <;> simp at h

theorem tractable : net.Tractable := by
  have hU := usable.1
  have hpar : ∀ p d, net.g.Edge p d → d ∈ net.m.decisions → p = "D1" ∧ d = "D2" := by
    have : ∀ e ∈ net.g.edges, e.2 ∈ net.m.decisions → e.1 = "D1" ∧ e.2 = "D2" := by decide +kernel
    exact fun p d h hd => this (p, d) h hd
  have htree : ∀ g v, net.m.IsGroup g → net.InTree g v → v ∈ net.m.decisions := by
    rintro g v hg (h | ⟨d, hd, h⟩)
    · exact hg.decisions v h
    · rw [decs]; exact Or.inl (hpar v d h (hg.decisions d hd)).1
  have hmix : ∀ d ∈ net.m.decisions, ∀ a, net.InDom a → net.kernel d a ≠ 0 := by
    intro d hd
    rcases (decs d).1 hd with rfl | rfl
    · exact forall_inDom (v := "D1") (P := fun r => r ≠ 0) hU.good (by decide +kernel) (by decide +kernel)
    · exact forall_inDom (v := "D2") (P := fun r => r ≠ 0) hU.good (by decide +kernel) (by decide +kernel)
  refine ⟨hmix, fun g hg v hv hin p hp => ?_, fun g hg v hv hd => absurd (htree g v hg hv) hd, fun g hg v hv hd => absurd (htree g v hg hv) hd,
    fun g hg v hv hd hvg => ?_⟩
  · obtain ⟨rfl, rfl⟩ := hpar p v hp (htree g v hg hv)
    rcases hv with h | ⟨d, hd, h⟩
    · exact Or.inr ⟨_, h, hp⟩
    · have := (hpar _ d h (hg.decisions d hd)).1
      simp at this
  · rcases hv with h | ⟨d, hd, h⟩
    · exact absurd h hvg
    · obtain ⟨rfl, rfl⟩ := hpar v d h (hg.decisions d hd)
      refine ⟨?_, "D2", hd, .single ((linked _ _).2 ⟨rfl, rfl⟩)⟩
      rintro ⟨x, hx, hr⟩
      have := groups hg x hx "D2" hd
      subst this
      have := (linked "D2" "D1").1 ⟨(decs _).2 (Or.inr rfl), (decs _).2 (Or.inl rfl), by decide, hr⟩
      simp at this

theorem finder_returns : NeverRaises finder := by
  intro t s
  unfold finder
  split
  · exact ⟨_, rfl⟩
  · split <;> exact ⟨_, rfl⟩

/-- the follower has already decided: the other action than the one observed -/
def other : Func := fun pv => .ok (.val (if pv "D1" = some 0 then 1 else 0))

def decidedRels : List (Node × Rel) := [("D1", .seq [0, 1]), ("D2", .func other), ("U1", .func u1), ("U2", .func u2)]

def decidedNet : Net := ((Net.mk m [] [] [] Macid.new).addCpds decidedRels).1

theorem decided_usable : decidedNet.Usable ∧ decidedNet.m = m :=
  usable_of_build (edges := edges) (ad := [(0, ["D1"]), (1, ["D2"])]) (au := [(0, ["U1"]), (1, ["U2"])]) (rels := decidedRels)
    (by decide +kernel) (by rw [← show ((Net.mk m [] [] [] Macid.new).addCpds decidedRels).2 = .ok () by decide +kernel]; rfl)
    (by
      intro p hp
      simp only [decidedRels, List.mem_cons, List.not_mem_nil, or_false] at hp
      rcases hp with rfl | rfl | rfl | rfl
      · trivial
      · intro pv; simp [other]
      · intro pv; simp [u1]
      · intro pv; simp [u2]) (by decide +kernel)

theorem decided_solvable : decidedNet.Solvable := by
  have hm : decidedNet.m = net.m := decided_usable.2.trans usable.2.symm
  have hg : decidedNet.g = net.g := congrArg Macid.g hm
  have hs := solvable
  refine ⟨decided_usable.1, by rw [hg]; exact hs.names, fun v hv => ⟨fun c hc => ?_, ?_⟩, by rw [hm, hg]; exact hs.goal, by rw [hm, hg]; exact hs.leaf,
    by rw [hm]; exact hs.joined, by rw [hm, hg]; exact hs.distinct⟩
  · have : ∀ p ∈ decidedNet.cpds, p.2.kind ≠ .tabular := by decide +kernel
    exact this _ (Dict.mem_of_get? hc)
  · have : ∀ v ∈ decidedNet.g.nodes, (decidedNet.dom v).Pairwise (· ≤ ·) := by decide +kernel
    exact this v hv

end ExG

/-- The hypotheses of `C98_get_spe_finds` are met by the game of a leader and a follower, so backward induction succeeds. -/
theorem C98_example : ∃ spes, getSpe (fun _ => 0) (fun _ => 0) ExG.sccs
      (fun n group => getNeInSg (fun _ => 0) (fun _ => 0) id id id ExG.finder id none n (id group)) ExG.net = .ok spes ∧ spes ≠ [] ∧
    ∀ p ∈ spes, (p.map (·.var)).Perm ExG.net.m.decisions ∧ ∃ net', ExG.net.addPolicy p = (net', .ok ()) ∧ net'.Usable ∧ net'.SubgamePerfect :=
  C98_get_spe_finds ExG.solvable ExG.tractable (fun l => .refl l) (fun l => .refl l) (fun l => .refl l) (fun l => .refl l)
    ExG.finder_sound ExG.finder_returns ExG.finder_finds (Or.inl rfl) C64_example.2.2.1 C97_example.2.2.2.1

/-- The hypotheses of `C98_get_spe_decided` are met when the follower has already decided to take the other action than the one observed; here
`get_spe` raises. -/
theorem C98_decided_example : ExG.decidedNet.Solvable ∧ "D2" ∈ ExG.decidedNet.m.decisions ∧ ExG.decidedNet.undecided "D2" = false ∧
    (∃ a, ExG.decidedNet.InDom a ∧ ExG.decidedNet.kernel "D2" a = 0) ∧
    (match getSpe (fun _ => 0) (fun _ => 0) ExG.sccs
      (fun n group => getNeInSg (fun _ => 0) (fun _ => 0) id id id ExG.finder id none n (id group)) ExG.decidedNet with
      | .ok _ => none
      | .error e => some e) = some .runtime := by
  refine ⟨ExG.decided_solvable, by decide +kernel, by decide +kernel, ⟨fun _ => 0, ?_, by decide +kernel⟩, by decide +kernel⟩
  have : ∀ v ∈ ExG.decidedNet.g.nodes, (0 : Outcome) ∈ ExG.decidedNet.dom v := by decide +kernel
  exact this

namespace ExO

/-- the first player does not mind what the second does, but the second sees what the first does and cares -/
def edges : List (Node × Node) := [("D1", "D2"), ("D1", "U1"), ("D1", "U2"), ("D2", "U2")]

def u1 : Func := fun pv => .ok (.val (if pv "D1" = some 0 then 0 else 1))

def rels : List (Node × Rel) := [("D1", .seq [0, 1]), ("D2", .seq [0, 1]), ("U1", .func u1), ("U2", .func ExG.u2)]

/-- the players listed in one order -/
def m : Macid := ⟨⟨["D1", "D2", "U1", "U2"], edges⟩,
  [(0, ["D1"]), (1, ["D2"])], [(0, ["U1"]), (1, ["U2"])], [("D1", 0), ("D2", 1)], [("U1", 0), ("U2", 1)]⟩

def net : Net := ((Net.mk m [] [] [] Macid.new).addCpds rels).1

/-- and in the other -/
def m' : Macid := ⟨⟨["D1", "D2", "U1", "U2"], edges⟩,
  [(1, ["D2"]), (0, ["D1"])], [(1, ["U2"]), (0, ["U1"])], [("D2", 1), ("D1", 0)], [("U2", 1), ("U1", 0)]⟩

def net' : Net := ((Net.mk m' [] [] [] Macid.new).addCpds rels).1

theorem honest : ∀ p ∈ rels, Honest p.2 := by
  intro p hp
  simp only [rels, List.mem_cons, List.not_mem_nil, or_false] at hp
  rcases hp with rfl | rfl | rfl | rfl
  · trivial
  · trivial
  · intro pv; simp [u1]
  · intro pv; simp [ExG.u2]

theorem usable : net.Usable ∧ net.m = m :=
  usable_of_build (edges := edges) (ad := [(0, ["D1"]), (1, ["D2"])]) (au := [(0, ["U1"]), (1, ["U2"])]) (rels := rels)
    (by decide +kernel) (by rw [← show ((Net.mk m [] [] [] Macid.new).addCpds rels).2 = .ok () by decide +kernel]; rfl)
    honest (by decide +kernel)

theorem usable' : net'.Usable ∧ net'.m = m' :=
  usable_of_build (edges := edges) (ad := [(1, ["D2"]), (0, ["D1"])]) (au := [(1, ["U2"]), (0, ["U1"])]) (rels := rels)
    (by decide +kernel) (by rw [← show ((Net.mk m' [] [] [] Macid.new).addCpds rels).2 = .ok () by decide +kernel]; rfl)
    honest (by decide +kernel)

open Classical in
/-- a solver that knows the game of the first player, and otherwise asks the other one -/
noncomputable def finder : Efg → Solver → Py (List Behavior) := fun t s =>
  if t.players = [0] ∧ t.infosets = [⟨0, "D1", [0, 1]⟩] ∧ t.moves = [([], .decision 0)] ∧ t.payoffs = [([0], [0]), ([1], [1])]
  then .ok [ExG.answer] else ExG.finder t s

theorem finder_sound : SoundSolvers finder id := by
  intro t s bs h b hb b' hb'
  unfold finder at h
  split at h
  · rename_i hc
    obtain ⟨h0, h1, h2, h3⟩ := hc
    simp only [id, ite_self] at hb'
    subst hb'
    simp only [Except.ok.injEq] at h
    subst h
    rw [List.mem_singleton] at hb
    subst hb
    have val : ∀ (b : Behavior) (x y : Rat), b 0 = [x, y] → t.Value b 0 [] y := by
      intro b x y e0
      exact ExG.moveValue (mv := .decision 0) (c := x) (d := y) (r := 0) (s := 1) (by rw [h2]; rfl) e0 (ExG.leafValue (by rw [h2]; rfl) (by rw [h3]; rfl) rfl)
        (ExG.leafValue (by rw [h2]; rfl) (by rw [h3]; rfl) rfl) (by ring)
    refine ⟨fun i s hs => ?_, fun j agent hj b' hb' hsame r r' hr hr' => ?_⟩
    · rw [h1] at hs
      match i with
      | 0 => simp only [List.getElem?_cons_zero, Option.some.injEq] at hs; subst hs; decide +kernel
      | i + 1 => simp at hs
    · rw [h0] at hj
      match j with
      | 0 =>
        obtain ⟨x, y, e0, hx, hy, hxy⟩ := ExG.two hb' (i := 0) (by rw [h1]; rfl) rfl
        rw [hr.unique (val ExG.answer 0 1 rfl), hr'.unique (val b' x y e0)]
        linarith
      | j + 1 => simp at hj
  · exact ExG.finder_sound t s bs h b hb b' hb'

theorem finder_returns : NeverRaises finder := by
  intro t s
  unfold finder
  split
  · exact ⟨_, rfl⟩
  · exact ExG.finder_returns t s

theorem finder_finds : FindsPure finder := by
  intro t s bs hs h hx
  unfold finder at h
  split at h
  · simp only [Except.ok.injEq] at h
    subst h
    simp
  · exact ExG.finder_finds t s bs hs h hx

end ExO

/-- **C98** Whether `get_spe` returns can depend on the order in which the players are listed: two descriptions of one game with the same CPDs,
solvers that are sound, never raise and find pure equilibria; one description has its equilibrium found, for the other a RuntimeError is
raised, because the player whose action is observed is solved first. -/
theorem C98_order_counterexample : ExO.net.Usable ∧ ExO.net'.Usable ∧ ExO.net.g = ExO.net'.g ∧ (∀ v, ExO.net.m.role v = ExO.net'.m.role v) ∧
    (∀ v ∈ ExO.net.g.nodes, ExO.net.dom v = ExO.net'.dom v ∧ ∀ a, ExO.net.InDom a → ExO.net.kernel v a = ExO.net'.kernel v a) ∧
    SoundSolvers ExO.finder id ∧ NeverRaises ExO.finder ∧ FindsPure ExO.finder ∧
    (match getSpe (fun _ => 0) (fun _ => 0) ExG.sccs
      (fun n group => getNeInSg (fun _ => 0) (fun _ => 0) id id id ExO.finder id none n (id group)) ExO.net with
      | .ok spes => .ok (spes.map (fun p => p.map (fun c => (c.var, c.table))))
      | .error e => .error e) = Except.ok [[("D2", [[0, 1], [1, 0]]), ("D1", [[0, 1]])]] ∧
    (match getSpe (fun _ => 0) (fun _ => 0) ExG.sccs
      (fun n group => getNeInSg (fun _ => 0) (fun _ => 0) id id id ExO.finder id none n (id group)) ExO.net' with
      | .ok spes => .ok (spes.map (fun p => p.map (fun c => (c.var, c.table))))
      | .error e => .error e) = Except.error Err.runtime := by
  have hg : ExO.net.g = ExO.net'.g := by decide +kernel
  refine ⟨ExO.usable.1, ExO.usable'.1, hg, fun v => ?_, fun v hv => ⟨?_, fun a ha => ?_⟩, ExO.finder_sound, ExO.finder_returns, ExO.finder_finds,
    by decide +kernel, by decide +kernel⟩
  · rw [ExO.usable.2, ExO.usable'.2]
    unfold Macid.role ExO.m ExO.m'
    simp only [Dict.get?]
    by_cases h1 : "D1" = v
    · subst h1; rfl
    · by_cases h2 : "D2" = v
      · subst h2; rfl
      · by_cases h3 : "U1" = v
        · subst h3; rfl
        · by_cases h4 : "U2" = v
          · subst h4; rfl
          · simp [h1, h2, h3, h4]
  · have : ∀ v ∈ ExO.net.g.nodes, ExO.net.dom v = ExO.net'.dom v := by decide +kernel
    exact this v hv
  · rw [canon_eq ExO.usable.1.good hv a, canon_eq ExO.usable'.1.good (show v ∈ ExO.net'.g.nodes from hg ▸ hv) a, ← hg]
    have : ∀ v ∈ ExO.net.g.nodes, ∀ xs ∈ product (ExO.net.g.nodes.map ExO.net.dom),
        ExO.net.kernel v (fun w => (Dict.get? (ExO.net.g.nodes.zip xs) w).getD 0) =
          ExO.net'.kernel v (fun w => (Dict.get? (ExO.net.g.nodes.zip xs) w).getD 0) := by decide +kernel
    exact this v hv _ (canon_mem ha)

end Verif

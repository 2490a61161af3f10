import Verif.Props.Payoffs
import Verif.Props.Subgame

/-!
# Equilibria of subgames (C77)
-/

namespace Verif

open Graph Relation Macid Net

namespace Net

/-- a utility without children is relevant only for those who are paid by it and can influence it -/
theorem relevant_owner {m : Macid} (hc : m.Consistent) {d u : Node} {a b : Agent} (hd : m.role d = .decision a) (hu : m.role u = .utility b)
    (hleaf : ∀ w, ¬ m.g.Edge u w) (h : m.RReach d u) : b = a ∧ m.g.Desc d u := by
  have hun : u ∈ m.g.nodes := hc.nodes u (Or.inr (by
    rw [Macid.utilities, Dict.mem_keys]
    exact ⟨b, (role_utility hc).1 hu⟩))
  obtain ⟨a', u', h1, h2, h3, huZ, r, ⟨p1, p2, p3, p4⟩, hact, hnil, hcons⟩ := (rreach_iff hc.wf hun).1 h
  rw [hd] at h1
  cases h1
  cases r with
  | nil =>
    simp at p2
    subst p2
    rw [hu] at h2
    cases h2
    exact ⟨rfl, h3⟩
  | cons c r =>
    exfalso
    rw [List.isChain_cons_cons] at p3
    rcases p3.1 with huc | hcu
    · exact hleaf c huc
    · obtain ⟨z, hz, hd'⟩ := (hcons c r rfl).1 hcu
      have : z = u := by
        rcases Relation.ReflTransGen.cases_head hd' with e | ⟨w, hw, _⟩
        · exact e.symm
        · exact absurd hw (hleaf w)
      subst this
      rcases List.mem_cons.1 hz with rfl | hz
      · rw [hu] at hd; cases hd
      · exact hleaf d (Graph.mem_parents.1 hz)

/-- a utility that a decision can influence is relevant for it -/
theorem relevant_desc {m : Macid} (hc : m.Consistent) {d u : Node} {a : Agent} (hd : m.role d = .decision a) (hu : m.role u = .utility a)
    (h : m.g.Desc d u) : m.RReach d u := by
  have hun : u ∈ m.g.nodes := by
    obtain ⟨c, _, h⟩ := TransGen.tail'_iff.1 h
    exact (hc.wf.edgeNodes c u h).2
  refine (rreach_iff hc.wf hun).2 ⟨a, u, hd, hu, h, into_of_desc hc.wf .refl ?_⟩
  intro z hz hcz
  rcases mem_family.1 hz with rfl | hz
  · exact hc.wf.acyclic z (TransGen.trans_left h hcz)
  · exact hc.wf.acyclic d (TransGen.trans h (TransGen.tail' hcz hz))

theorem subgame_usable {net : Net} (hU : net.Usable) (hnames : NamesOk net.g) (pick : Pick) {setOrd : List Node → List Node}
    (hset : ∀ l, (setOrd l).Perm l) {active : List Node} (hnd : active.Nodup) (ha : ∀ d ∈ active, d ∈ net.m.decisions)
    (hm : ∀ v ∈ net.g.nodes, ¬ net.m.InGame active v → (∃ w, net.g.Edge v w ∧ net.m.InGame active w) →
      net.Own v ∧ (net.dom v).Pairwise (· ≤ ·))
    (hu : ∀ d ∈ active, ∃ a u, net.m.role d = .decision a ∧ net.m.role u = .utility a ∧ net.g.Desc d u)
    (hleaf : ∀ u a, net.m.role u = .utility a → ∀ w, ¬ net.g.Edge u w) :
    ∃ sg, createSubgame pick setOrd net active = .ok sg ∧ sg.Usable ∧ net.m.IsSubgame active sg.m ∧ SubgameProbs net active sg ∧
      ∀ v ∈ sg.g.nodes, net.Own v → sg.Own v := by
  obtain ⟨sg, h1, h2, h3, h4, h5, h6, h7, h8, h9, h10⟩ := createSubgame_spec hU hnames pick hset hnd ha hm
  have hnodes := (C63_members hU hnames hset hnd ha h1).2
  refine ⟨sg, h1, ⟨h4, h5, h9 (fun d hd => ?_), Or.inl h6, ⟨?_, ?_⟩⟩, h2, h3, h10⟩
  · obtain ⟨a, u, q1, q2, q3⟩ := hu d hd
    exact hnodes d hd a u q1 q2 q3
  · intro a
    rw [h7, h8]
    constructor
    · rintro ⟨u, ⟨d, hd, hr⟩, hua⟩
      obtain ⟨a', _, q1, _⟩ := hu d hd
      have := (relevant_owner hU.roles q1 hua (hleaf u a hua) hr).1
      exact ⟨d, hd, this ▸ q1⟩
    · rintro ⟨d, hd, hr⟩
      obtain ⟨a', u, q1, q2, q3⟩ := hu d hd
      rw [hr] at q1
      cases q1
      exact ⟨u, ⟨d, hd, relevant_desc hU.roles hr q2 q3⟩, q2⟩
  · intro a hau
    rw [h8] at hau
    obtain ⟨u, hrel, hua⟩ := hau
    obtain ⟨d, hd, hr⟩ := hrel
    obtain ⟨a', _, q1, _⟩ := hu d hd
    have := (relevant_owner hU.roles q1 hua (hleaf u a hua) hr).1
    subst this
    exact Or.inl ⟨⟨d, (h2.decision d _).2 ⟨hd, q1⟩⟩, u, (h2.utility u _).2 ⟨⟨d, hd, hr⟩, hua⟩⟩

end Net

/-- where a game tree has been built, nothing in it is impossible -/
theorem Net.tree_positive {net : Net} (hU : net.Usable) {decs : List Node} {agents : List Agent} {nodes : List Node} {t : Efg}
    (ht : IsTree net decs agents nodes t) (hm : ∀ v ∈ nodes, v ∈ net.g.nodes) :
    (∀ u v, net.g.Edge u v → v ∈ nodes → u ∈ nodes) ∧ ∀ v ∈ nodes, ∀ a, net.InDom a → net.kernel v a ≠ 0 := by
  have hcl : ∀ u v, net.g.Edge u v → v ∈ nodes → u ∈ nodes := by
    intro u v he hv
    obtain ⟨vs, post, e⟩ := List.append_of_mem hv
    rw [e]
    exact List.mem_append_left _ (ht.closed vs v post e u he)
  refine ⟨hcl, fun v hv a ha h0 => ?_⟩
  obtain ⟨idx, hidx⟩ := At.exists (vs := nodes) (fun v hv => ha v (hm v hv))
  refine ht.possible a idx hidx ?_
  unfold P
  refine (sumOver_congr (h := fun _ => 0) ?_).trans (sumOver_zero _ _)
  intro b _ _
  split
  · rename_i hc
    have hab : ∀ u ∈ nodes, b u = a u := by
      intro u hu
      simp only [Ctx, Given, List.all_eq_true, List.mem_map, forall_exists_index, and_imp, decide_eq_true_eq] at hc
      exact hc _ u hu rfl
    rw [List.prod_eq_zero_iff, List.mem_map]
    refine ⟨v, hm v hv, ?_⟩
    rw [kernel_depends hU.good (hm v hv) b a, h0]
    rintro u (rfl | hu)
    · exact hab u hv
    · exact hab u (hcl u v hu hv)
  · rfl

/-- what is found in a subgame: rules that fit, and that no agent gains by changing -/
theorem Net.ne_in_sg {net : Net} (hU : net.Usable) (hnames : NamesOk net.g) {pick : Pick} {tpick : List Node → Nat}
    {ord setOrd : List Node → List Node} (hord : ∀ l, (ord l).Perm l) (hset : ∀ l, (setOrd l).Perm l) {agentOrd : List Agent → List Agent}
    (hao : ∀ l, (agentOrd l).Perm l) {run : Efg → Solver → Py (List Behavior)} {conv : Behavior → Behavior} (hrun : SoundSolvers run conv)
    {override : Option String} {decs : List Node} (hnd : decs.Nodup) (ha : ∀ d ∈ decs, d ∈ net.m.decisions)
    (hm : ∀ v ∈ net.g.nodes, ¬ net.m.InGame decs v → (∃ w, net.g.Edge v w ∧ net.m.InGame decs w) →
      net.Own v ∧ (net.dom v).Pairwise (· ≤ ·))
    (hu : ∀ d ∈ decs, ∃ a u, net.m.role d = .decision a ∧ net.m.role u = .utility a ∧ net.g.Desc d u)
    (hleaf : ∀ u a, net.m.role u = .utility a → ∀ w, ¬ net.g.Edge u w)
    (hj : ∀ sg, createSubgame pick setOrd net decs = .ok sg → Joined sg.g ∧ sg.Distinct decs)
    {found : List (List Cpd)} (h : getNeInSg pick tpick ord setOrd agentOrd run conv override net decs = .ok found) :
    ∃ sg, createSubgame pick setOrd net decs = .ok sg ∧ sg.Usable ∧ net.m.IsSubgame decs sg.m ∧ SubgameProbs net decs sg ∧
      (∀ d ∈ decs, d ∈ sg.g.nodes) ∧ ∀ q ∈ found, q.map (·.var) = decs ∧ PolicyOk sg q ∧ 
      (∃ U : List Node, U.Nodup ∧ (∀ v ∈ U, v ∈ sg.g.nodes) ∧ (∀ u v, sg.g.Edge u v → v ∈ U → u ∈ U) ∧
        (∀ d ∈ decs, ∀ u, sg.g.Edge u d → u ∈ U) ∧ ∀ v ∈ U, ∀ a, sg.InDom a → sg.kernel v a ≠ 0) ∧
      ∃ sg', sg.addPolicy q = (sg', .ok ()) ∧ sg'.Usable ∧ OnlyRules sg decs sg' ∧
        ∀ agents, (∀ a, a ∈ agents → ∃ d ∈ decs, net.m.role d = .decision a) → NoGain sg' decs agents := by
  obtain ⟨sg, h1, hUs, hsub, hprobs, _⟩ := subgame_usable hU hnames pick hset hnd ha hm hu hleaf
  obtain ⟨hjoin, hdist⟩ := hj sg h1
  have hdsg : ∀ d ∈ decs, d ∈ sg.g.nodes := fun d hd => by
    obtain ⟨a, u, q1, q2, q3⟩ := hu d hd
    exact (C63_members hU hnames hset hnd ha h1).2 d hd a u q1 q2 q3
  refine ⟨sg, h1, hUs, hsub, hprobs, hdsg, ?_⟩
  intro q hq
  refine ⟨getNeInSg_vars h q hq, ?_⟩
  unfold getNeInSg at h
  split at h
  · simp at h
  rename_i owners howners
  dsimp only at h
  rw [h1] at h
  simp only at h
  split at h
  · simp at h
  rename_i sg1 t ht
  split at h
  · simp at h
  rename_i bs hbs
  obtain ⟨rfl, nodes, n1, n2, n3, htree, hl⟩ := C66_game_tree hUs hjoin hord ht
  rw [mapPy_ok_iff] at h
  obtain ⟨b, hb, hq'⟩ := forall₂_mem_right h hq
  have hsound : IsBehavior t b ∧ IsNash t b := by
    unfold neSolver at hbs
    dsimp only at hbs
    split at hbs
    · simp at hbs
    rename_i s hs
    split at hbs
    · simp at hbs
    rename_i found' hf
    split at hbs
    · simp at hbs
    rename_i l hl'
    simp only [Except.ok.injEq] at hbs
    subst hbs
    obtain ⟨x, hx, rfl⟩ := List.mem_map.1 hb
    by_cases hc : s = .enumpure ∧ found'.length = 0 ∧ override = none
    · rw [if_pos hc] at hl'
      exact hrun t .simpdiv l hl' x hx _ (by simp [hc.1])
    · rw [if_neg hc] at hl'
      simp only [Except.ok.injEq] at hl'
      subst hl'
      exact hrun t s _ hf x hx _ rfl
  have hdecn : ∀ d ∈ decs, d ∈ nodes := fun d hd => (n2 d).2 (Or.inl hd)
  have hm' : ∀ v ∈ nodes, v ∈ sg1.g.nodes := by
    intro v hv
    rcases (n2 v).1 hv with hd | ⟨d, hd, he⟩
    · exact hdsg v hd
    · exact (hUs.good.wf.edgeNodes v d he).1
  obtain ⟨cs, sg', c1, c2, c3, c4, c5, _⟩ := C76_behavior_to_cpd hUs htree hl hdist hnd n1 hm' hdecn hsound.1
  rw [hq'] at c1
  cases c1
  have hpol : PolicyOk sg1 q := by
    obtain ⟨cs', d1, _, d3, _⟩ := behavior_rules hUs htree hl hdist hnd hm' hdecn hsound.1
    rw [hq'] at d1
    cases d1
    exact d3
  obtain ⟨t1, t2⟩ := tree_positive hUs htree hm'
  refine ⟨hpol, ⟨nodes, n1, hm', t1, fun d hd u hud => t1 u d hud (hdecn d hd), t2⟩, sg', c2, c3, c4, fun agents hag => ?_⟩
  have := (C76_equilibria hUs c3 htree hl hdist hnd n1 hm' hdecn c4 hsound.1 c5).1 hsound.2
  intro a haa
  refine this a ?_
  obtain ⟨d, hd, hr⟩ := hag a haa
  rw [(hao _).mem_iff, List.mem_dedup]
  rw [mapPy_ok_iff] at howners
  obtain ⟨o, ho, e⟩ := forall₂_mem_left howners hd
  rw [Dict.get_ok, role_decision.1 hr] at e
  cases e
  exact ho

/-- **C77** Every profile that `get_ne_in_sg` returns gives a rule for each of the decisions and is a Nash equilibrium of the subgame: with
the rules put in, no owner of a decision can gain by using other rules for their own decisions. -/
theorem C77_get_ne_in_sg {net : Net} (hU : net.Usable) (hnames : NamesOk net.g) {pick : Pick} {tpick : List Node → Nat}
    {ord setOrd : List Node → List Node} (hord : ∀ l, (ord l).Perm l) (hset : ∀ l, (setOrd l).Perm l) {agentOrd : List Agent → List Agent}
    (hao : ∀ l, (agentOrd l).Perm l) {run : Efg → Solver → Py (List Behavior)} {conv : Behavior → Behavior} (hrun : SoundSolvers run conv)
    {override : Option String} {decs : List Node} (hnd : decs.Nodup) (ha : ∀ d ∈ decs, d ∈ net.m.decisions)
    (hm : ∀ v ∈ net.g.nodes, ¬ net.m.InGame decs v → (∃ w, net.g.Edge v w ∧ net.m.InGame decs w) →
      net.Own v ∧ (net.dom v).Pairwise (· ≤ ·))
    (hu : ∀ d ∈ decs, ∃ a u, net.m.role d = .decision a ∧ net.m.role u = .utility a ∧ net.g.Desc d u)
    (hleaf : ∀ u a, net.m.role u = .utility a → ∀ w, ¬ net.g.Edge u w)
    (hj : ∀ sg, createSubgame pick setOrd net decs = .ok sg → Joined sg.g ∧ sg.Distinct decs)
    {found : List (List Cpd)} (h : getNeInSg pick tpick ord setOrd agentOrd run conv override net decs = .ok found) :
    ∃ sg, createSubgame pick setOrd net decs = .ok sg ∧ sg.Usable ∧ ∀ q ∈ found, q.map (·.var) = decs ∧ 
      ∃ sg', sg.addPolicy q = (sg', .ok ()) ∧ sg'.Usable ∧ OnlyRules sg decs sg' ∧
        ∀ agents, (∀ a, a ∈ agents → ∃ d ∈ decs, net.m.role d = .decision a) → NoGain sg' decs agents := by
  obtain ⟨sg, h1, h2, _, _, _, h3⟩ := ne_in_sg hU hnames hord hset hao hrun hnd ha hm hu hleaf hj h
  exact ⟨sg, h1, h2, fun q hq => ⟨(h3 q hq).1, (h3 q hq).2.2.2⟩⟩

namespace ExG

/-- a solver that knows one game -/
def solver : Efg → Solver → Py (List Behavior) := fun t _ =>
  if t.players = [0, 1] ∧ t.infosets = [⟨0, "D1", [0, 1]⟩, ⟨1, "D2", [0, 1]⟩, ⟨1, "D2", [0, 1]⟩] ∧
    t.moves = [([], .decision 0), ([0], .decision 1), ([1], .decision 2)] ∧
    t.payoffs = [([0, 0], [1, 0]), ([0, 1], [0, 2]), ([1, 0], [0, 2]), ([1, 1], [1, 0])]
  then .ok [opposite] else .ok []

theorem sound : SoundSolvers solver id := by
  intro t s bs h b hb b' hb'
  simp only [id, ite_self] at hb'
  subst hb'
  unfold solver at h
  split at h
  · rename_i hc
    simp only [Except.ok.injEq] at h
    subst h
    rw [List.mem_singleton] at hb
    subst hb
    exact nash hc.1 hc.2.1 hc.2.2.1 hc.2.2.2
  · simp only [Except.ok.injEq] at h
    subst h
    simp at hb

end ExG

/-- The hypotheses are met: the second player observes the first, both decisions are solved together. -/
theorem C77_example : ExG.net.Usable ∧ NamesOk ExG.net.g ∧ SoundSolvers ExG.solver id ∧ (∀ d ∈ ["D1", "D2"], d ∈ ExG.net.m.decisions) ∧
    (∀ v ∈ ExG.net.g.nodes, ExG.net.Own v ∧ (ExG.net.dom v).Pairwise (· ≤ ·)) ∧
    (∀ d ∈ ["D1", "D2"], ∃ a u, ExG.net.m.role d = .decision a ∧ ExG.net.m.role u = .utility a ∧ ExG.net.g.Desc d u) ∧
    (∀ u a, ExG.net.m.role u = .utility a → ∀ w, ¬ ExG.net.g.Edge u w) ∧
    (∀ sg, createSubgame (fun _ => 0) id ExG.net ["D1", "D2"] = .ok sg → Joined sg.g ∧ sg.Distinct ["D1", "D2"]) ∧
    (match getNeInSg (fun _ => 0) (fun _ => 0) id id id ExG.solver id none ExG.net ["D1", "D2"] with
      | .ok found => found.map (fun q => q.map (fun c => (c.var, c.table)))
      | .error _ => []) = [[("D1", [[1 / 2, 1 / 2]]), ("D2", [[0, 1], [1, 0]])]] := by
  have hU := ExG.usable.1
  have hO : ∀ v ∈ ExG.net.g.nodes, ExG.net.Own v ∧ (ExG.net.dom v).Pairwise (· ≤ ·) := by
    have h : ∀ v ∈ ExG.net.g.nodes, ((ExG.net.cpds.get? v).all (fun c => decide (c.kind ≠ .tabular))) = true ∧
      (ExG.net.dom v).Pairwise (· ≤ ·) := by decide +kernel
    exact fun v hv => ⟨ExS.own_of (h v hv).1, (h v hv).2⟩
  have hd : ∀ d ∈ ["D1", "D2"], ∃ a u, ExG.net.m.role d = .decision a ∧ ExG.net.m.role u = .utility a ∧ ExG.net.g.Desc d u := by
    intro d hd
    simp only [List.mem_cons, List.not_mem_nil, or_false] at hd
    rcases hd with rfl | rfl
    · exact ⟨0, "U1", by decide +kernel, by decide +kernel, TransGen.single (by show ("D1", "U1") ∈ _; decide +kernel)⟩
    · exact ⟨1, "U2", by decide +kernel, by decide +kernel, TransGen.single (by show ("D2", "U2") ∈ _; decide +kernel)⟩
  have hdec : ∀ d ∈ ["D1", "D2"], d ∈ ExG.net.m.decisions := by decide +kernel
  have hleaf : ∀ u a, ExG.net.m.role u = .utility a → ∀ w, ¬ ExG.net.g.Edge u w := by
    have h : ∀ e ∈ ExG.net.g.edges, ExG.net.m.role e.1 = .decision 0 ∨ ExG.net.m.role e.1 = .decision 1 := by decide +kernel
    intro u a hu w he
    rcases h (u, w) he with h | h <;> (simp only at h; rw [hu] at h; cases h)
  refine ⟨hU, ExG.names, ExG.sound, hdec, hO, hd, hleaf, ?_, by decide +kernel⟩
  intro sg hsg
  obtain ⟨sg', e1, e2, _⟩ := subgame_usable hU ExG.names (fun _ => 0) (setOrd := id) (fun l => .refl l) (by decide) hdec
    (fun v hv _ _ => hO v hv) hd hleaf
  rw [hsg] at e1
  cases e1
  have h : (match createSubgame (fun _ => 0) id ExG.net ["D1", "D2"] with
      | .ok sg => sg.g.nodes.all (fun u => sg.g.nodes.all (fun v => decide (v ∈ component sg.g u))) &&
        ["D1", "D2"].all (fun d => ["D1", "D2"].all (fun d' => decide (sg.m.decisionAgent.get? d = sg.m.decisionAgent.get? d' →
          sg.g.parents d = sg.g.parents d' → d = d')))
      | .error _ => false) = true := by decide +kernel
  rw [hsg] at h
  simp only [Bool.and_eq_true, List.all_eq_true, decide_eq_true_eq] at h
  exact ⟨joined_of e2.good h.1, fun d hd d' hd' => h.2 d hd d' hd'⟩

end Verif

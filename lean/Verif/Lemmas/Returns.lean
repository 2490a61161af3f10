import Verif.Spec.Returns
import Verif.Lemmas.Support
import Verif.Props.Spe

/-!
# What the search in a subgame needs
-/

namespace Verif

open Graph Relation Macid

namespace Net

/-- when the nodes of a tree depend only on each other and exclude nothing, everything in the tree is possible -/
theorem tree_possible {net : Net} (hU : net.Usable) {decs : List Node} (hdn : ∀ d ∈ decs, d ∈ net.g.nodes)
    (hcl : ∀ v, net.InTree decs v → ∀ p, net.g.Edge p v → net.InTree decs p)
    (hpos : ∀ v, net.InTree decs v → ∀ a, net.InDom a → net.kernel v a ≠ 0) :
    ∀ nodes : List Node, (∀ v ∈ nodes, net.InTree decs v) → ∀ a : Assign, (∀ v ∈ nodes, a v ∈ net.dom v) →
      net.P (Ctx (Given nodes a)) ≠ 0 := by
  intro nodes hn a ha h0
  have hG := hU.good
  have hB := bn_prob hU.good hU.normalised
  let U : List Node := (decs ++ decs.flatMap net.g.parents).dedup
  have hU' : ∀ v, v ∈ U ↔ net.InTree decs v := by
    intro v
    simp only [U, List.mem_dedup, List.mem_append, List.mem_flatMap, Graph.mem_parents]
    rfl
  have htn : ∀ v, net.InTree decs v → v ∈ net.g.nodes := by
    rintro v (h | ⟨d, _, h⟩)
    · exact hdn v h
    · exact (hG.wf.edgeNodes v d h).1
  obtain ⟨b, hb1, hb2⟩ := exists_inDom hG a (fun v => v ∈ nodes) (fun u hu _ => ha u hu)
  have hf : DependsOn (fun c => if Ctx (Given nodes a) c then (1 : Rat) else 0) (· ∈ U) := by
    intro c c' hc
    have := ctx_depends (Given nodes a) c c' (fun w hw => hc w (by
      simp only [Given, List.map_map, List.mem_map, Function.comp_apply, exists_eq_right] at hw
      exact (hU' w).2 (hn w hw)))
    simp only [this]
  rw [P_eq_W, BN.W_ancestral hB (U := U) (List.nodup_dedup _) (fun v hv => htn v ((hU' v).1 hv))
    (fun p v he hv => (hU' p).2 (hcl v ((hU' v).1 hv) p he)) hf b] at h0
  have hk : ∀ c, net.InDom c → ∀ v ∈ U, 0 < net.bn.k v c := fun c hc v hv =>
    lt_of_le_of_ne (hB.k_nonneg (htn v ((hU' v).1 hv)) hc) (Ne.symm (hpos v ((hU' v).1 hv) c hc))
  have := sumOver_eq_zero (fun c hc1 hc2 => by
    refine mul_nonneg (BN.prod_nonneg hB (fun v hv => htn v ((hU' v).1 hv)) (fun w hw => ?_)) (by split <;> norm_num)
    by_cases q : w ∈ U
    · exact hc1 w q
    · rw [hc2 w q]; exact hb1 w hw) h0 b (fun v hv => hb1 v (htn v ((hU' v).1 hv))) (fun _ _ => rfl)
  rw [if_pos (by
    simp only [Ctx, Given, List.all_eq_true, List.mem_map, forall_exists_index, and_imp, decide_eq_true_eq]
    rintro _ u hu rfl
    exact hb2 u hu), mul_one] at this
  exact absurd this (ne_of_gt (BN.prod_pos (hk b hb1)))

theorem start_depends {net : Net} (hG : Good net) (decs : List Node) {v : Node} (hv : v ∈ net.g.nodes) :
    DependsOn (net.start decs v) (fun u => u = v ∨ net.g.Edge u v) := by
  intro a b hab
  unfold start
  split
  · rfl
  · exact kernel_depends hG hv a b hab

theorem start_nonneg {net : Net} (hN : net.Normalised) (decs : List Node) {v : Node} (hv : v ∈ net.g.nodes) {a : Assign} (ha : net.InDom a) :
    0 ≤ net.start decs v a := by
  unfold start
  split
  · positivity
  · exact (hN v hv a ha).1

/-- an average is positive when one of the values is -/
theorem average_pos {net : Net} (hU : net.Usable) (decs : List Node) {v : Node} (hv : v ∈ net.g.nodes) {a : Assign} (ha : net.InDom a) :
    net.average v (net.start decs v) a ≠ 0 ↔ ∃ b, net.InDom b ∧ b v = a v ∧ net.start decs v b ≠ 0 := by
  have hG := hU.good
  have hvp : v ∉ net.g.parents v := fun h => hG.wf.acyclic v (.single (Graph.mem_parents.1 h))
  have hin : ∀ b : Assign, (∀ p ∈ net.g.parents v, b p ∈ net.dom p) → (∀ p, p ∉ net.g.parents v → b p = a p) → net.InDom b := by
    intro b h1 h2 w hw
    by_cases q : w ∈ net.g.parents v
    · exact h1 w q
    · rw [h2 w q]; exact ha w hw
  have hden : sumOver net.dom (net.g.parents v) (fun _ => (1 : Rat)) a ≠ 0 := fun h0 => by
    have := sumOver_eq_zero (fun _ _ _ => by norm_num) h0 a
      (fun p hp => ha p (hG.wf.edgeNodes p v (Graph.mem_parents.1 hp)).1) (fun _ _ => rfl)
    norm_num at this
  unfold average
  rw [Ne, div_eq_zero_iff, not_or, and_iff_left hden]
  constructor
  · intro h
    by_contra hc
    push Not at hc
    refine h ((sumOver_congr (h := fun _ => 0) ?_).trans (sumOver_zero _ _))
    intro b hb1 hb2
    exact hc b (hin b hb1 hb2) (hb2 v hvp)
  · rintro ⟨b, hb1, hb2, hb3⟩ h0
    let c : Assign := fun w => if w ∈ net.g.parents v then b w else a w
    have := sumOver_eq_zero (fun e he1 he2 => start_nonneg hU.normalised decs hv (hin e he1 he2)) h0 c
      (fun p hp => by simp only [c, hp, if_true]; exact hb1 p (hG.wf.edgeNodes p v (Graph.mem_parents.1 hp)).1)
      (fun p hp => by simp only [c, hp, if_false])
    refine hb3 ?_
    rw [← this]
    apply start_depends hG decs hv
    rintro u (rfl | hu)
    · simp only [c, hvp, if_false]; exact hb2
    · simp only [c, Graph.mem_parents.2 hu, if_true]

theorem inTree_sub {net sg : Net} {decs : List Node} (hs : net.m.IsSubgame decs sg.m) (v : Node) : sg.InTree decs v ↔ net.InTree decs v := by
  unfold InTree
  refine or_congr_right (exists_congr fun d => and_congr_right fun hd => ?_)
  have : sg.g.Edge v d ↔ _ := hs.edges v d
  rw [this]
  exact and_iff_left (Or.inl hd)

/-- what is needed of the network, and what is needed of the subgame -/
theorem searchable_iff {net sg : Net} (hU : net.Usable) (hsU : sg.Usable) {decs : List Node} (hs : net.m.IsSubgame decs sg.m)
    (hp : SubgameProbs net decs sg) (hdn : ∀ d ∈ decs, d ∈ sg.g.nodes) :
    net.Searchable decs ↔ (∀ v, sg.InTree decs v → ∀ p, sg.g.Edge p v → sg.InTree decs p) ∧
      ∀ v, sg.InTree decs v → ∀ a, sg.InDom a → sg.kernel v a ≠ 0 := by
  have hG := hU.good
  have he : ∀ u v, sg.g.Edge u v ↔ net.g.Edge u v ∧ net.m.InGame decs v := hs.edges
  have hnode : ∀ v, net.InTree decs v → v ∈ sg.g.nodes := by
    rintro v (h | ⟨d, hd, h⟩)
    · exact hdn v h
    · exact (hsU.good.wf.edgeNodes v d ((he v d).2 ⟨h, Or.inl hd⟩)).1
  have hker : ∀ v ∈ sg.g.nodes, (∀ a, sg.InDom a → sg.kernel v a ≠ 0) ↔ ∀ a, net.InDom a → sg.kernel v a ≠ 0 := by
    intro v hv
    refine ⟨fun h a ha => h a (sub_inDom hG.wf hs hp.domain ha), fun h a ha => ?_⟩
    obtain ⟨b, hb1, hb2⟩ := exists_inDom hG a (fun w => w ∈ sg.g.nodes) (fun w hw _ => by rw [← hp.domain w hw]; exact ha w hw)
    rw [kernel_depends hsU.good hv a b (by
      rintro u (rfl | hu)
      · exact (hb2 _ hv).symm
      · exact (hb2 u (hsU.good.wf.edgeNodes u v hu).1).symm)]
    exact h b hb1
  constructor
  · rintro ⟨h1, h2, h3⟩
    refine ⟨fun v hv p hpv => ?_, fun v hv => ?_⟩
    · rw [inTree_sub hs] at hv ⊢
      obtain ⟨q1, q2⟩ := (he p v).1 hpv
      exact h1 v hv q2 p q1
    · rw [inTree_sub hs] at hv
      have hvs := hnode v hv
      rw [hker v hvs]
      intro a ha
      by_cases hin : net.m.InGame decs v
      · rw [hp.kept v hvs hin a ha]
        exact h2 v hv hin a ha
      · rw [hp.averaged v hvs hin a ha, average_pos hU decs (sub_nodes hG.wf hs hvs) ha]
        exact h3 v hv hin (a v) (ha v (sub_nodes hG.wf hs hvs))
  · rintro ⟨h1, h2⟩
    refine ⟨fun v hv hin p hpv => ?_, fun v hv hin a ha => ?_, fun v hv hin x hx => ?_⟩
    · rw [← inTree_sub hs] at hv ⊢
      exact h1 v hv p ((he p v).2 ⟨hpv, hin⟩)
    · have hvs := hnode v hv
      rw [← hp.kept v hvs hin a ha]
      exact h2 v ((inTree_sub hs v).2 hv) a (sub_inDom hG.wf hs hp.domain ha)
    · have hvs := hnode v hv
      obtain ⟨a, ha1, ha2⟩ := exists_inDom hG (fun _ => x) (fun w => w = v) (fun u hu _ => by rw [hu]; exact hx)
      have := h2 v ((inTree_sub hs v).2 hv) a (sub_inDom hG.wf hs hp.domain ha1)
      rw [hp.averaged v hvs hin a ha1, average_pos hU decs (sub_nodes hG.wf hs hvs) ha1, ha2 v rfl] at this
      exact this

theorem neSolver_ok {run : Efg → Solver → Py (List Behavior)} (hrun : NeverRaises run) (conv : Behavior → Behavior) {override : Option String}
    (hov : Known override) (t : Efg) (n : Nat) : ∃ bs, neSolver (run t) conv n override = .ok bs := by
  have hs : ∃ s, Solver.ofName (chooseSolver (decide (n = 2)) override) = some s := by
    cases override with
    | none => by_cases q : n = 2 <;> simp [chooseSolver, q, Solver.ofName]
    | some name =>
      have := hov name rfl
      simp only [List.mem_cons, List.not_mem_nil, or_false] at this
      rcases this with rfl | rfl | rfl | rfl | rfl | rfl | rfl <;> by_cases q : n = 2 <;> simp [chooseSolver, q, Solver.ofName]
  obtain ⟨s, hs⟩ := hs
  obtain ⟨l, hl⟩ := hrun t s
  obtain ⟨l', hl'⟩ := hrun t .simpdiv
  unfold neSolver
  simp only [hs, hl, hl']
  by_cases q : s = .enumpure ∧ l.length = 0 ∧ override = none
  · rw [if_pos q]; exact ⟨_, rfl⟩
  · rw [if_neg q]; exact ⟨_, rfl⟩

theorem neSolver_sound {run : Efg → Solver → Py (List Behavior)} {conv : Behavior → Behavior} (hrun : SoundSolvers run conv)
    {override : Option String} {t : Efg} {n : Nat} {bs : List Behavior} (hbs : neSolver (run t) conv n override = .ok bs) :
    ∀ b ∈ bs, IsBehavior t b ∧ IsNash t b := by
  intro b hb
  unfold neSolver at hbs
  dsimp only at hbs
  split at hbs
  · simp at hbs
  rename_i s hs
  split at hbs
  · simp at hbs
  rename_i found' hf
  split at hbs
  · simp at hbs
  rename_i l hl'
  simp only [Except.ok.injEq] at hbs
  subst hbs
  obtain ⟨x, hx, rfl⟩ := List.mem_map.1 hb
  by_cases hc : s = .enumpure ∧ found'.length = 0 ∧ override = none
  · rw [if_pos hc] at hl'
    exact hrun t .simpdiv l hl' x hx _ (by simp [hc.1])
  · rw [if_neg hc] at hl'
    simp only [Except.ok.injEq] at hl'
    subst hl'
    exact hrun t s _ hf x hx _ rfl

/-- the search returns only if nothing excludes anything -/
theorem search_needs {net : Net} (hU : net.Usable) (hnames : NamesOk net.g) {pick : Pick} {tpick : List Node → Nat}
    {ord setOrd : List Node → List Node} (hord : ∀ l, (ord l).Perm l) (hset : ∀ l, (setOrd l).Perm l) {agentOrd : List Agent → List Agent}
    {run : Efg → Solver → Py (List Behavior)} {conv : Behavior → Behavior}
    {override : Option String} {decs : List Node} (hnd : decs.Nodup) (ha : ∀ d ∈ decs, d ∈ net.m.decisions)
    (hm : ∀ v ∈ net.g.nodes, ¬ net.m.InGame decs v → (∃ w, net.g.Edge v w ∧ net.m.InGame decs w) →
      net.Own v ∧ (net.dom v).Pairwise (· ≤ ·))
    (hu : ∀ d ∈ decs, ∃ a u, net.m.role d = .decision a ∧ net.m.role u = .utility a ∧ net.g.Desc d u)
    (hleaf : ∀ u a, net.m.role u = .utility a → ∀ w, ¬ net.g.Edge u w)
    (hj : ∀ sg, createSubgame pick setOrd net decs = .ok sg → Joined sg.g)
    {found : List (List Cpd)} (h : getNeInSg pick tpick ord setOrd agentOrd run conv override net decs = .ok found) : net.Searchable decs := by
  obtain ⟨sg, h1, hUs, hsub, hprobs, _⟩ := subgame_usable hU hnames pick hset hnd ha hm hu hleaf
  have hjoin := hj sg h1
  have hdsg : ∀ d ∈ decs, d ∈ sg.g.nodes := fun d hd => by
    obtain ⟨a, u, q1, q2, q3⟩ := hu d hd
    exact (C63_members hU hnames hset hnd ha h1).2 d hd a u q1 q2 q3
  unfold getNeInSg at h
  split at h
  · simp at h
  dsimp only at h
  rw [h1] at h
  simp only at h
  split at h
  · simp at h
  rename_i sg1 t ht
  obtain ⟨rfl, nodes, n1, n2, n3, htree, hl⟩ := C66_game_tree hUs hjoin hord ht
  have hm' : ∀ v ∈ nodes, v ∈ sg1.g.nodes := by
    intro v hv
    rcases (n2 v).1 hv with hd | ⟨d, hd, he⟩
    · exact hdsg v hd
    · exact (hUs.good.wf.edgeNodes v d he).1
  obtain ⟨t1, t2⟩ := tree_positive hUs htree hm'
  refine (searchable_iff hU hUs hsub hprobs hdsg).2 ⟨fun v hv p hp => ?_, fun v hv => t2 v ((n2 v).2 hv)⟩
  exact (n2 p).1 (t1 p v hp ((n2 v).2 hv))

/-- the search returns if nothing excludes anything -/
theorem search_returns {net : Net} (hU : net.Usable) (hnames : NamesOk net.g) {pick : Pick} {tpick : List Node → Nat}
    {ord setOrd : List Node → List Node} (hord : ∀ l, (ord l).Perm l) (hset : ∀ l, (setOrd l).Perm l) {agentOrd : List Agent → List Agent}
    (hao : ∀ l, (agentOrd l).Perm l) {run : Efg → Solver → Py (List Behavior)} {conv : Behavior → Behavior} (hrun : SoundSolvers run conv)
    (hnr : NeverRaises run) {override : Option String} (hov : Known override) {decs : List Node} (hnd : decs.Nodup)
    (ha : ∀ d ∈ decs, d ∈ net.m.decisions)
    (hm : ∀ v ∈ net.g.nodes, ¬ net.m.InGame decs v → (∃ w, net.g.Edge v w ∧ net.m.InGame decs w) →
      net.Own v ∧ (net.dom v).Pairwise (· ≤ ·))
    (hu : ∀ d ∈ decs, ∃ a u, net.m.role d = .decision a ∧ net.m.role u = .utility a ∧ net.g.Desc d u)
    (hleaf : ∀ u a, net.m.role u = .utility a → ∀ w, ¬ net.g.Edge u w)
    (hj : ∀ sg, createSubgame pick setOrd net decs = .ok sg → Joined sg.g ∧ sg.Distinct decs)
    (hown : ∀ v, net.InTree decs v → net.Own v) (hS : net.Searchable decs) :
    ∃ found, getNeInSg pick tpick ord setOrd agentOrd run conv override net decs = .ok found := by
  obtain ⟨sg, h1, hUs, hsub, hprobs, hso⟩ := subgame_usable hU hnames pick hset hnd ha hm hu hleaf
  obtain ⟨hjoin, hdist⟩ := hj sg h1
  have hdsg : ∀ d ∈ decs, d ∈ sg.g.nodes := fun d hd => by
    obtain ⟨a, u, q1, q2, q3⟩ := hu d hd
    exact (C63_members hU hnames hset hnd ha h1).2 d hd a u q1 q2 q3
  obtain ⟨s1, s2⟩ := (searchable_iff hU hUs hsub hprobs hdsg).1 hS
  obtain ⟨owners, ho⟩ : ∃ owners, mapPy (fun d => net.m.decisionAgent.get d) decs = .ok owners := by
    obtain ⟨ys, hys, _⟩ := mapPy_ok (f := fun d => net.m.decisionAgent.get d) (xs := decs) (fun d hd => by
      obtain ⟨a, ha'⟩ := decisions_role.1 (ha d hd)
      exact ⟨a, Dict.get_ok.2 (role_decision.1 ha')⟩)
    exact ⟨ys, hys⟩
  have howner : ∀ a, a ∈ agentOrd owners.dedup ↔ ∃ d ∈ decs, net.m.role d = .decision a := by
    intro a
    rw [(hao _).mem_iff, List.mem_dedup]
    rw [mapPy_ok_iff] at ho
    constructor
    · intro h
      obtain ⟨d, hd, e⟩ := forall₂_mem_right ho h
      rw [Dict.get_ok] at e
      exact ⟨d, hd, role_decision.2 e⟩
    · rintro ⟨d, hd, hr⟩
      obtain ⟨o, ho', e⟩ := forall₂_mem_left ho hd
      rw [Dict.get_ok, role_decision.1 hr] at e
      cases e
      exact ho'
  have hin : ∀ v, sg.InTree decs v → v ∈ sg.g.nodes := by
    rintro v (h | ⟨d, _, h⟩)
    · exact hdsg v h
    · exact (hUs.good.wf.edgeNodes v d h).1
  have hT : sg.Treeable decs (agentOrd owners.dedup) := by
    refine ⟨⟨fun u hu' v hv' => hnames.1 u (sub_nodes hU.good.wf hsub hu') v (sub_nodes hU.good.wf hsub hv'),
      fun v hv => hnames.2 v (sub_nodes hU.good.wf hsub hv)⟩, hjoin, fun d hd => ?_, s1, hdist, fun d hd hnd => ?_,
      fun v hv => hso v (hin v hv) (hown v ((inTree_sub hsub v).1 hv)), fun a hag => ?_, tree_possible hUs hdsg s1 s2⟩
    · obtain ⟨a, u, q1, q2, q3⟩ := hu d hd
      exact ⟨a, (howner a).2 ⟨d, hd, q1⟩, (hsub.decision d a).2 ⟨hd, q1⟩⟩
    · obtain ⟨a, hr⟩ := decisions_role.1 hd
      exact absurd ((hsub.decision d a).1 hr).1 hnd
    · obtain ⟨d, hd, hr⟩ := (howner a).1 hag
      obtain ⟨a', u, q1, q2, q3⟩ := hu d hd
      rw [hr] at q1
      cases q1
      have hu' : sg.m.role u = .utility a := (hsub.utility u a).2 ⟨⟨d, hd, relevant_desc hU.roles hr q2 q3⟩, q2⟩
      have hmem := (mem_utils hUs).2 hu'
      unfold utils at hmem
      cases hus : sg.m.agentUtilities.get? a with
      | none => rw [hus] at hmem; simp at hmem
      | some us =>
        rw [hus] at hmem
        refine ⟨us, rfl, List.ne_nil_of_mem (by simpa using hmem), fun w hw => ?_⟩
        have hwr : sg.m.role w = .utility a := (mem_utils hUs).1 (by unfold utils; rw [hus]; simpa using hw)
        refine ⟨hUs.roles.nodes w (Or.inr ?_), ?_⟩
        · exact mem_utilities.2 ⟨a, (role_utility hUs.roles).1 hwr⟩
        · rintro (h | ⟨d', _, h⟩)
          · obtain ⟨b, hb⟩ := decisions_role.1 (ha w h)
            rw [((hsub.utility w a).1 hwr).2] at hb
            cases hb
          · have : sg.g.Edge w d' ↔ _ := hsub.edges w d'
            exact hleaf w a ((hsub.utility w a).1 hwr).2 d' (this.1 h).1
  obtain ⟨t, ht⟩ := C66_returns hUs hT pick tpick hord
  obtain ⟨_, nodes, n1, n2, n3, htree, hl⟩ := C66_game_tree hUs hjoin hord ht
  have hdecn : ∀ d ∈ decs, d ∈ nodes := fun d hd => (n2 d).2 (Or.inl hd)
  have hm' : ∀ v ∈ nodes, v ∈ sg.g.nodes := fun v hv => hin v ((n2 v).1 hv)
  obtain ⟨bs, hbs⟩ := neSolver_ok hnr conv hov t t.players.length
  unfold getNeInSg
  rw [ho]
  simp only
  rw [h1]
  simp only
  rw [ht]
  simp only
  rw [hbs]
  simp only
  obtain ⟨ys, hys, _⟩ := mapPy_ok (f := fun b => sg.behaviorToCpd t.keys b decs) (xs := bs) (fun b hb => by
    obtain ⟨cs, hcs, _⟩ := behavior_rules hUs htree hl hdist hnd hm' hdecn (neSolver_sound hrun hbs b hb).1
    exact ⟨cs, hcs⟩)
  exact ⟨ys, hys⟩

end Net
end Verif

import Verif.Lemmas.Teams
import Verif.Lemmas.Realize
import Verif.Props.GetNe

/-!
# Rules that are optimal in a subgame are optimal in the game
-/

namespace Verif

open Graph Relation Macid

namespace Net

/-- a node that is in the subgame only because a member of the game looks at it -/
def Fringe (net : Net) (active : List Node) (sg : Net) (v : Node) : Prop := v ∈ sg.g.nodes ∧ ¬ net.m.InGame active v

theorem sub_nodes {net sg : Net} (hw : net.g.WF) {active : List Node} (hs : net.m.IsSubgame active sg.m) {v : Node} (hv : v ∈ sg.g.nodes) :
    v ∈ net.g.nodes := by
  obtain ⟨w, h | h⟩ := (hs.nodes v).1 hv
  · exact (hw.edgeNodes v w ((hs.edges v w).1 h).1).1
  · exact (hw.edgeNodes w v ((hs.edges w v).1 h).1).2

theorem sub_inDom {net sg : Net} (hw : net.g.WF) {active : List Node} (hs : net.m.IsSubgame active sg.m)
    (hd : ∀ v ∈ sg.g.nodes, sg.dom v = net.dom v) {a : Assign} (ha : net.InDom a) : sg.InDom a := by
  intro v hv
  rw [hd v hv]
  exact ha v (sub_nodes hw hs hv)

open Classical in
/-- a network over the whole graph with the mechanisms of the subgame computes what the subgame computes -/
theorem sub_W {net sg s : Net} (hU : net.Usable) {active : List Node} (hs : net.m.IsSubgame active sg.m)
    (hd : ∀ v ∈ sg.g.nodes, sg.dom v = net.dom v) (hsU : s.Usable) (hO : OnlyRules sg active s) {k : Node → Assign → Rat}
    (hk : BN.Prob ⟨net.g, net.dom, k⟩) (he : ∀ v ∈ sg.g.nodes, ∀ a, net.InDom a → k v a = s.kernel v a)
    {f : Assign → Rat} (hf : DependsOn f (· ∈ sg.g.nodes)) : BN.W ⟨net.g, net.dom, k⟩ f = s.bn.W f := by
  have hB := bn_prob hsU.good hsU.normalised
  have hw := hU.good.wf
  have hsg : s.g = sg.g := hO.g
  have hsd : ∀ v ∈ sg.g.nodes, s.dom v = net.dom v := fun v hv => by rw [hO.dom]; exact hd v hv
  let k' : Node → Assign → Rat := fun v => if v ∈ sg.g.nodes then s.kernel v else k v
  let xs := net.g.nodes.filter (fun v => decide (net.Fringe active sg v))
  have hcut : ∀ u v, (CutGraph net.g xs).Edge u v ↔ net.g.Edge u v ∧ ¬ net.Fringe active sg v := by
    intro u v
    rw [mem_cutGraph]
    simp only [xs, List.mem_filter, decide_eq_true_eq]
    constructor
    · rintro ⟨h1, h2⟩
      exact ⟨h1, fun h => h2 ⟨(hw.edgeNodes u v h1).2, h⟩⟩
    · rintro ⟨h1, h2⟩
      exact ⟨h1, fun h => h2 h.2⟩
  have hedge : ∀ u v, v ∈ sg.g.nodes → (s.g.Edge u v ↔ (CutGraph net.g xs).Edge u v) := by
    intro u v hv
    rw [hcut, hsg, show sg.g.Edge u v ↔ _ from hs.edges u v]
    constructor
    · rintro ⟨h1, h2⟩; exact ⟨h1, fun h => h.2 h2⟩
    · rintro ⟨h1, h2⟩; exact ⟨h1, by by_contra h; exact h2 ⟨hv, h⟩⟩
  have hsub : ∀ u v, v ∈ sg.g.nodes → s.g.Edge u v → u ∈ sg.g.nodes := by
    intro u v _ h
    rw [hsg] at h
    exact (hs.nodes u).2 ⟨v, Or.inl h⟩
  have hP : BN.Prob ⟨CutGraph net.g xs, net.dom, k'⟩ := by
    refine ⟨⟨cutGraph_wf hw _, hk.nodup, fun v hv => ?_⟩, fun v hv a ha => ?_, fun v hv a ha => ?_⟩
    · show DependsOn (if v ∈ sg.g.nodes then s.kernel v else k v) _
      split
      · rename_i h
        refine (hB.scope v (by show v ∈ s.g.nodes; rw [hsg]; exact h)).mono ?_
        rintro u (hu | hu)
        · exact Or.inl hu
        · exact Or.inr ((hedge u v h).1 hu)
      · rename_i h
        refine (hk.scope v hv).mono ?_
        rintro u (hu | hu)
        · exact Or.inl hu
        · exact Or.inr ((hcut u v).2 ⟨hu, fun q => h q.1⟩)
    · show ((net.dom v).map (fun x => (if v ∈ sg.g.nodes then s.kernel v else k v) (Assign.upd a v x))).sum = 1
      split
      · rename_i h
        rw [← hsd v h]
        refine hB.norm v (by show v ∈ s.g.nodes; rw [hsg]; exact h) a (fun p hp => ?_)
        show a p ∈ s.dom p
        rw [hsd p (hsub p v h hp)]
        exact ha p ((hedge p v h).1 hp)
      · rename_i h
        exact hk.norm v hv a (fun p hp => ha p ((hcut p v).2 ⟨hp, fun q => h q.1⟩))
    · show 0 ≤ (if v ∈ sg.g.nodes then s.kernel v else k v) a
      split
      · rename_i h
        refine hB.nonneg v (by show v ∈ s.g.nodes; rw [hsg]; exact h) a (fun p hp => ?_)
        show a p ∈ s.dom p
        rcases hp with rfl | hp
        · rw [hsd p h]; exact ha p (Or.inl rfl)
        · rw [hsd p (hsub p v h hp)]
          exact ha p (Or.inr ((hedge p v h).1 hp))
      · rename_i h
        refine hk.nonneg v hv a (fun p hp => ?_)
        rcases hp with hp | hp
        · exact ha p (Or.inl hp)
        · exact ha p (Or.inr ((hcut p v).2 ⟨hp, fun q => h q.1⟩))
  have e1 : BN.W ⟨net.g, net.dom, k⟩ f = BN.W ⟨CutGraph net.g xs, net.dom, k'⟩ f := by
    refine Eq.trans ?_ (rfl : BN.W ⟨net.g, net.dom, k'⟩ f = _)
    refine BN.W_same (B := ⟨net.g, net.dom, k'⟩) (B' := ⟨net.g, net.dom, k⟩) rfl rfl (fun v hv a ha => ?_) f
    show k v a = (if v ∈ sg.g.nodes then s.kernel v else k v) a
    split
    · rename_i h; exact he v h a ha
    · rfl
  have hnd : sg.g.nodes.Nodup := hs.wf.nodesNodup
  rw [e1, BN.W_ancestral hP (U := sg.g.nodes) hnd (fun v hv => sub_nodes hw hs hv)
    (fun u v huv hv => hsub u v hv ((hedge u v hv).2 huv)) hf (fun _ => 0)]
  unfold BN.W
  show sumOver net.dom sg.g.nodes _ _ = sumOver s.dom s.g.nodes _ _
  rw [hsg, sumOver_dom_perm (dom' := s.dom) (fun v hv => by rw [hsd v hv])]
  congr 1
  funext b
  congr 1
  unfold BN.prod
  show (sg.g.nodes.map (fun v => (if v ∈ sg.g.nodes then s.kernel v else k v) b)).prod = (s.g.nodes.map (fun v => s.kernel v b)).prod
  rw [hsg, List.map_congr_left (fun v hv => by rw [if_pos hv])]

open Classical in
/-- What no change of rules in the subgame improves, no change of rules in the game improves: in every network `kB` in which the members
of the subgame behave as in the subgame, if no observation that is impossible in the subgame is possible in `kB`. -/
theorem whole_game {net sg : Net} (hU : net.Usable) (hnames : NamesOk net.g) {decs : List Node} (hnd : decs.Nodup)
    (hs : net.m.IsSubgame decs sg.m) (hdom : ∀ v ∈ sg.g.nodes, sg.dom v = net.dom v) (hsU : sg.Usable) (hmem : ∀ d ∈ decs, d ∈ sg.g.nodes)
    {sg' : Net} (hsU' : sg'.Usable) (hsO : OnlyRules sg decs sg') {U : List Node} (hUn : U.Nodup) (hUs : ∀ v ∈ U, v ∈ sg.g.nodes)
    (hUa : ∀ u v, sg.g.Edge u v → v ∈ U → u ∈ U) (hUd : ∀ d ∈ decs, ∀ u, net.g.Edge u d → u ∈ U)
    {kB : Node → Assign → Rat} (hB' : BN.Prob ⟨net.g, net.dom, kB⟩)
    (hin : ∀ v ∈ sg.g.nodes, net.m.InGame decs v → ∀ a, net.InDom a → kB v a = sg'.kernel v a)
    (hpos : ∀ v ∈ U, ¬ net.m.InGame decs v → ∀ a, net.InDom a → sg.kernel v a = 0 → kB v a = 0) {agent : Agent}
    (hng : ∀ sg'', sg''.Usable → OnlyRules sg' (decs.filter (fun d => net.m.role d = .decision agent)) sg'' → sg''.EU agent ≤ sg'.EU agent) :
    ∀ k, BN.Prob ⟨net.g, net.dom, k⟩ →
      (∀ v ∈ net.g.nodes, v ∉ decs.filter (fun d => decide (net.m.role d = .decision agent)) → ∀ a, BN.LocIn net.g net.dom v a → k v a = kB v a) →
      BN.W ⟨net.g, net.dom, k⟩ (fun a => ((net.utils agent).map a).sum) ≤ BN.W ⟨net.g, net.dom, kB⟩ (fun a => ((net.utils agent).map a).sum) := by
  intro k0 hk0 hk0B
  set L := decs.filter (fun d => decide (net.m.role d = .decision agent)) with hL
  have hLm : ∀ d, d ∈ L ↔ d ∈ decs ∧ net.m.role d = .decision agent := fun d => by simp [hL, List.mem_filter]
  have hw := hU.good.wf
  have hBs := bn_prob hsU.good hsU.normalised
  have hBs' := bn_prob hsU'.good hsU'.normalised
  -- the fringe has no parents in the subgame
  have hfr : ∀ u v, net.Fringe decs sg v → ¬ sg.g.Edge u v := fun u v hv h => hv.2 ((hs.edges u v).1 h).2
  let kA : Node → Assign → Rat := fun v => if net.Fringe decs sg v then sg.kernel v else kB v
  have hkA : ∀ v, ¬ net.Fringe decs sg v → kA v = kB v := fun v h => if_neg h
  have hkF : ∀ v, net.Fringe decs sg v → kA v = sg.kernel v := fun v h => if_pos h
  have hrf : ∀ {g1 : Graph} {k1 : Node → Assign → Rat} {v}, net.Fringe decs sg v → BN.IsRule ⟨g1, net.dom, k1⟩ v (sg.kernel v) := by
    intro g1 k1 v hf
    refine ⟨(hBs.scope v hf.1).mono ?_, fun a ha => ?_, fun a ha => ?_⟩
    · rintro u (hu | hu)
      · exact Or.inl hu
      · exact absurd hu (hfr u v hf)
    · show ((net.dom v).map _).sum = 1
      rw [← hdom v hf.1]
      exact hBs.norm v hf.1 a (fun p hp => absurd hp (hfr p v hf))
    · refine hBs.nonneg v hf.1 a ?_
      rintro u (rfl | hu)
      · show a u ∈ sg.dom u
        rw [hdom u hf.1]; exact ha u (Or.inl rfl)
      · exact absurd hu (hfr u v hf)
  have hA : BN.Prob ⟨net.g, net.dom, kA⟩ := by
    refine BN.prob_of_rules hB' (fun v hv => ?_)
    by_cases hf : net.Fringe decs sg v
    · rw [hkF v hf]; exact hrf hf
    · rw [hkA v hf]; exact hB'.rule hv
  -- the graph of `kA`
  let xs := net.g.nodes.filter (fun v => decide (net.Fringe decs sg v))
  have hcut : ∀ u v, (CutGraph net.g xs).Edge u v ↔ net.g.Edge u v ∧ ¬ net.Fringe decs sg v := by
    intro u v
    rw [mem_cutGraph]
    simp only [xs, List.mem_filter, decide_eq_true_eq]
    constructor
    · rintro ⟨h1, h2⟩
      exact ⟨h1, fun h => h2 ⟨(hw.edgeNodes u v h1).2, h⟩⟩
    · rintro ⟨h1, h2⟩
      exact ⟨h1, fun h => h2 h.2⟩
  have hbase : BN.Base net.g (CutGraph net.g xs) U := by
    refine ⟨rfl, fun u v h => ((hcut u v).1 h).1, hUn, fun v hv => sub_nodes hw hs (hUs v hv), fun u v h hv => hUa u v ?_ hv⟩
    obtain ⟨h1, h2⟩ := (hcut u v).1 h
    exact (hs.edges u v).2 ⟨h1, by by_contra q; exact h2 ⟨hUs v hv, q⟩⟩
  have hA0 : BN.Prob ⟨CutGraph net.g xs, net.dom, kA⟩ := by
    refine ⟨⟨cutGraph_wf hw _, hB'.nodup, fun v hv => ?_⟩, fun v hv a ha => ?_, fun v hv a ha => ?_⟩
    all_goals by_cases hf : net.Fringe decs sg v
    · show DependsOn (kA v) _
      rw [hkF v hf]; exact (hrf (g1 := CutGraph net.g xs) (k1 := kA) hf).scope
    · show DependsOn (kA v) _
      rw [hkA v hf]
      refine (hB'.scope v hv).mono ?_
      rintro u (hu | hu)
      · exact Or.inl hu
      · exact Or.inr ((hcut u v).2 ⟨hu, hf⟩)
    · show ((net.dom v).map (fun x => kA v (Assign.upd a v x))).sum = 1
      rw [hkF v hf]; exact (hrf (g1 := CutGraph net.g xs) (k1 := kA) hf).norm a ha
    · show ((net.dom v).map (fun x => kA v (Assign.upd a v x))).sum = 1
      rw [hkA v hf]; exact hB'.norm v hv a (fun p hp => ha p ((hcut p v).2 ⟨hp, hf⟩))
    · show 0 ≤ kA v a
      rw [hkF v hf]; exact (hrf (g1 := CutGraph net.g xs) (k1 := kA) hf).nonneg a ha
    · show 0 ≤ kA v a
      rw [hkA v hf]
      refine hB'.nonneg v hv a ?_
      rintro u (hu | hu)
      · exact ha u (Or.inl hu)
      · exact ha u (Or.inr ((hcut u v).2 ⟨hu, hf⟩))
  have hnF : ∀ v, net.Fringe decs sg v → v ∉ decs := fun v h hd => h.2 (Or.inl hd)
  have hsup : ∀ v ∈ U, ∀ a, BN.LocIn net.g net.dom v a → kA v a = 0 → kB v a = 0 := by
    intro v hvU a ha h0
    have hv := sub_nodes hw hs (hUs v hvU)
    by_cases hf : net.Fringe decs sg v
    · obtain ⟨b, hb, hba⟩ := exists_inDom hU.good a (fun u => u = v ∨ net.g.Edge u v) (fun u hu _ => ha u hu)
      have hab : kB v a = kB v b := hB'.scope v hv a b (fun u hu => (hba u hu).symm)
      have hab0 : kA v a = kA v b := hA.scope v hv a b (fun u hu => (hba u hu).symm)
      rw [hab]
      rw [hab0, hkF v hf] at h0
      exact hpos v hvU hf.2 b hb h0
    · rw [← hkA v hf]; exact h0
  -- the mechanisms of the subgame
  have hsub : ∀ v ∈ sg.g.nodes, ∀ a, net.InDom a → kA v a = sg'.kernel v a := by
    intro v hv a ha
    by_cases hf : net.Fringe decs sg v
    · rw [hkF v hf, hsO.kernel (hnF v hf)]
    · rw [hkA v hf]
      exact hin v hv (by by_contra h; exact hf ⟨hv, h⟩) a ha
  -- utilities inside and outside the subgame
  let R := (net.utils agent).filter (fun u => decide (net.m.RelevantTo decs u))
  let Q := (net.utils agent).filter (fun u => !decide (net.m.RelevantTo decs u))
  have hsplit : ∀ k : Node → Assign → Rat, BN.W ⟨net.g, net.dom, k⟩ (fun a => ((net.utils agent).map a).sum) =
      BN.W ⟨net.g, net.dom, k⟩ (fun a => (R.map a).sum) + BN.W ⟨net.g, net.dom, k⟩ (fun a => (Q.map a).sum) := by
    intro k
    rw [← BN.W_add]
    congr 1
    funext a
    exact sum_split _ _ a
  have hun : ∀ u ∈ net.utils agent, u ∈ net.g.nodes := fun u hu =>
    hU.roles.nodes u (Or.inr (Dict.mem_keys.2 ⟨agent, (role_utility hU.roles).1 ((mem_utils hU).1 hu)⟩))
  have hRm : ∀ u, u ∈ R ↔ u ∈ sg.utils agent := by
    intro u
    rw [mem_utils hsU, show sg.m.role u = _ ↔ _ from hs.utility u agent, List.mem_filter, mem_utils hU, decide_eq_true_eq]
    exact And.comm
  have hRp : R.Perm (sg.utils agent) := (List.perm_ext_iff_of_nodup ((utils_nodup hU.roles agent).filter _) (utils_nodup hsU.roles agent)).2 hRm
  have hRs : ∀ u ∈ R, u ∈ sg.g.nodes := fun u hu =>
    hsU.roles.nodes u (Or.inr (Dict.mem_keys.2 ⟨agent, (role_utility hsU.roles).1 ((mem_utils hsU).1 ((hRm u).1 hu))⟩))
  have hdepR : DependsOn (fun a : Assign => (R.map a).sum) (· ∈ sg.g.nodes) := by
    intro a b hab
    show (R.map a).sum = (R.map b).sum
    rw [List.map_congr_left (fun u hu => hab u (hRs u hu))]
  have hEUs : ∀ s : Net, s.Usable → OnlyRules sg decs s → s.EU agent = s.bn.W (fun a => (R.map a).sum) := by
    intro s hs' ho
    rw [EU_eq hs' agent, ho.m]
    congr 1
    funext a
    exact ((hRp.map a).sum_eq).symm
  have hdn : ∀ d ∈ decs, net.m.InGame decs d := fun d hd => Or.inl hd
  obtain ⟨Ks, hK, hKs, hT⟩ := exists_teams (m := net.m) hU.roles hnames (agent := agent) (us := net.utils agent)
    (fun u hu => (mem_utils hU).1 hu) (L := L) (hnd.filter _) (fun d hd => ((hLm d).1 hd).2) (C := net.Fringe decs sg)
    (fun v hv => sub_nodes hw hs hv.1) (fun v hv hl => hnF v hv ((hLm v).1 hl).1)
    (fun v hv d hd hr => hv.2 (Or.inr ⟨d, ((hLm d).1 hd).1, hr⟩))
  refine BN.transfer hbase Ks hT (fun KO hKO => ⟨fun o ho => ?_, fun d hd u hu => ?_⟩) hA hA0 hB' (fun v _ hv a _ => by rw [hkA v hv]) hsup ?_ k0 hk0
    (fun v hv hvm a ha => hk0B v hv (fun h => hvm ((hK v).2 h)) a ha)
  · obtain ⟨d, hd, he⟩ := (hKs KO hKO).1 o ho
    exact hUd d ((hLm d).1 hd).1 o he
  · exact (hcut u d).2 ⟨hu, fun h => hnF d h ((hLm d).1 ((hKs KO hKO).2 d hd)).1⟩
  · intro k hk hkA'
    -- the rules of `k`, put into the subgame
    have hrule : ∀ d ∈ L, sg'.bn.IsRule d (k d) := by
      intro d hd
      have hdd := ((hLm d).1 hd).1
      have hds := hmem d hdd
      have hdnn := sub_nodes hw hs hds
      have hed : ∀ u, sg'.g.Edge u d ↔ net.g.Edge u d := fun u => by
        rw [hsO.g, show sg.g.Edge u d ↔ _ from hs.edges u d]
        exact ⟨fun h => h.1, fun h => ⟨h, hdn d hdd⟩⟩
      have hpd : ∀ u, net.g.Edge u d → sg'.dom u = net.dom u := fun u hu => by
        rw [hsO.dom]
        exact hdom u ((hs.nodes u).2 ⟨d, Or.inl ((hs.edges u d).2 ⟨hu, hdn d hdd⟩)⟩)
      have hdd' : sg'.dom d = net.dom d := by rw [hsO.dom]; exact hdom d hds
      refine ⟨(hk.scope d hdnn).mono ?_, fun a ha => ?_, fun a ha => ?_⟩
      · rintro u (hu | hu)
        · exact Or.inl hu
        · exact Or.inr ((hed u).2 hu)
      · show ((sg'.dom d).map _).sum = 1
        rw [hdd']
        refine hk.norm d hdnn a (fun p hp => ?_)
        show a p ∈ net.dom p
        rw [← hpd p hp]
        exact ha p ((hed p).2 hp)
      · refine hk.nonneg d hdnn a ?_
        rintro u (rfl | hu)
        · show a u ∈ net.dom u
          rw [← hdd']; exact ha u (Or.inl rfl)
        · show a u ∈ net.dom u
          rw [← hpd u hu]; exact ha u (Or.inr ((hed u).2 hu))
    obtain ⟨s, s1, s2, s3⟩ := realize L hsU' (hnd.filter _) (fun d hd => by rw [hsO.g]; exact hmem d ((hLm d).1 hd).1) hrule
    have s2' : OnlyRules sg decs s := hsO.trans s2 (fun _ h => h) (fun d hd => ((hLm d).1 hd).1)
    have hle := hng s s1 s2
    rw [hEUs s s1 s2', hEUs sg' hsU' hsO] at hle
    have hks : ∀ v ∈ sg.g.nodes, ∀ a, net.InDom a → k v a = s.kernel v a := by
      intro v hv a ha
      by_cases hl : v ∈ L
      · exact (s3 v hl a ((hsO.inDom a).2 (sub_inDom hw hs hdom ha))).symm
      · have hvn := sub_nodes hw hs hv
        rw [hkA' v hvn (fun h => hl ((hK v).1 h)) a (BN.InDom.loc (k := k) hw hvn ha), s2.kernel hl]
        exact hsub v hv a ha
    rw [hsplit k, hsplit kA, sub_W hU hs hdom s1 s2' hk hks hdepR, sub_W hU hs hdom hsU' hsO hA hsub hdepR]
    have hQ : BN.W ⟨net.g, net.dom, k⟩ (fun a => (Q.map a).sum) = BN.W ⟨net.g, net.dom, kA⟩ (fun a => (Q.map a).sum) := by
      refine BN.W_upstream hA hk (K := (· ∈ L)) (fun v hv hl a ha => hkA' v hv (fun h => hl ((hK v).1 h)) a ha) ?_
      intro a b hab
      show (Q.map a).sum = (Q.map b).sum
      rw [List.map_congr_left (fun u hu => hab u ?_)]
      obtain ⟨hu1, hu2⟩ := List.mem_filter.1 hu
      refine ⟨hun u hu1, fun d hd hdu => ?_⟩
      obtain ⟨q1, q2⟩ := (hLm d).1 hd
      have hur := (mem_utils hU).1 hu1
      rcases Relation.reflTransGen_iff_eq_or_transGen.1 hdu with rfl | h
      · rw [q2] at hur; simp at hur
      · have : net.m.RelevantTo decs u := ⟨d, q1, relevant_desc hU.roles q2 hur h⟩
        simp [this] at hu2
    rw [hQ]
    linarith

/-- members of the subgame without rule are the listed decisions or have the probabilities of the network -/
theorem kept_kernel {net sg : Net} {decs : List Node} (hp : SubgameProbs net decs sg) {v : Node} (hv : v ∈ sg.g.nodes)
    (hg : net.m.InGame decs v) (hd : v ∉ decs) {a : Assign} (ha : net.InDom a) : sg.kernel v a = net.kernel v a := by
  rw [hp.kept v hv hg a ha]
  unfold start
  rw [if_neg]
  rintro ⟨_, _, h⟩
  exact h (hg.resolve_left hd)

end Net
end Verif

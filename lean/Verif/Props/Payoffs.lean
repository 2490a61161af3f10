import Verif.Props.Efg
import Verif.Props.Equilibria
import Verif.Lemmas.EfgValue
import Verif.Lemmas.Policies

/-!
# The game tree and the network have the same payoffs and the same equilibria (C76)
-/

namespace Verif

open Graph Relation Macid Net

/-- **C76** If the decision rules of a network are what the players do at the information sets of its game tree, then what a player can
expect at the root of the tree is the agent's expected utility in the network. -/
theorem C76_payoffs {net net' : Net} (hU : net.Usable) (hU' : net'.Usable) {decs : List Node} {agents : List Agent} {nodes : List Node} {t : Efg}
    (ht : IsTree net decs agents nodes t) (hn : nodes.Nodup) (hm : ∀ v ∈ nodes, v ∈ net.g.nodes) (hdn : ∀ d ∈ decs, d ∈ nodes)
    (hO : OnlyRules net decs net') {b : Behavior} (hp : PlaysAs net' decs t b) {j : Nat} {agent : Agent} (hj : agents[j]? = some agent) :
    t.Value b j [] (net'.EU agent) ∧ ∀ r, t.Value b j [] r → r = net'.EU agent :=
  have h := payoffs_eq hU hU' ht hn hm hdn hO hp hj
  ⟨h, fun _ hr => hr.unique h⟩

theorem forall₂_mem_right {α β : Type} {R : α → β → Prop} {l : List α} {r : List β} (h : List.Forall₂ R l r) {y : β} (hy : y ∈ r) :
    ∃ x ∈ l, R x y := by
  induction h with
  | nil => simp at hy
  | @cons a b l r hab _ ih =>
    rcases List.mem_cons.1 hy with rfl | hy
    · exact ⟨a, by simp, hab⟩
    · obtain ⟨x, hx, h⟩ := ih hy
      exact ⟨x, by simp [hx], h⟩

theorem forall₂_mem_left {α β : Type} {R : α → β → Prop} {l : List α} {r : List β} (h : List.Forall₂ R l r) {x : α} (hx : x ∈ l) :
    ∃ y ∈ r, R x y := by
  obtain ⟨y, hy, h⟩ := forall₂_mem_right h.flip hx
  exact ⟨y, hy, h⟩

namespace Net

/-- the information set at which a decision is taken -/
theorem infoset_of {net : Net} (hG : Good net) {decs : List Node} {agents : List Agent} {nodes : List Node} {t : Efg}
    (ht : IsTree net decs agents nodes t) (hl : Labelled net decs t) (hdist : net.Distinct decs) (hm : ∀ v ∈ nodes, v ∈ net.g.nodes)
    (hdn : ∀ d ∈ decs, d ∈ nodes) {d : Node} (hd : d ∈ decs) {agent : Agent} (hr : net.m.role d = .decision agent) (a : Assign)
    (ha : ∀ p, net.g.Edge p d → a p ∈ net.dom p) :
    agent ∈ agents ∧ ∃ i s, t.keys.get? (agent, Given (net.g.parents d) a) = some i ∧ t.infosets[i]? = some s ∧ s.player = agent ∧
      s.actions = net.dom d ∧ ∃ vs post a' idx, nodes = vs ++ d :: post ∧ At net.dom vs idx (vs.map a') ∧ (∀ p, net.g.Edge p d → a' p = a p) ∧
        t.moves.get? idx = some (.decision i) := by
  obtain ⟨vs, post, e⟩ := List.append_of_mem (hdn d hd)
  obtain ⟨a', ha', hag'⟩ := exists_inDom hG a (fun p => net.g.Edge p d) (fun p hp _ => ha p hp)
  obtain ⟨idx, hidx⟩ := At.exists (dom := net.dom) (vs := vs) (a := a') (fun w hw => ha' w (hm w (by rw [e]; simp [hw])))
  obtain ⟨ag1, i, s, h1, h2, h3, h4, h5, h6⟩ := ht.decision vs d post e hd a' idx hidx
  have hag1 : ag1 = agent := by rw [hr] at h1; cases h1; rfl
  subst hag1
  have hgi : Given (net.g.parents d) a' = Given (net.g.parents d) a :=
    List.map_congr_left (fun p hp => by rw [hag' p (Graph.mem_parents.1 hp)])
  rw [hgi] at h6
  obtain ⟨s', k1, k2, d1, a1, k3, k4, k5, k6, k7⟩ := hl _ _ h6
  have hd1 : d1 = d := hdist d1 k3 d hd (by rw [k4, role_decision.1 hr]) (given_eq_map k5).1.symm
  subst hd1
  exact ⟨h2, i, s', h6, k1, k2, k7 hdist, vs, post, a', idx, e, hidx, hag', h3⟩

/-- the rules made from a behaviour can be put into a network, and then are what the behaviour says -/
theorem behavior_rules {net : Net} (hU : net.Usable) {decs : List Node} {agents : List Agent} {nodes : List Node} {t : Efg}
    (ht : IsTree net decs agents nodes t) (hl : Labelled net decs t) (hdist : net.Distinct decs) (hdec : decs.Nodup)
    (hm : ∀ v ∈ nodes, v ∈ net.g.nodes) (hdn : ∀ d ∈ decs, d ∈ nodes) {b : Behavior} (hb : IsBehavior t b) :
    ∃ cs, net.behaviorToCpd t.keys b decs = .ok cs ∧ cs.map (·.var) = decs ∧ PolicyOk net cs ∧
      ∀ d ∈ decs, ∀ agent, net.m.role d = .decision agent → ∀ a, (∀ p, net.g.Edge p d → a p ∈ net.dom p) → ∀ i,
        t.keys.get? (agent, Given (net.g.parents d) a) = some i → ∃ c ∈ cs, c.var = d ∧ c.evidence = net.g.parents d ∧
          b i = (net.dom d).map (fun x => (c.prob net.domain ((net.g.parents d).map a) x).getD 0) := by
  obtain ⟨cs, hcs, hf⟩ := C69_behavior_to_cpd hU ht hl hdist hm hdn hb
  have hG := hU.good
  have hvars := behaviorToCpd_vars hcs
  have hmk := hcs
  unfold behaviorToCpd at hmk
  rw [mapPy_ok_iff] at hmk
  have hval : ∀ (d : Node) (c : Cpd), d ∈ decs → (c.var = d ∧ c.evidence = net.g.parents d ∧ c.domain = net.dom d ∧
      ∀ vs post, nodes = vs ++ d :: post → ∀ a idx, At net.dom vs idx (vs.map a) → ∃ i, t.moves.get? idx = some (.decision i) ∧
        ∀ (k : Nat) (x : Outcome), (net.dom d)[k]? = some x → c.prob net.domain ((net.g.parents d).map a) x = (b i)[k]?) →
      ∀ agent, net.m.role d = .decision agent → ∀ a, (∀ p, net.g.Edge p d → a p ∈ net.dom p) → ∃ i s,
        t.keys.get? (agent, Given (net.g.parents d) a) = some i ∧ t.infosets[i]? = some s ∧
          b i = (net.dom d).map (fun x => (c.prob net.domain ((net.g.parents d).map a) x).getD 0) := by
    rintro d c hd ⟨_, _, _, h4⟩ agent hr a ha
    obtain ⟨_, i, s, h6, k1, k2, k3, vs, post, a', idx, e, hidx, hag, hmv⟩ := infoset_of hG ht hl hdist hm hdn hd hr a ha
    obtain ⟨i', hmv', hpr⟩ := h4 vs post e a' idx hidx
    rw [hmv] at hmv'
    cases hmv'
    refine ⟨i, s, h6, k1, ?_⟩
    have hlen : (b i).length = (net.dom d).length := by rw [(hb i s k1).1, k3]
    apply List.ext_getElem (by simp [hlen])
    intro k hk1 hk2
    have hk : k < (net.dom d).length := by omega
    have := hpr k _ (List.getElem?_eq_getElem hk)
    rw [List.map_congr_left (g := a) (fun p hp => hag p (Graph.mem_parents.1 hp)), List.getElem?_eq_getElem hk1] at this
    rw [List.getElem_map, this]
    rfl
  have hrole : ∀ d ∈ decs, ∃ agent, net.m.role d = .decision agent := by
    intro d hd
    obtain ⟨vs, post, e⟩ := List.append_of_mem (hdn d hd)
    obtain ⟨a, ha, _⟩ := exists_inDom hG (fun _ => 0) (fun _ => False) (by simp)
    obtain ⟨idx, hidx⟩ := At.exists (dom := net.dom) (vs := vs) (a := a) (fun w hw => ha w (hm w (by rw [e]; simp [hw])))
    obtain ⟨ag, _, _, h1, _⟩ := ht.decision vs d post e hd a idx hidx
    exact ⟨ag, h1⟩
  refine ⟨cs, hcs, hvars, ⟨hvars ▸ hdec, ?_⟩, ?_⟩
  · intro c hc
    have hdc : c.var ∈ decs := by rw [← hvars]; exact List.mem_map_of_mem hc
    obtain ⟨d, hd, hbc⟩ := forall₂_mem_right hmk hc
    obtain ⟨d', hd', hq⟩ := forall₂_mem_right hf hc
    have hdn' : d ∈ net.g.nodes := hm d (hdn d hd)
    obtain ⟨agent, hr⟩ := hrole d hd
    have hmkc : mkCpd .stochastic d (behaviorFunc agent (net.g.parents d) t.keys (net.dom d) b) (some (net.dom d)) (net.g.parents d) net.domain
        (cardOf net.domain) = .ok c := by
      unfold behaviorCpd at hbc
      have hdv : net.domain.get d = .ok (net.dom d) := by
        obtain ⟨c, hc, hd⟩ := hG.complete d hdn'
        rw [Dict.get_ok]
        unfold Net.dom
        rw [hd]; rfl
      rw [hdv] at hbc
      simp only at hbc
      rw [if_neg (by simpa using hdn'), Dict.get_ok.2 (role_decision.1 hr)] at hbc
      rw [← hbc]
      exact mkCpd_congr (fun _ _ => rfl) (fun p hp => (card_eq_cardOf hG (hG.wf.edgeNodes p d (Graph.mem_parents.1 hp)).1).symm)
    have hv : c.var = d := (mkCpd_fields hmkc).1
    have hdd : d' = d := by rw [← hq.1, hv]
    subst hdd
    rw [hv]
    refine ⟨hdn', accept_mkCpd hG hdn' hmkc hq.2.2.1, ?_⟩
    intro a ha
    obtain ⟨i, s, h1, h2, h3⟩ := hval d' c hd hq agent hr a (fun p hp => ha p (hG.wf.edgeNodes p d' hp).1)
    obtain ⟨b1, b2, b3⟩ := hb i s h2
    rw [hq.2.1]
    constructor
    · apply b2
      rw [h3]
      exact List.mem_map_of_mem (ha d' hdn')
    · rw [← b3, h3]
  · intro d hd agent hr a ha i hi
    obtain ⟨c, hc, hq⟩ := forall₂_mem_left hf hd
    obtain ⟨i', s, h1, h2, h3⟩ := hval d c hd hq agent hr a ha
    rw [hi] at h1
    cases h1
    exact ⟨c, hc, hq.1, hq.2.1, h3⟩

/-- some of the rules put into a network that has other rules for the decisions -/
theorem put_rules {net n : Net} (hU : net.Usable) (hn : n.Usable) {decs : List Node} {agents : List Agent} {nodes : List Node} {t : Efg}
    (ht : IsTree net decs agents nodes t) (hl : Labelled net decs t) (hdist : net.Distinct decs) (hdec : decs.Nodup)
    (hm : ∀ v ∈ nodes, v ∈ net.g.nodes) (hdn : ∀ d ∈ decs, d ∈ nodes) {b : Behavior} (hb : IsBehavior t b) (hO : OnlyRules net decs n)
    (own : Node → Bool) :
    ∃ cs n', net.behaviorToCpd t.keys b decs = .ok cs ∧ n.addPolicy (cs.filter (fun c => own c.var)) = (n', .ok ()) ∧ n'.Usable ∧
      OnlyRules n (decs.filter own) n' ∧ PlaysAs n' (decs.filter own) t b := by
  obtain ⟨cs, h1, h2, h3, h4⟩ := behavior_rules hU ht hl hdist hdec hm hdn hb
  have hok : PolicyOk n (cs.filter (fun c => own c.var)) := by
    have := h3.only hO
    refine ⟨this.1.sublist (List.filter_sublist.map _), fun k hk => this.2 k (List.mem_filter.1 hk).1⟩
  have hv : (cs.filter (fun c => own c.var)).map (·.var) = decs.filter own := by
    rw [← h2, List.filter_map]
    rfl
  obtain ⟨n', k1, k2, k3, k4⟩ := addPolicy_usable _ hn hok
  rw [hv] at k3
  refine ⟨cs, n', h1, k1, k2, k3, ?_⟩
  intro d hd agent hr a ha i hi
  obtain ⟨hd1, hd2⟩ := List.mem_filter.1 hd
  rw [k3.g, hO.g] at ha hi
  rw [k3.dom, hO.dom] at ha
  rw [k3.m, hO.m] at hr
  obtain ⟨c, hc, rfl, he, hbi⟩ := h4 d hd1 agent hr a ha i hi
  rw [hbi, k3.dom, hO.dom]
  apply List.map_congr_left
  intro x _
  unfold kernel
  rw [k4 c (List.mem_filter.2 ⟨hc, hd2⟩)]
  simp only [Assign.upd_same, k3.domain, hO.domain, he]
  congr 2
  apply List.map_congr_left
  intro p hp
  exact (Assign.upd_ne _ _ (by rintro rfl; exact hU.good.wf.acyclic _ (.single (Graph.mem_parents.1 hp)))).symm

end Net

/-- **C76** The rules that `behavior_to_cpd` makes from a behaviour strategy profile can be put into the network; what the agents then can
expect is what the profile gives them at the root of the tree. -/
theorem C76_behavior_to_cpd {net : Net} (hU : net.Usable) {decs : List Node} {agents : List Agent} {nodes : List Node} {t : Efg}
    (ht : IsTree net decs agents nodes t) (hl : Labelled net decs t) (hdist : net.Distinct decs) (hdec : decs.Nodup) (hn : nodes.Nodup)
    (hm : ∀ v ∈ nodes, v ∈ net.g.nodes) (hdn : ∀ d ∈ decs, d ∈ nodes) {b : Behavior} (hb : IsBehavior t b) :
    ∃ cs net', net.behaviorToCpd t.keys b decs = .ok cs ∧ net.addPolicy cs = (net', .ok ()) ∧ net'.Usable ∧ OnlyRules net decs net' ∧
      PlaysAs net' decs t b ∧ ∀ (j : Nat) (agent : Agent), agents[j]? = some agent → t.Value b j [] (net'.EU agent) := by
  obtain ⟨cs, net', h1, h2, h3, h4, h5⟩ := put_rules hU hU ht hl hdist hdec hm hdn hb (.rfl' _ _) (fun _ => true)
  rw [List.filter_true] at h2 h4 h5
  exact ⟨cs, net', h1, h2, h3, h4, h5, fun j agent hj => payoffs_eq hU h3 ht hn hm hdn h4 h5 hj⟩

/-- **C76** The Nash equilibria of the tree are those of the network: when the rules of `net'` are what `b` says, no player gains by
behaving differently if and only if no agent gains by different rules. -/
theorem C76_equilibria {net net' : Net} (hU : net.Usable) (hU' : net'.Usable) {decs : List Node} {agents : List Agent} {nodes : List Node} {t : Efg}
    (ht : IsTree net decs agents nodes t) (hl : Labelled net decs t) (hdist : net.Distinct decs) (hdec : decs.Nodup) (hn : nodes.Nodup)
    (hm : ∀ v ∈ nodes, v ∈ net.g.nodes) (hdn : ∀ d ∈ decs, d ∈ nodes) (hO : OnlyRules net decs net') {b : Behavior} (hb : IsBehavior t b)
    (hp : PlaysAs net' decs t b) : IsNash t b ↔ NoGain net' decs agents := by
  classical
  have hG := hU.good
  constructor
  · intro hN agent hag net'' hU'' hO''
    obtain ⟨j, hj1, hj2⟩ := List.getElem_of_mem hag
    have hj : agents[j]? = some agent := by rw [List.getElem?_eq_getElem hj1, hj2]
    have hO2 : OnlyRules net decs net'' := hO.trans hO'' (fun w hw => hw) (fun w hw => (List.mem_filter.1 hw).1)
    -- the information sets of the agent
    let Q : Nat → Node → Assign → Prop := fun i d a => d ∈ decs ∧ net.m.role d = .decision agent ∧ (∀ p, net.g.Edge p d → a p ∈ net.dom p) ∧
      t.keys.get? (agent, Given (net.g.parents d) a) = some i
    let rule : Node → Assign → List Rat := fun d a => (net.dom d).map (fun x => net''.kernel d (Assign.upd a d x))
    have hwell : ∀ i d a d' a', Q i d a → Q i d' a' → rule d a = rule d' a' := by
      rintro i d a d' a' ⟨q1, q2, q3, q4⟩ ⟨r1, r2, r3, r4⟩
      have := ht.keys _ _ _ q4 r4
      simp only [Prod.mk.injEq, true_and] at this
      obtain ⟨g1, g2⟩ := given_eq_map this
      have hdd : d = d' := hdist d q1 d' r1 (by rw [role_decision.1 q2, role_decision.1 r2]) g1
      subst hdd
      apply List.map_congr_left
      intro x _
      have hdn' : d ∈ net''.g.nodes := by rw [hO2.g]; exact hm d (hdn d q1)
      apply kernel_depends hU''.good hdn'
      rintro u (rfl | hu)
      · simp
      · by_cases e : u = d
        · subst e; simp
        · rw [Assign.upd_ne _ _ e, Assign.upd_ne _ _ e]
          rw [hO2.g] at hu
          exact List.map_inj_left.1 g2 u (Graph.mem_parents.2 hu)
    let b' : Behavior := fun i => if h : ∃ d a, Q i d a then rule h.choose h.choose_spec.choose else b i
    have hb'1 : ∀ i d a, Q i d a → b' i = rule d a := by
      intro i d a hq
      have h : ∃ d a, Q i d a := ⟨d, a, hq⟩
      simp only [b', dif_pos h]
      exact hwell i _ _ _ _ h.choose_spec.choose_spec hq
    have hb'2 : ∀ i, (¬ ∃ d a, Q i d a) → b' i = b i := fun i h => by simp only [b', dif_neg h]
    have hbeh : IsBehavior t b' := by
      intro i s hs
      by_cases h : ∃ d a, Q i d a
      · obtain ⟨d, a, hq⟩ := h
        rw [hb'1 i d a hq]
        obtain ⟨q1, q2, q3, q4⟩ := hq
        obtain ⟨_, i', s', k1, k2, k3, k4, _⟩ := infoset_of hG ht hl hdist hm hdn q1 q2 a q3
        rw [q4] at k1; cases k1
        rw [hs] at k2; cases k2
        have hd : d ∈ net.g.nodes := hm d (hdn d q1)
        have hprob := bn_prob hU''.good hU''.normalised
        refine ⟨by simp [rule, k4], ?_, ?_⟩
        · intro x hx
          obtain ⟨y, hy, rfl⟩ := List.mem_map.1 hx
          apply hprob.nonneg d (by show d ∈ net''.g.nodes; rw [hO2.g]; exact hd)
          rintro u hu
          show Assign.upd a d y u ∈ net''.dom u
          rw [hO2.dom]
          by_cases e : u = d
          · subst e; simpa using hy
          · rw [Assign.upd_ne _ _ e]
            rcases hu with hu | hu
            · exact absurd hu e
            · have hu : net''.g.Edge u d := hu
              rw [hO2.g] at hu
              exact q3 u hu
        · have := hprob.norm d (by show d ∈ net''.g.nodes; rw [hO2.g]; exact hd) a (fun p hp' => by
            have hu : net''.g.Edge p d := hp'
            rw [hO2.g] at hu
            show a p ∈ net''.dom p
            rw [hO2.dom]
            exact q3 p hu)
          have e : net''.bn.dom d = net.dom d := by show net''.dom d = _; rw [hO2.dom]
          rw [e] at this
          exact this
      · rw [hb'2 i h]
        exact hb i s hs
    have hplays : PlaysAs net'' decs t b' := by
      intro d hd ag hr a ha i hi
      rw [hO2.g] at ha hi
      rw [hO2.dom] at ha ⊢
      rw [hO2.m] at hr
      by_cases e : ag = agent
      · subst e
        exact hb'1 i d a ⟨hd, hr, ha, hi⟩
      · rw [hb'2 i (by
          rintro ⟨d', a', _, _, _, q4⟩
          have := ht.keys _ _ _ hi q4
          simp only [Prod.mk.injEq] at this
          exact e this.1)]
        have := hp d hd ag (by rw [hO.m]; exact hr) a (by rw [hO.g, hO.dom]; exact ha) i (by rw [hO.g]; exact hi)
        rw [this, hO.dom]
        apply List.map_congr_left
        intro x _
        refine (hO''.kernel ?_ _).symm
        intro hcon
        have := (List.mem_filter.1 hcon).2
        rw [decide_eq_true_eq, hO.m, hr] at this
        cases this
        exact e rfl
    refine hN j agent (by rw [ht.players]; exact hj) b' hbeh ?_ _ _ (payoffs_eq hU hU' ht hn hm hdn hO hp hj) (payoffs_eq hU hU'' ht hn hm hdn hO2 hplays hj)
    intro i s hs hne
    apply hb'2
    rintro ⟨d, a, _, _, _, q4⟩
    obtain ⟨s', k1, k2, _⟩ := hl _ _ q4
    rw [hs] at k1; cases k1
    exact hne k2
  · intro hN j agent hj b' hb' hsame r r' hr hr'
    rw [ht.players] at hj
    have hag : agent ∈ agents := List.mem_of_getElem? hj
    obtain ⟨cs, net'', k1, k2, hU'', hO'', hp''⟩ := put_rules hU hU' ht hl hdist hdec hm hdn hb' hO (fun d => decide (net'.m.role d = .decision agent))
    have hO2 : OnlyRules net decs net'' := hO.trans hO'' (fun w hw => hw) (fun w hw => (List.mem_filter.1 hw).1)
    have hplays : PlaysAs net'' decs t b' := by
      intro d hd ag hr a ha i hi
      by_cases e : net'.m.role d = .decision agent
      · exact hp'' d (List.mem_filter.2 ⟨hd, by simpa using e⟩) ag hr a ha i hi
      · have hag' : ag ≠ agent := by
          rintro rfl
          rw [hO''.m] at hr
          exact e hr
        obtain ⟨s, q1, q2, _⟩ := hl _ _ hi
        rw [hsame i s q1 (by rw [q2]; exact hag')]
        rw [hO''.m] at hr
        rw [hO''.g, hO''.dom] at ha
        rw [hO''.g] at hi
        rw [hp d hd ag hr a ha i hi, hO''.dom]
        apply List.map_congr_left
        intro x _
        refine (hO''.kernel ?_ _).symm
        intro hcon
        exact e (by simpa using (List.mem_filter.1 hcon).2)
    rw [hr.unique (payoffs_eq hU hU' ht hn hm hdn hO hp hj), hr'.unique (payoffs_eq hU hU'' ht hn hm hdn hO2 hplays hj)]
    exact hN agent hag net'' hU'' hO''

namespace ExG

/-- the second player does the opposite of the first -/
def opposite : Behavior := fun i => if i = 0 then [1 / 2, 1 / 2] else if i = 1 then [0, 1] else [1, 0]

theorem value {t : Efg} (h2 : t.moves = [([], .decision 0), ([0], .decision 1), ([1], .decision 2)])
    (h3 : t.payoffs = [([0, 0], [1, 0]), ([0, 1], [0, 2]), ([1, 0], [0, 2]), ([1, 1], [1, 0])]) {b : Behavior} {p q x y u v : Rat}
    (b0 : b 0 = [p, q]) (b1 : b 1 = [x, y]) (b2 : b 2 = [u, v]) :
    t.Value b 0 [] (p * (x + 0) + (q * (0 + v) + 0)) ∧ t.Value b 1 [] (p * (0 + y * 2) + (q * (u * 2 + 0) + 0)) := by
  have leaf : ∀ (idx : List Nat) (rs : List Rat) (j : Nat) (r : Rat), t.moves.get? idx = none → t.payoffs.get? idx = some rs →
      rs[j]? = some r → t.Value b j idx r := fun idx rs j r => .leaf
  have move : ∀ (j : Nat) (idx : List Nat) (i : Nat) (k : Rat) (c d r s : Rat), t.moves.get? idx = some (.decision i) → b i = [c, d] →
      t.Value b j (idx ++ [0]) r → t.Value b j (idx ++ [1]) s → k = c * r + (d * s + 0) → t.Value b j idx k := by
    intro j idx i k c d r s hm hb hr hs hk
    have := Efg.Value.move (t := t) (b := b) (j := j) (idx := idx) (rs := [r, s]) hm (by simp [odds, hb]) (by
      intro n r' hn
      match n with
      | 0 => simp only [List.getElem?_cons_zero, Option.some.injEq] at hn; exact hn ▸ hr
      | 1 => simp only [List.getElem?_cons_succ, List.getElem?_cons_zero, Option.some.injEq] at hn; exact hn ▸ hs
      | n + 2 => simp at hn)
    simp only [odds, hb, List.zipWith_cons_cons, List.zipWith_nil_left, List.sum_cons, List.sum_nil] at this
    rw [hk]
    exact this
  have m0 : t.moves.get? [] = some (.decision 0) := by rw [h2]; rfl
  have m1 : t.moves.get? [0] = some (.decision 1) := by rw [h2]; rfl
  have m2 : t.moves.get? [1] = some (.decision 2) := by rw [h2]; rfl
  have no : ∀ i j : Nat, t.moves.get? [i, j] = none := by
    intro i j
    rw [h2]
    simp [Dict.get?]
  have p1 : t.payoffs.get? [0, 0] = some [1, 0] := by rw [h3]; rfl
  have p2 : t.payoffs.get? [0, 1] = some [0, 2] := by rw [h3]; rfl
  have p3 : t.payoffs.get? [1, 0] = some [0, 2] := by rw [h3]; rfl
  have p4 : t.payoffs.get? [1, 1] = some [1, 0] := by rw [h3]; rfl
  constructor
  · exact move 0 [] 0 _ _ _ _ _ m0 b0
      (move 0 [0] 1 _ _ _ _ _ m1 b1 (leaf [0, 0] _ 0 1 (no _ _) p1 rfl) (leaf [0, 1] _ 0 0 (no _ _) p2 rfl) rfl)
      (move 0 [1] 2 _ _ _ _ _ m2 b2 (leaf [1, 0] _ 0 0 (no _ _) p3 rfl) (leaf [1, 1] _ 0 1 (no _ _) p4 rfl) rfl) (by ring)
  · exact move 1 [] 0 _ _ _ _ _ m0 b0
      (move 1 [0] 1 _ _ _ _ _ m1 b1 (leaf [0, 0] _ 1 0 (no _ _) p1 rfl) (leaf [0, 1] _ 1 2 (no _ _) p2 rfl) rfl)
      (move 1 [1] 2 _ _ _ _ _ m2 b2 (leaf [1, 0] _ 1 2 (no _ _) p3 rfl) (leaf [1, 1] _ 1 0 (no _ _) p4 rfl) rfl) (by ring)

theorem nash {t : Efg} (h0 : t.players = [0, 1]) (h1 : t.infosets = [⟨0, "D1", [0, 1]⟩, ⟨1, "D2", [0, 1]⟩, ⟨1, "D2", [0, 1]⟩])
    (h2 : t.moves = [([], .decision 0), ([0], .decision 1), ([1], .decision 2)])
    (h3 : t.payoffs = [([0, 0], [1, 0]), ([0, 1], [0, 2]), ([1, 0], [0, 2]), ([1, 1], [1, 0])]) :
    IsBehavior t opposite ∧ IsNash t opposite := by
  constructor
  · intro i s hs
    rw [h1] at hs
    match i with
    | 0 => simp only [List.getElem?_cons_zero, Option.some.injEq] at hs; subst hs; decide +kernel
    | 1 => simp only [List.getElem?_cons_succ, List.getElem?_cons_zero, Option.some.injEq] at hs; subst hs; decide +kernel
    | 2 => simp only [List.getElem?_cons_succ, List.getElem?_cons_zero, Option.some.injEq] at hs; subst hs; decide +kernel
    | i + 3 => simp at hs
  · intro j agent hj b' hb' hsame r r' hr hr'
    have two : ∀ i, ∀ s, t.infosets[i]? = some s → s.actions = [0, 1] → ∃ x y, b' i = [x, y] ∧ 0 ≤ x ∧ 0 ≤ y ∧ x + y = 1 := by
      intro i s hs ha
      obtain ⟨q1, q2, q3⟩ := hb' i s hs
      rw [ha] at q1
      match hbi : b' i, q1 with
      | [x, y], _ =>
        rw [hbi] at q2 q3
        exact ⟨x, y, rfl, q2 x (by simp), q2 y (by simp), by simpa using q3⟩
    obtain ⟨p, q, e0, _, _, _⟩ := two 0 ⟨0, "D1", [0, 1]⟩ (by rw [h1]; rfl) rfl
    obtain ⟨x, y, e1, hx, hy, hxy⟩ := two 1 ⟨1, "D2", [0, 1]⟩ (by rw [h1]; rfl) rfl
    obtain ⟨u, v, e2, hu, hv, huv⟩ := two 2 ⟨1, "D2", [0, 1]⟩ (by rw [h1]; rfl) rfl
    obtain ⟨v0, v1⟩ := value h2 h3 (b := opposite) (p := 1 / 2) (q := 1 / 2) (x := 0) (y := 1) (u := 1) (v := 0) rfl rfl rfl
    obtain ⟨w0, w1⟩ := value h2 h3 e0 e1 e2
    rw [h0] at hj
    match j with
    | 0 =>
      simp only [List.getElem?_cons_zero, Option.some.injEq] at hj
      subst hj
      have s1 := hsame 1 ⟨1, "D2", [0, 1]⟩ (by rw [h1]; rfl) (by decide)
      have s2 := hsame 2 ⟨1, "D2", [0, 1]⟩ (by rw [h1]; rfl) (by decide)
      rw [e1] at s1
      rw [e2] at s2
      have hx0 : x = 0 := by have := congrArg List.head? s1; simpa [opposite] using this
      have hv0 : v = 0 := by have := congrArg List.getLast? s2; simpa [opposite] using this
      rw [hr.unique v0, hr'.unique w0, hx0, hv0]
      norm_num
    | 1 =>
      simp only [List.getElem?_cons_succ, List.getElem?_cons_zero, Option.some.injEq] at hj
      subst hj
      have s0 := hsame 0 ⟨0, "D1", [0, 1]⟩ (by rw [h1]; rfl) (by decide)
      rw [e0] at s0
      have hp : p = 1 / 2 := by have := congrArg List.head? s0; simpa [opposite] using this
      have hq : q = 1 / 2 := by have := congrArg List.getLast? s0; simpa [opposite] using this
      rw [hr.unique v1, hr'.unique w1, hp, hq]
      linarith
    | j + 2 => simp at hj

end ExG

/-- The hypotheses are met, and there is an equilibrium: the second player, who sees the move of the first, always does the opposite. -/
theorem C76_example : ∃ nodes t, IsTree ExG.net ["D1", "D2"] [0, 1] nodes t ∧ Labelled ExG.net ["D1", "D2"] t ∧
    ExG.net.Distinct ["D1", "D2"] ∧ nodes.Nodup ∧ (∀ v ∈ nodes, v ∈ ExG.net.g.nodes) ∧ (∀ d ∈ ["D1", "D2"], d ∈ nodes) ∧
    IsBehavior t ExG.opposite ∧ IsNash t ExG.opposite ∧ t.Value ExG.opposite 1 [] 2 ∧ ¬ IsNash t (fun _ => [1, 0]) := by
  obtain ⟨hU, hT, t, ht, h1, h2, h3⟩ := C66_example
  generalize hx : macidToEfg (fun _ => 0) (fun _ => 0) id ExG.net ["D1", "D2"] [0, 1] = x at ht
  obtain ⟨net', y⟩ := x
  simp only at ht
  subst ht
  obtain ⟨_, nodes, k1, k2, k3, k4, k5⟩ := C66_game_tree hU hT.joined (fun l => .refl l) hx
  have hn := ExG.nash k4.players h1 h2 h3
  refine ⟨nodes, t, k4, k5, hT.distinct, k1, fun v hv => treeable_nodes hU.good hU.roles hT ((k2 v).1 hv), fun d hd => (k2 d).2 (Or.inl hd),
    hn.1, hn.2, ?_, ?_⟩
  · have := (ExG.value h2 h3 (b := ExG.opposite) (p := 1 / 2) (q := 1 / 2) (x := 0) (y := 1) (u := 1) (v := 0) rfl rfl rfl).2
    norm_num at this
    exact this
  · intro hN
    have v1 := (ExG.value h2 h3 (b := fun _ => [1, 0]) (p := 1) (q := 0) (x := 1) (y := 0) (u := 1) (v := 0) rfl rfl rfl).2
    have w1 := (ExG.value h2 h3 (b := fun i => if i = 0 then [1, 0] else [0, 1]) (p := 1) (q := 0) (x := 0) (y := 1) (u := 0) (v := 1) rfl rfl rfl).2
    have := hN 1 1 (by rw [k4.players]; rfl) (fun i => if i = 0 then [1, 0] else [0, 1]) (by
      intro i s hs
      rw [h1] at hs
      match i with
      | 0 => simp only [List.getElem?_cons_zero, Option.some.injEq] at hs; subst hs; decide +kernel
      | 1 => simp only [List.getElem?_cons_succ, List.getElem?_cons_zero, Option.some.injEq] at hs; subst hs; decide +kernel
      | 2 => simp only [List.getElem?_cons_succ, List.getElem?_cons_zero, Option.some.injEq] at hs; subst hs; decide +kernel
      | i + 3 => simp at hs) (by
      intro i s hs hp
      rw [h1] at hs
      match i with
      | 0 => rfl
      | 1 => simp only [List.getElem?_cons_succ, List.getElem?_cons_zero, Option.some.injEq] at hs; subst hs; exact absurd rfl hp
      | 2 => simp only [List.getElem?_cons_succ, List.getElem?_cons_zero, Option.some.injEq] at hs; subst hs; exact absurd rfl hp
      | i + 3 => simp at hs) _ _ v1 w1
    norm_num at this

end Verif

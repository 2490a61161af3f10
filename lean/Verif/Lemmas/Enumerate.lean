import Verif.Lemmas.Policies
import Verif.Lemmas.Backward
import Verif.Props.Relevance
import Verif.Spec.Policy

/-!
# The policies `optimal_pure_policies` compares
-/

namespace Verif

open Graph Relation Macid

theorem Graph.dconn_congr {g g' : Graph} (h : ∀ u v, g'.Edge u v ↔ g.Edge u v) (s t : Node) (Z : List Node) :
    g'.DConn s t Z ↔ g.DConn s t Z := by
  have e : g'.Edge = g.Edge := by
    funext u v
    exact propext (h u v)
  unfold DConn IsUndirPath Active Adj DescEq
  rw [e]

theorem Macid.rreach_congr {m m' : Macid} (hr : ∀ n, m'.role n = m.role n) (hn : ∀ v, v ∈ m'.g.nodes ↔ v ∈ m.g.nodes)
    (he : ∀ u v, m'.g.Edge u v ↔ m.g.Edge u v) (d v : Node) : m'.RReach d v ↔ m.RReach d v := by
  have e : m'.g.Edge = m.g.Edge := by
    funext u v
    exact propext (he u v)
  have hw : ∀ n u Z, (m'.g.withParent n v).DConn n u Z ↔ (m.g.withParent n v).DConn n u Z := by
    intro n u Z
    apply Graph.dconn_congr
    intro x y
    have := he x y
    simp only [Graph.Edge, Graph.withParent, List.mem_cons] at this ⊢
    rw [this]
  unfold RReach Desc
  simp only [hr, e, hw, hn]

namespace Net

/-- one round of the loop that gives irrelevant decisions a random rule -/
theorem mixIrrelevant_spec {net : Net} (hU : net.Usable) (hnames : NamesOk net.g) (pick : Pick) {ds : List Node}
    (hds : ∀ d ∈ ds, d ∈ net.m.decisions) {d : Node} (hd : d ∈ net.m.decisions) :
    ∃ net', mixIrrelevant pick ds net d = (net', .ok ()) ∧ net'.Usable ∧ OnlyRules net [d] net' ∧
      (net.undecided d = true ∧ d ∉ ds ∧ (∀ e ∈ ds, ¬ net.m.RReach e d) → net'.undecided d = false ∧
        ∀ a, net.InDom a → net'.kernel d a = 1 / ((net.dom d).length : Rat)) ∧
      (¬ (net.undecided d = true ∧ d ∉ ds ∧ (∀ e ∈ ds, ¬ net.m.RReach e d)) → net' = net) := by
  have hdn := hU.roles.nodes d (Or.inl hd)
  obtain ⟨c, hc, _⟩ := hU.good.complete d hdn
  have hplay : ∀ e ∈ ds, net.m.Playable e := by
    intro e he
    obtain ⟨a, ha⟩ := Dict.mem_keys.1 (hds e he)
    refine ⟨a, role_decision.2 ha, ?_⟩
    obtain ⟨l, hl, _⟩ := (hU.roles.dec.iff e a).1 ha
    exact (hU.staffed.both a).2 (Dict.mem_keys.2 ⟨l, hl⟩)
  obtain ⟨ad, had⟩ := Dict.mem_keys.1 hd
  obtain ⟨b, hb, hbi⟩ := (C18_is_s_reachable net.m hU.roles hnames pick ds d hplay).1 ⟨ad, role_decision.2 had⟩
  unfold mixIrrelevant getCpd
  rw [if_pos hdn, hc]
  simp only
  by_cases hk : c.kind = .decision
  · have hund : net.undecided d = true := by simp [undecided, hc, hk]
    rw [if_pos hk, hb]
    cases b with
    | true =>
      refine ⟨net, rfl, hU, .rfl' _ _, ?_, fun _ => rfl⟩
      rintro ⟨_, _, h⟩
      obtain ⟨e, he, hr⟩ := hbi.1 rfl
      exact absurd hr (h e he)
    | false =>
      simp only
      have hno : ∀ e ∈ ds, ¬ net.m.RReach e d := fun e he hr => by simpa using hbi.2 ⟨e, he, hr⟩
      by_cases hm : d ∈ ds
      · rw [if_pos hm]
        exact ⟨net, rfl, hU, .rfl' _ _, fun h => absurd hm h.2.1, fun _ => rfl⟩
      · rw [if_neg hm]
        obtain ⟨net', c', h1, h2, h3, h4, h5, h6⟩ := imputeRandom_usable hU hdn
        refine ⟨net', h1, h2, h3, fun _ => ⟨by simp [undecided, h4, h5], h6⟩, fun h => absurd ⟨hund, hm, hno⟩ h⟩
  · rw [if_neg hk]
    refine ⟨net, rfl, hU, .rfl' _ _, fun h => ?_, fun _ => rfl⟩
    have h1 := h.1
    simp [undecided, hc, hk] at h1

/-- the decisions that get the random rule -/
def Idle (net : Net) (ds : List Node) (d : Node) : Prop :=
  d ∈ net.m.decisions ∧ net.undecided d = true ∧ d ∉ ds ∧ ∀ e ∈ ds, ¬ net.m.RReach e d

theorem mixLoop_spec {pick : Pick} {ds : List Node} : ∀ (L : List Node) {net : Net}, net.Usable → NamesOk net.g →
    (∀ d ∈ ds, d ∈ net.m.decisions) → (∀ d ∈ L, d ∈ net.m.decisions) → L.Nodup →
    ∃ net', forNet (mixIrrelevant pick ds) net L = (net', .ok ()) ∧ net'.Usable ∧ OnlyRules net L net' ∧
      (∀ d ∈ L, Idle net ds d → net'.undecided d = false ∧ ∀ a, net.InDom a → net'.kernel d a = 1 / ((net.dom d).length : Rat)) ∧
      (∀ d, ¬ Idle net ds d → net'.cpds.get? d = net.cpds.get? d ∧ net'.rels.get? d = net.rels.get? d)
  | [], net, hU, _, _, _, _ => ⟨net, rfl, hU, .rfl' _ _, by simp, fun _ _ => ⟨rfl, rfl⟩⟩
  | d :: L, net, hU, hn, hds, hL, hnd => by
    obtain ⟨n1, h1, h2, h3, h4, h5⟩ := mixIrrelevant_spec hU hn pick hds (hL d (by simp))
    obtain ⟨hdL, hnd'⟩ := List.nodup_cons.1 hnd
    obtain ⟨n2, k1, k2, k3, k4, k5⟩ := mixLoop_spec L h2 (by rw [h3.g]; exact hn) (by rw [h3.m]; exact hds)
      (fun e he => by rw [h3.m]; exact hL e (by simp [he])) hnd'
    have hidle : ∀ e, e ≠ d → (Idle n1 ds e ↔ Idle net ds e) := by
      intro e he
      unfold Idle
      rw [h3.m, h3.undecided (by simpa using he)]
    refine ⟨n2, by simp only [forNet, h1]; exact k1, k2, h3.trans k3 (by simp) (fun w hw => by simp [hw]), ?_, ?_⟩
    · intro e he hi
      rcases List.mem_cons.1 he with rfl | he'
      · obtain ⟨q1, q2⟩ := h4 hi.2
        refine ⟨by rw [k3.undecided hdL]; exact q1, fun a ha => ?_⟩
        rw [k3.kernel hdL]
        exact q2 a ha
      · have hed : e ≠ d := by rintro rfl; exact hdL he'
        obtain ⟨q1, q2⟩ := k4 e he' ((hidle e hed).2 hi)
        refine ⟨q1, fun a ha => ?_⟩
        rw [q2 a ((h3.inDom a).2 ha), h3.dom]
    · intro e hi
      by_cases hed : e = d
      · subst hed
        have : n1 = net := h5 (fun h => hi ⟨hL e (by simp), h⟩)
        subst this
        exact k5 e hi
      · have := k5 e (fun h => hi ((hidle e hed).1 h))
        rw [this.1, this.2]
        exact ⟨h3.cpds e (by simpa using hed), h3.rels e (by simpa using hed)⟩

/-- an enumerated rule can be stored and is deterministic -/
theorem pureRules_spec {net : Net} (hU : net.Usable) {d : Node} (hd : d ∈ net.g.nodes) :
    ∃ rules, net.pureRules d = .ok rules ∧ pureDecisionRules d (net.g.parents d) net.domain net.card = .ok rules ∧ rules ≠ [] ∧
      ∀ k ∈ rules, k.var = d ∧ Accept net d k ∧ NormRule net d k ∧ k.kind ≠ .tabular ∧ k.kind ≠ .decision := by
  obtain ⟨c, hc, hdd⟩ := hU.good.complete d hd
  have hdom := dom_eq hdd
  obtain ⟨hn, hne⟩ := dom_props hU.good hd
  have hpn : ∀ p ∈ net.g.parents d, p ∈ net.g.nodes := fun p hp => (hU.good.wf.edgeNodes p d (Graph.mem_parents.1 hp)).1
  have hps : ∀ p ∈ net.g.parents d, ∃ l, net.domain.get? p = some l ∧ l.Nodup ∧ net.card p = .ok l.length := by
    intro p hp
    obtain ⟨cp, _, hp2⟩ := hU.good.complete p (hpn p hp)
    refine ⟨cp.domain, hp2, by rw [← dom_eq hp2]; exact (dom_props hU.good (hpn p hp)).1, ?_⟩
    rw [card_eq_cardOf hU.good (hpn p hp)]
    simp [cardOf, hp2]
  obtain ⟨rules, h1, h2, h3, h4⟩ := C27_pure_decision_rules (v := d) (ps := net.g.parents d) (dom := net.domain) (card := net.card)
    (domain := net.dom d) (Graph.nodup_parents hU.good.wf.edgesNodup d) (by rw [hdom]; exact hdd) hn hne hps
  refine ⟨rules, ?_, h1, ?_, ?_⟩
  · unfold pureRules
    rw [Dict.get_ok.2 hdd]
    simp only
    rw [if_pos hd, h1]
  · intro e
    rw [e, List.length_nil] at h2
    have : (net.dom d).length ≠ 0 := fun h0 => hne (List.length_eq_zero_iff.1 h0)
    exact this (Nat.pow_eq_zero.1 h2.symm).1
  · intro k hk
    obtain ⟨q1, q2, q3, φ, hφ, hpl⟩ := h3 k hk
    have hmk : ∃ f, mkCpd .stochastic d f (some (net.dom d)) (net.g.parents d) net.domain net.card = .ok k := by
      unfold pureDecisionRules at h1
      rw [hdd] at h1
      simp only at h1
      split at h1
      · simp at h1
      · split at h1
        · simp at h1
        · obtain ⟨t, _, ht⟩ := mapPy_mem' h1 hk
          exact ⟨_, by rw [hdom]; exact ht⟩
    obtain ⟨f, hmk⟩ := hmk
    have hmk' : mkCpd .stochastic d f (some (net.dom d)) (net.g.parents d) net.domain (cardOf net.domain) = .ok k := by
      rw [← hmk]
      exact mkCpd_congr (fun _ _ => rfl) (fun p hp => (card_eq_cardOf hU.good (hpn p hp)).symm)
    have hkind := (mkCpd_fields hmk').2.2.1
    refine ⟨q1, accept_mkCpd hU.good hd hmk' q2, ?_, by rw [hkind]; simp, by rw [hkind]; simp⟩
    intro a ha
    have hi := inst_of_inDom hU.good ha d
    rw [q3]
    have hp : ∀ x ∈ net.dom d, k.prob net.domain ((net.g.parents d).map a) x = some (if x = φ ((net.g.parents d).map a) then 1 else 0) :=
      fun x hx => hpl _ (by rw [q3]; exact hi) x (by rw [q2]; exact hx)
    constructor
    · rw [hp _ (ha d hd)]
      simp only [Option.getD_some]
      split <;> norm_num
    · rw [List.map_congr_left (fun x hx => by rw [hp x hx])]
      simp only [Option.getD_some]
      exact sum_indicator hn (hφ _ hi)

theorem pureRules_nodup {net : Net} (hU : net.Usable) {d : Node} (hd : d ∈ net.g.nodes) {rules : List Cpd}
    (h : pureDecisionRules d (net.g.parents d) net.domain net.card = .ok rules) : rules.Nodup := by
  obtain ⟨c, hc, hdd⟩ := hU.good.complete d hd
  have hdom := dom_eq hdd
  obtain ⟨hn, hne⟩ := dom_props hU.good hd
  have hpn : ∀ p ∈ net.g.parents d, p ∈ net.g.nodes := fun p hp => (hU.good.wf.edgeNodes p d (Graph.mem_parents.1 hp)).1
  obtain ⟨rules', h1, _, h3, h4⟩ := C27_pure_decision_rules (v := d) (ps := net.g.parents d) (dom := net.domain) (card := net.card)
    (domain := net.dom d) (Graph.nodup_parents hU.good.wf.edgesNodup d) (by rw [hdom]; exact hdd) hn hne (by
      intro p hp
      obtain ⟨cp, _, hp2⟩ := hU.good.complete p (hpn p hp)
      refine ⟨cp.domain, hp2, by rw [← dom_eq hp2]; exact (dom_props hU.good (hpn p hp)).1, ?_⟩
      rw [card_eq_cardOf hU.good (hpn p hp)]
      simp [cardOf, hp2])
  rw [h] at h1
  cases h1
  rw [List.nodup_iff_injective_getElem]
  intro i j hij
  obtain ⟨_, _, _, φ, hφ, hpl⟩ := h3 rules[i] (List.getElem_mem _)
  obtain ⟨k, c, _, _, hu⟩ := h4 φ hφ
  have h1 := hu i rules[i] (List.getElem?_eq_getElem i.2) hpl
  have h2 := hu j rules[j] (List.getElem?_eq_getElem j.2) (by
    have e : rules[i] = rules[j] := hij
    rw [← e]; exact hpl)
  exact Fin.ext (by rw [h1, h2])

/-- every enumerated policy can be stored -/
theorem purePolicies_ok {net : Net} (hU : net.Usable) {ds : List Node} (hnd : ds.Nodup) (hds : ∀ d ∈ ds, d ∈ net.g.nodes) :
    ∃ pols, purePolicies net.pureRules ds = .ok pols ∧
      purePolicies (fun d => pureDecisionRules d (net.g.parents d) net.domain net.card) ds = .ok pols ∧ pols ≠ [] ∧
      ∀ pol ∈ pols, PolicyOk net pol ∧ pol.map (·.var) = ds ∧ ∀ k ∈ pol, k.kind ≠ .tabular ∧ k.kind ≠ .decision := by
  obtain ⟨rs, hrs, hF⟩ := mapPy_ok (f := net.pureRules) (xs := ds) (fun d hd => by
    obtain ⟨r, h, _⟩ := pureRules_spec hU (hds d hd)
    exact ⟨r, h⟩)
  have hp : purePolicies net.pureRules ds = .ok (product rs) := by simp [purePolicies, hrs]
  refine ⟨product rs, hp, ?_, ?_, ?_⟩
  · rw [← hp]
    unfold purePolicies
    rw [mapPy_congr (f := net.pureRules) (f' := fun d => pureDecisionRules d (net.g.parents d) net.domain net.card) (fun d hd => by
      obtain ⟨r, h1, h2, _⟩ := pureRules_spec hU (hds d hd)
      rw [h1, h2])]
  · clear hrs hp
    induction hF with
    | nil => simp [product]
    | @cons d r ds rs h _ ih =>
      obtain ⟨r', e1, _, e3, _⟩ := pureRules_spec hU (hds d (by simp))
      rw [h] at e1
      cases e1
      obtain ⟨x, hx⟩ := List.exists_mem_of_ne_nil _ e3
      have hne := ih (List.nodup_cons.1 hnd).2 (fun e he => hds e (by simp [he]))
      obtain ⟨y, hy⟩ := List.exists_mem_of_ne_nil _ hne
      apply List.ne_nil_of_mem (a := x :: y)
      simp only [product, List.mem_flatMap, List.mem_map]
      exact ⟨x, hx, y, hy, rfl⟩
  · intro pol hpol
    have hall := ((C29_pure_policies hp).1 pol).1 hpol
    have hv : pol.map (·.var) = ds := by
      clear hpol hp hrs hF hnd
      induction hall with
      | nil => rfl
      | @cons d k ds pol h _ ih =>
        obtain ⟨r, e1, hk⟩ := h
        obtain ⟨r', e2, _, _, e3⟩ := pureRules_spec hU (hds d (by simp))
        rw [e1] at e2
        cases e2
        rw [List.map_cons, (e3 k hk).1, ih (fun e he => hds e (by simp [he]))]
    have hk : ∀ k ∈ pol, k.var ∈ ds ∧ Accept net k.var k ∧ NormRule net k.var k ∧ k.kind ≠ .tabular ∧ k.kind ≠ .decision := by
      clear hpol hp hrs hF hnd hv
      induction hall with
      | nil => simp
      | @cons d k ds pol h _ ih =>
        intro k' hk'
        rcases List.mem_cons.1 hk' with rfl | hk'
        · obtain ⟨r, e1, hk⟩ := h
          obtain ⟨r', e2, _, _, e3⟩ := pureRules_spec hU (hds d (by simp))
          rw [e1] at e2
          cases e2
          obtain ⟨q1, q2, q3, q4, q5⟩ := e3 k' hk
          rw [q1]
          exact ⟨by simp, q2, q3, q4, q5⟩
        · obtain ⟨q1, q2⟩ := ih (fun e he => hds e (by simp [he])) k' hk'
          exact ⟨by simp [q1], q2⟩
    exact ⟨⟨by rw [hv]; exact hnd, fun k hkm => ⟨hds _ (hk k hkm).1, (hk k hkm).2.1, (hk k hkm).2.2.1⟩⟩, hv, fun k hkm => (hk k hkm).2.2.2⟩

theorem exists_max {l : List Outcome} (hne : l ≠ []) (f : Outcome → Rat) : ∃ x ∈ l, ∀ y ∈ l, f y ≤ f x := by
  induction l with
  | nil => exact absurd rfl hne
  | cons x l ih =>
    by_cases h : l = []
    · subst h
      exact ⟨x, by simp, by simp⟩
    · obtain ⟨y, hy, hmax⟩ := ih h
      rcases le_total (f y) (f x) with hle | hle
      · refine ⟨x, by simp, fun z hz => ?_⟩
        rcases List.mem_cons.1 hz with rfl | hz
        · exact le_refl _
        · exact le_trans (hmax z hz) hle
      · refine ⟨y, by simp [hy], fun z hz => ?_⟩
        rcases List.mem_cons.1 hz with rfl | hz
        · exact hle
        · exact hmax z hz

/-- there is a deterministic rule that is at least as good as the present one -/
theorem pure_response {net : Net} (hU : net.Usable) {d : Node} {agent : Agent} (hrole : net.m.role d = .decision agent) :
    ∃ net' φ, net'.Usable ∧ OnlyRules net [d] net' ∧ net'.undecided d = false ∧ net'.Pure d φ ∧
      (∀ vals, Instantiation (net.g.parents d) net.domain vals → φ vals ∈ net.dom d) ∧ net.EU agent ≤ net'.EU agent := by
  have hd : d ∈ net.g.nodes := hU.roles.nodes d (Or.inl (Dict.mem_keys.2 ⟨agent, role_decision.1 hrole⟩))
  have hne := (dom_props hU.good hd).2
  have hn := Graph.nodup_parents hU.good.wf.edgesNodup d
  choose f hf1 hf2 using fun z : Assign => exists_max hne
    (fun x => net.bn.act d (net.g.parents d) z x (fun a => ((descUtils net agent d).map a).sum))
  let zOf : List Outcome → Assign := fun vals p => (pvOf (net.g.parents d) vals p).getD 0
  have hz : ∀ z : Assign, ∀ p ∈ net.g.parents d, zOf ((net.g.parents d).map z) p = z p := by
    intro z p hp
    simp only [zOf, pvOf_map, restrict, hp, if_true, Option.getD_some]
  have hdZ : d ∉ net.g.parents d := fun h => hU.good.wf.acyclic d (.single (Graph.mem_parents.1 h))
  let φ : List Outcome → Outcome := fun vals => f (zOf vals)
  obtain ⟨c, net', h1, h2, h3, h4, h5, h6, h7⟩ := set_pure hU hd (φ := φ)
    (f := fun pv => .ok (.val (φ ((net.g.parents d).map (fun p => (pv p).getD 0))))) (fun vals hv => by
      obtain ⟨a, rfl, _⟩ := exists_assign hn hv
      refine ⟨?_, hf1 _⟩
      rw [List.map_congr_left (g := a) (fun p hp => by simp [pvOf_map, restrict, hp])])
  refine ⟨net', φ, h3, h4, by simp [undecided, h5, h6], h7, fun vals _ => hf1 _, ?_⟩
  refine EU_le_of_act hU hrole hd h3 h4 h7 (fun vals _ => hf1 _) ?_ hU (.rfl' _ _)
  intro z hzd x hx
  have := hf2 (zOf ((net.g.parents d).map z)) x hx
  rw [BN.act_congr hdZ (hz z), BN.act_congr hdZ (hz z)] at this
  exact this

/-- deterministic policies suffice -/
theorem pure_suffices {agent : Agent} : ∀ (ds : List Node) {net : Net}, net.Usable → (∀ d ∈ ds, net.m.role d = .decision agent) → ds.Nodup →
    ∃ (net' : Net) (φ : Node → List Outcome → Outcome), net'.Usable ∧ OnlyRules net ds net' ∧
      (∀ d ∈ ds, net'.Pure d (φ d) ∧ ∀ vals, Instantiation (net.g.parents d) net.domain vals → φ d vals ∈ net.dom d) ∧
      net.EU agent ≤ net'.EU agent
  | [], net, hU, _, _ => ⟨net, fun _ _ => 0, hU, .rfl' _ _, by simp, le_refl _⟩
  | d :: ds, net, hU, hr, hnd => by
    obtain ⟨hdd, hnd'⟩ := List.nodup_cons.1 hnd
    obtain ⟨n1, ψ, h1, h2, h3, h4, h5, h6⟩ := pure_response hU (hr d (by simp))
    obtain ⟨n2, φ, k1, k2, k3, k4⟩ := pure_suffices ds h1 (fun e he => by rw [h2.m]; exact hr e (by simp [he])) hnd'
    refine ⟨n2, fun e => if e = d then ψ else φ e, k1, h2.trans k2 (by simp) (fun w hw => by simp [hw]), ?_, le_trans h6 k4⟩
    intro e he
    rcases List.mem_cons.1 he with rfl | he'
    · simp only [if_true]
      exact ⟨k2.pure hdd h4, h5⟩
    · have hed : e ≠ d := by rintro rfl; exact hdd he'
      simp only [hed, if_false]
      obtain ⟨q1, q2⟩ := k3 e he'
      rw [h2.g, h2.domain, h2.dom] at q2
      exact ⟨q1, q2⟩

theorem EU_same {n n' : Net} (hU : n.Usable) (hU' : n'.Usable) (hm : n'.m = n.m) (hd : n'.dom = n.dom)
    (hk : ∀ v ∈ n.g.nodes, ∀ a, n.InDom a → n'.kernel v a = n.kernel v a) (agent : Agent) : n'.EU agent = n.EU agent := by
  rw [EU_eq hU, EU_eq hU', hm]
  exact BN.W_same (congrArg Macid.g hm) hd hk _

/-- no policy is better than all enumerated ones -/
theorem enumerated_suffices {base : Net} (hU : base.Usable) {agent : Agent} {ds : List Node} (hnd : ds.Nodup)
    (hr : ∀ d ∈ ds, base.m.role d = .decision agent) {pols : List (List Cpd)}
    (hp : purePolicies base.pureRules ds = .ok pols) {net : Net} (hn : net.Usable) (hO : OnlyRules base ds net) :
    ∃ pol ∈ pols, net.EU agent ≤ base.polU agent pol := by
  have hds : ∀ d ∈ ds, d ∈ base.g.nodes := fun d hd =>
    hU.roles.nodes d (Or.inl (Dict.mem_keys.2 ⟨agent, role_decision.1 (hr d hd)⟩))
  obtain ⟨n', φ, h1, h2, h3, h4⟩ := pure_suffices ds hn (fun d hd => by rw [hO.m]; exact hr d hd) hnd
  rw [hO.g, hO.domain, hO.dom] at h3
  obtain ⟨pols', e1, e2, e3, e4⟩ := purePolicies_ok hU hnd hds
  rw [hp] at e1
  cases e1
  obtain ⟨pols'', q1, q2⟩ := C29_joint_strategy_exactly_once (pa := fun d => base.g.parents d) (dom := base.domain) (card := base.card) (decs := ds)
    (fun d hd => by
      obtain ⟨c, _, hc⟩ := hU.good.complete d (hds d hd)
      refine ⟨Graph.nodup_parents hU.good.wf.edgesNodup d, ⟨c.domain, hc, ?_⟩, ?_⟩
      · rw [← dom_eq hc]
        exact dom_props hU.good (hds d hd)
      · intro p hp
        have hpn := (hU.good.wf.edgeNodes p d (Graph.mem_parents.1 hp)).1
        obtain ⟨cp, _, hcp⟩ := hU.good.complete p hpn
        refine ⟨cp.domain, hcp, by rw [← dom_eq hcp]; exact (dom_props hU.good hpn).1, ?_⟩
        rw [card_eq_cardOf hU.good hpn]
        simp [cardOf, hcp])
  rw [e2] at q1
  cases q1
  obtain ⟨i, pol, hi, hpl, _⟩ := q2 φ (fun d hd vals hv => by
    have := (h3 d hd).2 vals hv
    unfold Net.dom at this
    exact this)
  have hmem := List.mem_of_getElem? hi
  refine ⟨pol, hmem, le_trans h4 (le_of_eq ?_)⟩
  obtain ⟨hok, hvar, _⟩ := e4 pol hmem
  obtain ⟨b', k1, k2, k3, k4⟩ := addPolicy_usable pol hU hok
  unfold polU
  rw [k1]
  have hO' : OnlyRules base ds n' := hO.trans h2 (fun _ h => h) (fun _ h => h)
  refine EU_same k2 h1 (by rw [hO'.m, k3.m]) (by rw [hO'.dom, k3.dom]) ?_ agent
  intro v hv a ha
  have ha0 : base.InDom a := (k3.inDom a).1 ha
  by_cases hvd : v ∈ ds
  · rw [(h3 v hvd).1 a ((hO'.inDom a).2 ha0), hO'.g]
    have hF : ∀ (ds : List Node) (pol : List Cpd), List.Forall₂ (fun d c => Plays c base.domain (φ d)) ds pol → pol.map (·.var) = ds →
        v ∈ ds → ∃ k ∈ pol, k.var = v ∧ Plays k base.domain (φ v) := by
      intro ds pol hF
      induction hF with
      | nil => intro _ h; simp at h
      | @cons d k ds pol hk _ ih =>
        intro hm hv
        simp only [List.map_cons, List.cons.injEq] at hm
        rcases List.mem_cons.1 hv with rfl | hv
        · exact ⟨k, by simp, hm.1, hk⟩
        · obtain ⟨k', hk', e⟩ := ih hm.2 hv
          exact ⟨k', by simp [hk'], e⟩
    obtain ⟨k, hk, rfl, hplay⟩ := hF ds pol hpl hvar hvd
    unfold Net.kernel
    rw [k4 k hk, k3.domain]
    simp only
    have hfit := (hok.2 k hk).2.1.fits
    have hi : Instantiation k.evidence base.domain (k.evidence.map a) := by
      unfold Instantiation
      rw [List.forall₂_map_right_iff, List.forall₂_same]
      intro p hp
      have hpn := (hU.good.wf.edgeNodes p k.var ((hfit.parents p).1 hp)).1
      obtain ⟨cp, _, hcp⟩ := hU.good.complete p hpn
      exact ⟨cp.domain, hcp, by rw [← dom_eq hcp]; exact ha0 p hpn⟩
    rw [hplay _ hi _ (by rw [(hok.2 k hk).2.1.dom]; exact ha0 _ (hok.2 k hk).1), Option.getD_some]
    have hev : k.evidence = base.g.parents k.var := by
      obtain ⟨r, hr1, hr2, _⟩ := pureRules_spec hU (hok.2 k hk).1
      have hall := ((C29_pure_policies e2).1 pol).1 hmem
      have : ∀ (ds : List Node) (pol : List Cpd), List.Forall₂ (fun d c => ∃ rs, pureDecisionRules d (base.g.parents d) base.domain base.card = .ok rs ∧ c ∈ rs) ds pol →
          pol.map (·.var) = ds → k ∈ pol → ∃ rs, pureDecisionRules k.var (base.g.parents k.var) base.domain base.card = .ok rs ∧ k ∈ rs := by
        intro ds pol hF
        induction hF with
        | nil => intro _ h; simp at h
        | @cons d k' ds pol hk _ ih =>
          intro hm hv
          simp only [List.map_cons, List.cons.injEq] at hm
          rcases List.mem_cons.1 hv with rfl | hv
          · rw [hm.1]; exact hk
          · exact ih hm.2 hv
      obtain ⟨rs, e5, e6⟩ := this ds pol hall hvar hk
      unfold pureDecisionRules at e5
      split at e5
      · simp at e5
      · split at e5
        · simp at e5
        · split at e5
          · simp at e5
          · obtain ⟨t, _, ht⟩ := mapPy_mem' e5 e6
            exact (mkCpd_fields ht).2.1
    rw [hev]
  · rw [hO'.kernel hvd, k3.kernel (by rw [hvar]; exact hvd)]

end Net
end Verif

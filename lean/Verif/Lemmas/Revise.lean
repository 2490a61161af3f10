import Verif.Lemmas.MaxEU
import Verif.Lemmas.Twin
import Verif.Lemmas.PolicyRuns

/-!
# Networks some of whose decisions are out of date
-/

namespace Verif

open Graph Relation Macid

namespace Net

/-- sound, but the CPDs of the nodes in `S` need not suit the graph -/
structure Almost (S : Node → Prop) (net : Net) : Prop where
  wf : net.g.WF
  keys : net.rels.keys.Nodup
  relNodes : ∀ v ∈ net.rels.keys, v ∈ net.g.nodes
  complete : net.Complete
  doms : ∀ v ∈ net.g.nodes, (net.dom v).Nodup ∧ net.dom v ≠ []
  reflects : ∀ v c, ¬ S v → net.cpds.get? v = some c → net.domain.get? v = some c.domain ∧
    ∃ r, net.rels.get? v = some r ∧ computed net.g net.domain v r = .ok c
  fits : ∀ v c, ¬ S v → net.cpds.get? v = some c → c.Fits net.g net.domain v
  cpdOk : ∀ v c, ¬ S v → net.cpds.get? v = some c → c.WellFormed
  tabs : ∀ v c, ¬ S v → net.rels.get? v = some (.tab c) → c.kind ≠ .tabular →
    ∃ c', mkCpd c.kind c.var c.func c.force (net.g.parents v) net.domain (cardOf net.domain) = .ok c' ∧ net.SameCpd c c'
  normalised : ∀ v ∈ net.g.nodes, ¬ S v → ∀ a, net.InDom a → 0 ≤ net.kernel v a ∧
    ((net.dom v).map (fun x => net.kernel v (Assign.upd a v x))).sum = 1

theorem Almost.good {S : Node → Prop} {net : Net} (h : Almost S net) (hS : ∀ v, ¬ S v) : net.Good ∧ net.Normalised :=
  ⟨⟨h.wf, h.keys, h.relNodes, fun v c => h.reflects v c (hS v), h.complete, fun v c => h.fits v c (hS v), fun v c => h.cpdOk v c (hS v),
    fun v c => h.tabs v c (hS v)⟩, fun v hv => h.normalised v hv (hS v)⟩

theorem Almost.card {S : Node → Prop} {net : Net} (h : Almost S net) {p : Node} (hp : p ∈ net.g.nodes) : net.card p = cardOf net.domain p := by
  obtain ⟨c, h1, h2⟩ := h.complete p hp
  simp [Net.card, getCpd, hp, h1, cardOf, h2]

/-- storing a rule object for a node brings it up to date -/
theorem Almost.set {S : Node → Prop} {net : Net} (hG : Almost S net) {v : Node} (hv : v ∈ net.g.nodes) {kind : CpdKind} {f : Func}
    {force : Option (List Outcome)} {c : Cpd}
    (hmk : mkCpd kind v f force (net.g.parents v) net.domain (cardOf net.domain) = .ok c) (hd : c.domain = net.dom v)
    (hn : ∀ a, net.InDom a → 0 ≤ (c.prob net.domain ((net.g.parents v).map a) (a v)).getD 0 ∧
      ((net.dom v).map (fun x => (c.prob net.domain ((net.g.parents v).map a) x).getD 0)).sum = 1) :
    ∃ net', net.set v (.tab c) = (net', .ok ()) ∧ Almost (fun w => S w ∧ w ≠ v) net' ∧ OnlyRules net [v] net' ∧ net'.cpds.get? v = some c := by
  obtain ⟨f1, f2, f3, f4, f5, f6⟩ := mkCpd_fields hmk
  have hf := mkCpd_fits hmk
  have hw := mkCpd_wf hmk (Graph.nodup_parents hG.wf.edgesNodup v) (hd ▸ (hG.doms v hv).2)
  obtain ⟨c0, hc0, hd0⟩ := hG.complete v hv
  have hdv : net.domain.get? v = some c.domain := by rw [hd, dom_eq hd0, hd0]
  have hset : net.set v (.tab c) = (put net v (.tab c) c, .ok ()) := by
    unfold Net.set
    rcases setItem_cases net.g.nodes.length net v (.tab c) with ⟨h1, _⟩ | ⟨e, _, h1, _⟩ | ⟨c', h1, h2⟩
    · simp [toCpd] at h1
    · simp [toCpd] at h1
    · simp only [toCpd, Except.ok.injEq] at h1
      subst h1
      have hall : ∀ x ∈ c.var :: c.evidence, x ∈ net.g.nodes := by
        intro x hx
        rcases List.mem_cons.1 hx with rfl | hx
        · rw [hf.var]; exact hv
        · exact (hG.wf.edgeNodes x v ((hf.parents x).1 hx)).1
      rcases h2 with ⟨h, _⟩ | ⟨_, h, _⟩ | ⟨_, _, _, _, h⟩ | ⟨_, _, h, _⟩
      · exact absurd hall h
      · exact absurd hf.var h
      · exact h
      · exact absurd ⟨hw.nonempty, hdv⟩ h
  have hdom : (put net v (.tab c) c).domain = net.domain := Dict.set_same hdv
  have hO : OnlyRules net [v] (put net v (.tab c) c) := by
    refine ⟨rfl, rfl, hdom, fun w hw => ?_, fun w hw => ?_⟩
    · rw [put_cpds, if_neg (by simpa using hw)]
    · rw [put_rels, if_neg (by simpa using hw)]
  refine ⟨_, hset, ?_, hO, by rw [put_cpds]; simp⟩
  have hcase : ∀ w c', (put net v (.tab c) c).cpds.get? w = some c' → (w = v ∧ c' = c) ∨ (w ≠ v ∧ net.cpds.get? w = some c') := by
    intro w c' h
    rw [put_cpds] at h
    split at h
    · rename_i e; left; exact ⟨e, by simpa using h.symm⟩
    · rename_i e; right; exact ⟨e, h⟩
  have hSne : ∀ w, ¬ (S w ∧ w ≠ v) → w ≠ v → ¬ S w := fun w h1 h2 h3 => h1 ⟨h3, h2⟩
  refine ⟨hG.wf, nodup_stage hG.keys, fun w hw => ?_, fun w hw => ?_, fun w hw => ?_, fun w c' hS h => ?_, fun w c' hS h => ?_,
    fun w c' hS h => ?_, fun w c' hS h hk => ?_, fun w hwn hS a ha => ?_⟩
  · obtain ⟨x, hx⟩ := Dict.mem_keys.1 hw
    rw [put_rels] at hx
    split at hx
    · rename_i e; exact e ▸ hv
    · exact hG.relNodes w (Dict.mem_keys.2 ⟨x, hx⟩)
  · rw [hdom, put_cpds]
    by_cases e : w = v
    · subst e; exact ⟨c, by simp, hdv⟩
    · rw [if_neg e]; exact hG.complete w hw
  · rw [hO.dom]; exact hG.doms w hw
  · rw [hdom, put_rels]
    rcases hcase w c' h with ⟨rfl, rfl⟩ | ⟨hne, h⟩
    · exact ⟨hdv, .tab c', by simp, rfl⟩
    · rw [if_neg hne]
      exact hG.reflects w c' (hSne w hS hne) h
  · rw [hdom]
    rcases hcase w c' h with ⟨rfl, rfl⟩ | ⟨hne, h⟩
    · exact hf
    · exact hG.fits w c' (hSne w hS hne) h
  · rcases hcase w c' h with ⟨rfl, rfl⟩ | ⟨hne, h⟩
    · exact hw
    · exact hG.cpdOk w c' (hSne w hS hne) h
  · rw [put_rels] at h
    have hs : ∀ c1 c2, net.SameCpd c1 c2 → (put net v (.tab c) c).SameCpd c1 c2 := by
      intro c1 c2 h12
      refine ⟨h12.1, fun a ha x => ?_⟩
      rw [hdom]
      exact h12.2 a ((hO.inDom a).1 ha) x
    rw [hdom]
    split at h
    · rename_i e
      subst e
      simp only [Option.some.injEq, Rel.tab.injEq] at h
      subst h
      rw [f1, f3, f4, f5]
      exact ⟨c, hmk, rfl, fun _ _ _ => rfl⟩
    · rename_i e
      obtain ⟨c2, h1, h2⟩ := hG.tabs w c' (hSne w hS e) h hk
      exact ⟨c2, h1, hs _ _ h2⟩
  · have ha' := (hO.inDom a).1 ha
    by_cases e : w = v
    · subst e
      have hk : ∀ b, (put net w (.tab c) c).kernel w b = (c.prob net.domain ((net.g.parents w).map b) (b w)).getD 0 :=
        fun b => kernel_rule hO (by rw [put_cpds]; simp) hmk b
      rw [hO.dom, hk]
      refine ⟨(hn a ha').1, ?_⟩
      rw [← (hn a ha').2]
      congr 1
      apply List.map_congr_left
      intro x _
      rw [hk]
      have : (net.g.parents w).map (Assign.upd a w x) = (net.g.parents w).map a := by
        apply List.map_congr_left
        intro p hp
        have : p ≠ w := fun e => hG.wf.acyclic w (.single (by have := Graph.mem_parents.1 hp; rwa [e] at this))
        simp [Assign.upd, this]
      rw [this]
      simp [Assign.upd]
    · have : w ∉ [v] := by simpa using e
      simp only [hO.kernel this, hO.dom]
      exact hG.normalised w hwn (hSne w hS e) a ha'

/-- the decision has the rule `impute_random_decision` gives it -/
def Rolled (net : Net) (d : Node) : Prop :=
  ∃ c, net.cpds.get? d = some c ∧ c.kind = .stochastic ∧ ∀ a, net.InDom a → net.kernel d a = 1 / ((net.dom d).length : Rat)

theorem OnlyRules.rolled {n1 n2 : Net} {ds : List Node} (h : OnlyRules n1 ds n2) {d : Node} (hd : d ∉ ds) (hr : n1.Rolled d) : n2.Rolled d := by
  obtain ⟨c, h1, h2, h3⟩ := hr
  refine ⟨c, by rw [h.cpds d hd]; exact h1, h2, fun a ha => ?_⟩
  rw [h.kernel hd, h.dom]
  exact h3 a ((h.inDom a).1 ha)

theorem Almost.imputeRandom {S : Node → Prop} {net : Net} (hG : Almost S net) {d : Node} (hd : d ∈ net.g.nodes) :
    ∃ net', net.imputeRandom d = (net', .ok ()) ∧ Almost (fun w => S w ∧ w ≠ d) net' ∧ OnlyRules net [d] net' ∧ net'.Rolled d := by
  obtain ⟨c0, hc0, hd0⟩ := hG.complete d hd
  have hdom := dom_eq hd0
  obtain ⟨hn, hne⟩ := hG.doms d hd
  obtain ⟨u1, u2, u3, u4⟩ := C26_discrete_uniform hn hne
  have hpar : ∀ p ∈ net.g.parents d, p ∈ net.g.nodes := fun p hp => (hG.wf.edgeNodes p d (Graph.mem_parents.1 hp)).1
  obtain ⟨c, h1, h2, h3⟩ := mkCpd_dist (kind := .stochastic) (v := d) (f := randomFunc (net.dom d)) (domain := net.dom d)
    (ps := net.g.parents d) (dom := net.domain) (card := cardOf net.domain) (δ := fun _ _ => 1 / ((net.dom d).length : Rat))
    hn hne (fun p hp => by
      obtain ⟨cp, _, h⟩ := hG.complete p (hpar p hp)
      exact ⟨cp.domain, h, by simp [cardOf, h]⟩) (fun vals _ => ⟨discreteUniform (net.dom d), rfl, u1, fun x hx => (u2 x).1 hx,
      fun x hx => by rw [u3 x hx]; rfl⟩) (fun _ _ _ _ => by positivity) (fun _ _ => sum_uniform hne)
  have hinst : ∀ a, net.InDom a → Instantiation (net.g.parents d) net.domain ((net.g.parents d).map a) := fun a ha => by
    unfold Instantiation
    rw [List.forall₂_map_right_iff, List.forall₂_same]
    intro p hp
    obtain ⟨cp, _, h⟩ := hG.complete p (hpar p hp)
    exact ⟨cp.domain, h, by rw [← dom_eq h]; exact ha p (hpar p hp)⟩
  obtain ⟨net', k1, k2, k3, k4⟩ := hG.set hd h1 h2 (fun a ha => by
    rw [h3 _ (hinst a ha) _ (ha d hd)]
    refine ⟨by simp, ?_⟩
    rw [List.map_congr_left (fun x hx => by rw [h3 _ (hinst a ha) x hx]), Option.getD_some, sum_uniform hne])
  refine ⟨net', ?_, k2, k3, c, k4, (mkCpd_fields h1).2.2.1, fun a ha => by
    have ha' := (k3.inDom a).1 ha
    rw [kernel_rule k3 k4 h1, h3 _ (hinst a ha') _ (ha' d hd), k3.dom]
    rfl⟩
  unfold Net.imputeRandom
  rw [hd0]
  simp only
  rw [← hdom]
  have : net.newRule d (randomFunc (net.dom d)) (net.dom d) = .ok c := by
    unfold newRule
    rw [if_pos hd, ← h1]
    exact mkCpd_congr (fun _ _ => rfl) (fun p hp => hG.card (hpar p hp))
  rw [this]
  exact k1

theorem Almost.mono {S T : Node → Prop} {net : Net} (h : Almost S net) (hST : ∀ v, S v → T v) : Almost T net :=
  ⟨h.wf, h.keys, h.relNodes, h.complete, h.doms, fun v c hv => h.reflects v c (fun q => hv (hST v q)),
    fun v c hv => h.fits v c (fun q => hv (hST v q)), fun v c hv => h.cpdOk v c (fun q => hv (hST v q)),
    fun v c hv => h.tabs v c (fun q => hv (hST v q)), fun v hn hv => h.normalised v hn (fun q => hv (hST v q))⟩

theorem Almost.imputeAll : ∀ (ds : List Node) {S : Node → Prop} {net : Net}, Almost S net → (∀ d ∈ ds, d ∈ net.g.nodes) →
    ∃ net', forNet Net.imputeRandom net ds = (net', .ok ()) ∧ Almost (fun w => S w ∧ w ∉ ds) net' ∧ OnlyRules net ds net' ∧ ∀ d ∈ ds, net'.Rolled d
  | [], S, net, h, _ => ⟨net, rfl, h.mono (fun v q => ⟨q, by simp⟩), .rfl' _ _, by simp⟩
  | d :: ds, S, net, h, hd => by
    obtain ⟨n1, h1, h2, h3, h4⟩ := h.imputeRandom (hd d (by simp))
    obtain ⟨n2, k1, k2, k3, k4⟩ := Almost.imputeAll ds h2 (fun e he => by rw [h3.g]; exact hd e (by simp [he]))
    refine ⟨n2, by simp only [forNet, h1]; exact k1, k2.mono (fun v q => ⟨q.1.1, by simp [q.1.2, q.2]⟩),
      h3.trans k3 (by simp) (fun w hw => by simp [hw]), fun e he => ?_⟩
    by_cases q : e ∈ ds
    · exact k4 e q
    · rcases List.mem_cons.1 he with rfl | he
      · exact k3.rolled q h4
      · exact absurd he q

/-- After `impute_random_policy` everything is up to date. -/
theorem Almost.imputeMixed {S : Node → Prop} {net : Net} (h : Almost S net) (hS : ∀ v, S v → v ∈ net.m.decisions)
    (hr : net.m.Consistent) (hb : net.base = Macid.new ∨ net.base = Macid.newCid) (hst : net.Staffed) :
    ∃ net', net.imputeMixed = (net', .ok ()) ∧ net'.Usable ∧ OnlyRules net net.m.decisions net' ∧ ∀ d ∈ net.m.decisions, net'.Rolled d := by
  obtain ⟨n, h1, h2, h3, h4⟩ := Almost.imputeAll net.m.decisions h (fun d hd => hr.nodes d (Or.inl hd))
  obtain ⟨k1, k2⟩ := h2.good (fun v q => q.2 (hS v q.1))
  exact ⟨n, h1, ⟨k1, k2, h3.m ▸ hr, h3.base ▸ hb, h3.staffed hst⟩, h3, h4⟩

/-- another graph with the same nodes that differs only in the observations of `d` -/
theorem Good.almost {net : Net} (hG : net.Good) (hN : net.Normalised) {g : Graph} (hg : g.WF) (hn : ∀ v, v ∈ g.nodes ↔ v ∈ net.g.nodes) {d : Node}
    (hp : ∀ v, v ≠ d → g.parents v = net.g.parents v) {n : Net} (hO : OnlyRules (net.withGraph g) [d] n) (hk : n.rels.keys.Nodup)
    (hrel : ∀ v ∈ n.rels.keys, v ∈ g.nodes) (hc : n.Complete) : Almost (· = d) n := by
  have hng : n.g = g := by rw [hO.g]; rfl
  have hdm : n.domain = net.domain := hO.domain
  have hdom : ∀ v, n.dom v = net.dom v := fun v => congrFun hO.dom v
  have hin : ∀ a, n.InDom a → net.InDom a := fun a ha v hv => by
    rw [← hdom]; exact ha v (by rw [hng]; exact (hn v).2 hv)
  have hcp : ∀ v, v ≠ d → n.cpds.get? v = net.cpds.get? v := fun v hv => hO.cpds v (by simpa using hv)
  have hrl : ∀ v, v ≠ d → n.rels.get? v = net.rels.get? v := fun v hv => hO.rels v (by simpa using hv)
  have hedge : ∀ p v, v ≠ d → (g.Edge p v ↔ net.g.Edge p v) := fun p v hv => by
    rw [← Graph.mem_parents, ← Graph.mem_parents, hp v hv]
  refine ⟨by rw [hng]; exact hg, hk, by rw [hng]; exact hrel, hc, fun v hv => ?_, fun v c hv h => ?_, fun v c hv h => ?_, fun v c hv h => ?_,
    fun v c hv h hkd => ?_, fun v hvn hv a ha => ?_⟩
  · rw [hdom]; exact dom_props hG ((hn v).1 (by rw [← hng]; exact hv))
  · rw [hcp v hv] at h
    obtain ⟨h1, r, h2, h3⟩ := hG.reflects v c h
    refine ⟨by rw [hdm]; exact h1, r, by rw [hrl v hv]; exact h2, ?_⟩
    rw [hng, hdm, ← h3]
    cases r <;> simp only [computed, hp v hv]
  · rw [hcp v hv] at h
    have := hG.fits v c h
    exact ⟨this.var, fun p => by rw [hng, hedge p v hv]; exact this.parents p, by rw [hdm]; exact this.cards, this.sums⟩
  · rw [hcp v hv] at h
    exact hG.cpdOk v c h
  · rw [hrl v hv] at h
    obtain ⟨c', h1, h2⟩ := hG.tabs v c h hkd
    refine ⟨c', by rw [hng, hdm, hp v hv]; exact h1, h2.1, fun a ha => ?_⟩
    rw [hdm]
    exact h2.2 a (hin a ha)
  · have hvn' : v ∈ net.g.nodes := (hn v).1 (by rw [← hng]; exact hvn)
    have hker : ∀ b, n.kernel v b = net.kernel v b := fun b => by unfold Net.kernel; rw [hcp v hv, hdm]
    simp only [hker, hdom]
    exact hN v hvn' a (hin a ha)

/-- after an edit of the observations of `d` -/
theorem Usable.refresh {net : Net} (hU : net.Usable) {g : Graph} (hg : g.WF) (hn : ∀ v, v ∈ g.nodes ↔ v ∈ net.g.nodes) {d : Node}
    (hd : d ∈ net.g.nodes) (hp : ∀ v, v ≠ d → g.parents v = net.g.parents v) :
    ∃ n, (net.withGraph g).refresh d = (n, .ok ()) ∧ Almost (· = d) n ∧ OnlyRules (net.withGraph g) [d] n ∧
      n.rels.get? d = net.rels.get? d ∧ ∀ r, net.rels.get? d = some r →
        (net.isConstant d = true → ∃ c, n.cpds.get? d = some c ∧ computed g net.domain d r = .ok c) ∧
        (net.isConstant d = false → n.cpds.get? d = net.cpds.get? d) := by
  obtain ⟨n, h1, h2, h3, h4, h5⟩ := (hU.good.stable.withGraph hn).refresh (v := d) ((hn d).2 hd) (fun p hp =>
    ⟨(hg.edgeNodes p d hp).1, fun e => hg.acyclic d (.single (by
      have hp' : g.Edge p d := hp
      rwa [e] at hp'))⟩)
  refine ⟨n, h1, hU.good.almost hU.normalised hg hn hp h3 ?_ ?_ ?_, h3, h4, fun r hr => ⟨fun hk => ?_, fun hk => ?_⟩⟩
  · have : n = ((net.withGraph g).refresh d).1 := by rw [h1]
    rw [this]
    unfold Net.refresh
    split
    · split
      · exact setItem_keys_nodup _ _ _ _ hU.good.keys
      · exact hU.good.keys
    · exact hU.good.keys
  · intro v hv
    by_cases e : v = d
    · subst e; exact (hn v).2 hd
    · obtain ⟨r, hr⟩ := Dict.mem_keys.1 hv
      rw [h3.rels v (by simpa using e)] at hr
      exact (hn v).2 (hU.good.relNodes v (Dict.mem_keys.2 ⟨r, hr⟩))
  · intro v hv
    obtain ⟨c, q1, q2, _⟩ := h2.full v hv
    exact ⟨c, q1, q2⟩
  · have hr' : (net.withGraph g).rels.get? d = some r := hr
    obtain ⟨c, q1, q2⟩ := h5 (by rw [hr']; simp) hk
    exact ⟨c, q1, q2 r hr'⟩
  · have hr' : (net.withGraph g).rels.get? d = some r := hr
    have hk' : (net.withGraph g).isConstant d = false := hk
    unfold Net.refresh at h1
    rw [hr'] at h1
    simp only [hk', Bool.false_eq_true, if_false, Prod.mk.injEq, and_true] at h1
    rw [← h1]
    rfl

/-- `n` is `net` with other observations of `d`; the CPD of `d` may be out of date -/
structure Edited (net : Net) (d : Node) (n : Net) : Prop where
  almost : Almost (· = d) n
  roles : n.m = net.m.onGraph n.g
  base : n.base = net.base
  nodes : ∀ v, v ∈ n.g.nodes ↔ v ∈ net.g.nodes
  domain : n.domain = net.domain
  cpds : ∀ v, v ≠ d → n.cpds.get? v = net.cpds.get? v
  rel : ∀ v, n.rels.get? v = net.rels.get? v
  redone : ∀ r, net.rels.get? d = some r → net.isConstant d = true → ∃ c, n.cpds.get? d = some c ∧ computed n.g net.domain d r = .ok c
  left : ∀ r, net.rels.get? d = some r → net.isConstant d = false → n.cpds.get? d = net.cpds.get? d

theorem Usable.edited {net : Net} (hU : net.Usable) {g : Graph} (hg : g.WF) (hn : ∀ v, v ∈ g.nodes ↔ v ∈ net.g.nodes) {d : Node}
    (hd : d ∈ net.g.nodes) (hp : ∀ v, v ≠ d → g.parents v = net.g.parents v) :
    ∃ n, (net.withGraph g).refresh d = (n, .ok ()) ∧ Edited net d n ∧ n.g = g := by
  obtain ⟨n, h1, h2, h3, h4, h5⟩ := hU.refresh hg hn hd hp
  have hng : n.g = g := by rw [h3.g]; rfl
  refine ⟨n, h1, ⟨h2, by rw [h3.m, hng]; rfl, h3.base, by rw [hng]; exact hn, h3.domain, fun v hv => h3.cpds v (by simpa using hv), fun v => ?_,
    fun r hr hk => by rw [hng]; exact (h5 r hr).1 hk, fun r hr hk => (h5 r hr).2 hk⟩, hng⟩
  by_cases e : v = d
  · subst e; exact h4
  · exact h3.rels v (by simpa using e)

theorem Usable.addEdge {net : Net} (hU : net.Usable) {x d : Node} (hx : x ∈ net.g.nodes) (hd : d ∈ net.g.nodes) (hxd : ¬ net.g.DescEq d x) :
    ∃ n, net.addEdge x d = (n, .ok ()) ∧ Edited net d n ∧ ∀ u v, n.g.Edge u v ↔ net.g.Edge u v ∨ (u = x ∧ v = d) := by
  have hne : x ≠ d := fun e => hxd (e ▸ .refl)
  have hadd : net.g.addEdge x d = .ok (net.g.nxAddEdge x d) := by
    unfold Graph.addEdge
    rw [if_neg hne, if_neg (fun q => hxd ((hasPath_iff hU.good.wf).1 q.2.2))]
  obtain ⟨n, h1, h2, h3⟩ := hU.edited (g := net.g.nxAddEdge x d) (wf_nxAddEdge hU.good.wf hxd) (fun v => by
    rw [nxAddEdge_nodes]
    constructor
    · rintro (h | rfl | rfl) <;> assumption
    · exact Or.inl) hd (fun v hv => by
      have hnode : ∀ (g : Graph) (y : Node), (g.addNode y).edges = g.edges := fun g y => by unfold Graph.addNode; split <;> rfl
      unfold Graph.nxAddEdge Graph.parents
      simp only
      split
      · rw [hnode, hnode]
      · simp only [hnode, List.filter_append]
        rw [List.filter_cons_of_neg (by simpa using fun e => hv e.symm)]
        simp)
  refine ⟨n, ?_, h2, fun u v => by rw [h3]; exact nxAddEdge_edge⟩
  unfold Net.addEdge
  rw [hadd]
  exact h1

theorem Usable.removeEdge {net : Net} (hU : net.Usable) {x d : Node} (he : net.g.Edge x d) :
    ∃ n, net.removeEdge x d = (n, .ok ()) ∧ Edited net d n ∧ ∀ u v, n.g.Edge u v ↔ net.g.Edge u v ∧ ¬ (u = x ∧ v = d) := by
  have he' : (x, d) ∈ net.g.edges := he
  obtain ⟨n, h1, h2, h3⟩ := hU.edited (g := ⟨net.g.nodes, net.g.edges.filter (fun e => decide (e ≠ (x, d)))⟩) (wf_filter hU.good.wf _)
    (fun _ => Iff.rfl) (hU.good.wf.edgeNodes _ _ he).2 (fun v hv => by
      unfold Graph.parents
      simp only
      rw [List.filter_filter]
      congr 1
      apply List.filter_congr
      rintro ⟨a, b⟩ _
      by_cases hb : b = v
      · subst hb
        simp [hv]
      · simp [hb])
  refine ⟨n, ?_, h2, fun u v => ?_⟩
  · unfold Net.removeEdge Graph.removeEdge
    rw [if_pos he']
    exact h1
  · rw [h3]
    show (u, v) ∈ List.filter _ _ ↔ _
    rw [List.mem_filter]
    simp only [ne_eq, Prod.mk.injEq, decide_eq_true_eq]
    rfl

/-! ### after a query -/

theorem Sess.EU {c s : Net} {us : List Node} (h : Sess c us s) (hU : c.Usable) {agent : Agent} (hus : c.m.agentUtilities.get? agent = some us) :
    s.EU agent = c.EU agent := by
  unfold Net.EU
  have : s.m.agentUtilities = c.m.agentUtilities := by rw [h.roles]
  rw [this, hus]
  congr 1
  apply List.map_congr_left
  intro v hv
  refine h.mean hU.good hU.normalised (by simp) ⟨hU.roles.nodes v (Or.inr ?_), (mem_keepOf hU.good.wf).2 ⟨v, hv, .refl⟩⟩
  exact Dict.mem_keys.2 ⟨agent, (hU.roles.util.iff v agent).2 ⟨us, hus, hv⟩⟩

theorem Sess.inDom {c s : Net} {q : List Node} (h : Sess c q s) {a : Assign} (ha : c.InDom a) : s.InDom a := fun v hv => by
  unfold Net.dom
  rw [h.dom]
  exact ha v (h.sub v hv)

theorem Sess.dom_eq {c s : Net} {q : List Node} (h : Sess c q s) : s.dom = c.dom := by
  funext v
  unfold Net.dom
  rw [h.dom]

theorem Sess.policyUp {c s : Net} {q : List Node} (h : Sess c q s) (hG : c.Good) {pol : List Cpd} (hp : PolicyOk s pol) : PolicyOk c pol := by
  refine ⟨hp.1, fun k hk => ?_⟩
  obtain ⟨q1, q2, q3⟩ := hp.2 k hk
  refine ⟨h.sub _ q1, q2.transfer h.good hG (fun p => (h.edges p _ q1).symm) (fun p _ => by rw [h.dom]), fun a ha => ?_⟩
  have := q3 a (h.inDom ha)
  rwa [h.dom, h.dom_eq] at this

theorem Sess.policyDown {c s : Net} {q : List Node} (h : Sess c q s) (hG : c.Good) {pol : List Cpd} (hp : PolicyOk c pol)
    (hv : ∀ k ∈ pol, k.var ∈ s.g.nodes) : PolicyOk s pol := by
  refine ⟨hp.1, fun k hk => ?_⟩
  obtain ⟨q1, q2, q3⟩ := hp.2 k hk
  refine ⟨hv k hk, h.accept hG (hv k hk) q2, fun a ha => ?_⟩
  obtain ⟨b, hb1, hb2⟩ := exists_inDom hG a (· ∈ s.g.nodes) (fun p hp _ => by rw [← h.dom_eq]; exact ha p hp)
  have := q3 b hb1
  have e : k.evidence.map b = k.evidence.map a := by
    apply List.map_congr_left
    intro p hp
    refine hb2 p ?_
    exact (h.good.wf.edgeNodes p _ ((h.edges p _ (hv k hk)).2 ((q2.fits.parents p).1 hp))).1
  rw [h.dom, h.dom_eq, ← e, ← hb2 _ (hv k hk)]
  exact this

/-- what can be achieved does not change when other components are dropped -/
theorem Sess.max {c s : Net} {us : List Node} (h : Sess c us s) (hU : c.Usable) (hUs : s.Usable) {agent : Agent}
    (hus : c.m.agentUtilities.get? agent = some us) (hdec : ∀ d ∈ c.m.decisions, d ∈ s.g.nodes) {r : Rat} (hr : c.IsMaxEU agent r) :
    s.IsMaxEU agent r := by
  have hm : s.m.decisions = c.m.decisions := by rw [h.roles]; rfl
  have key : ∀ pol, PolicyOk c pol → PolicyOk s pol → pol.map (·.var) = c.m.decisions.dedup →
      ∃ c' s', c'.Usable ∧ s'.Usable ∧ OnlyRules c c.m.decisions c' ∧ OnlyRules s s.m.decisions s' ∧ s'.EU agent = c'.EU agent ∧
        (∀ k ∈ pol, c'.cpds.get? k.var = some k) ∧ ∀ k ∈ pol, s'.cpds.get? k.var = some k := by
    intro pol p1 p2 p3
    obtain ⟨c', a1, a2, a3, a4⟩ := addPolicy_usable pol hU p1
    obtain ⟨s', b1, b2, b3, b4⟩ := addPolicy_usable pol hUs p2
    have hS := Sess.addPolicy pol h hU p1 b1 a1
    have hsub : ∀ w ∈ pol.map (·.var), w ∈ c.m.decisions := fun w hw => by rw [p3] at hw; exact List.mem_dedup.1 hw
    exact ⟨c', s', a2, b2, a3.mono hsub, b3.mono (fun w hw => by rw [hm]; exact hsub w hw), hS.EU a2 (by rw [a3.m]; exact hus), a4, b4⟩
  refine ⟨?_, fun s1 q1 q2 => ?_⟩
  · obtain ⟨c1, k1, k2, k3⟩ := hr.reached
    obtain ⟨p1, p2, p3⟩ := rulesOf_ok k1 (List.nodup_dedup c.m.decisions) (fun d hd => by
      rw [k2.g]; exact h.sub d (hdec d (List.mem_dedup.1 hd)))
    have p1' : PolicyOk c (c1.rulesOf c.m.decisions.dedup) := p1.only (ds := c.m.decisions)
      ⟨k2.m.symm, k2.base.symm, k2.domain.symm, fun w hw => (k2.cpds w hw).symm, fun w hw => (k2.rels w hw).symm⟩
    obtain ⟨c', s', a1, a2, a3, a4, a5, a6, a7⟩ := key _ p1' (h.policyDown hU.good p1' (fun k hk => by
      refine hdec _ ?_
      have : k.var ∈ (c1.rulesOf c.m.decisions.dedup).map (·.var) := List.mem_map_of_mem hk
      rw [p2] at this
      exact List.mem_dedup.1 this)) p2
    refine ⟨s', a2, a4, ?_⟩
    rw [a5, ← k3]
    apply EU_congr
    · rw [a3.m, k2.m]
    · rw [a3.domain, k2.domain]
    · intro w
      by_cases hw : w ∈ c.m.decisions
      · have : w ∈ (c1.rulesOf c.m.decisions.dedup).map (·.var) := by rw [p2]; exact List.mem_dedup.2 hw
        obtain ⟨k, hk, rfl⟩ := List.mem_map.1 this
        rw [a6 k hk, p3 k hk]
      · rw [a3.cpds w hw, k2.cpds w hw]
  · rw [hm] at q2
    obtain ⟨p1, p2, p3⟩ := rulesOf_ok q1 (List.nodup_dedup c.m.decisions) (fun d hd => by
      rw [q2.g]; exact hdec d (List.mem_dedup.1 hd))
    have p1' : PolicyOk s (s1.rulesOf c.m.decisions.dedup) := p1.only (ds := c.m.decisions)
      ⟨q2.m.symm, q2.base.symm, q2.domain.symm, fun w hw => (q2.cpds w hw).symm, fun w hw => (q2.rels w hw).symm⟩
    obtain ⟨c', s', a1, a2, a3, a4, a5, a6, a7⟩ := key _ (h.policyUp hU.good p1') p1' p2
    refine le_trans (le_of_eq ?_) (hr.bound c' a1 a3)
    rw [← a5]
    symm
    apply EU_congr
    · rw [a4.m, q2.m]
    · rw [a4.domain, q2.domain]
    · intro w
      by_cases hw : w ∈ c.m.decisions
      · have : w ∈ (s1.rulesOf c.m.decisions.dedup).map (·.var) := by rw [p2]; exact List.mem_dedup.2 hw
        obtain ⟨k, hk, rfl⟩ := List.mem_map.1 this
        rw [a7 k hk, p3 k hk]
      · rw [a4.cpds w (by rw [hm]; exact hw), q2.cpds w hw]

end Net
end Verif

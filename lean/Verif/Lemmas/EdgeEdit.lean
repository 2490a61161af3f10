import Verif.Lemmas.Revise
import Verif.Lemmas.Query
import Verif.Lemmas.Parameterise
import Verif.Spec.EdgeEdit

/-!
# Adding and removing edges of a parameterised network
-/

namespace Verif
open Relation Graph Net

namespace Net

theorem inDoms_of {net : Net} (hc : net.Complete) {a : Assign} (ha : net.InDom a) {ps : List Node} (hp : ∀ p ∈ ps, p ∈ net.g.nodes) :
    InDoms net.domain ps a := by
  intro p h
  obtain ⟨c, _, hd⟩ := hc p (hp p h)
  refine ⟨c.domain, hd, ?_⟩
  have := ha p (hp p h)
  rwa [dom_eq hd] at this

/-- entries of a CPD that does not look at the parents -/
theorem const_prob {kind kind' : CpdKind} {v : Node} {t : Dict Outcome (Option Rat)} {force force' : Option (List Outcome)} {ps ps' : List Node}
    {dom : Dict Node (List Outcome)} {card card' : Node → Py Nat} {c c' : Cpd}
    (h : mkCpd kind v (constFunc t) force ps dom card = .ok c) (h' : mkCpd kind' v (constFunc t) force' ps' dom card' = .ok c')
    (hd : c'.domain = c.domain) {a b : Assign} (ha : InDoms dom ps a) (hb : InDoms dom ps' b) (x : Outcome) :
    c'.prob dom (c'.evidence.map b) x = c.prob dom (c.evidence.map a) x := by
  obtain ⟨col, h1, _, _, h2⟩ := mkCpd_assign h ha
  obtain ⟨col', h1', _, _, h2'⟩ := mkCpd_assign h' hb
  rw [h2, h2', hd]
  rw [hd] at h1'
  have : colFor (constFunc t) c.domain (restrict ps' b) = colFor (constFunc t) c.domain (restrict ps a) := rfl
  rw [this, h1] at h1'
  cases h1'
  rfl

/-- what a directly given relationship is computed to -/
theorem Direct.computed {net : Net} {d : Node} (h : net.Direct d) : ∃ r t kind force, net.rels.get? d = some r ∧ (∀ c, r ≠ .tab c) ∧
    (kind = .constant ∨ kind = .decision) ∧ ∀ (g : Graph) dom, Verif.computed g dom d r = mkCpd kind d (constFunc t) force (g.parents d) dom (cardOf dom) := by
  rcases h with ⟨t, h⟩ | ⟨l, h⟩
  · exact ⟨_, t, .constant, none, h, (fun _ => by simp), Or.inl rfl, fun _ _ => rfl⟩
  · exact ⟨_, [], .decision, some l, h, (fun _ => by simp), Or.inr rfl, fun _ _ => rfl⟩

theorem Edited.consistent {net n : Net} {d : Node} (hU : net.Usable) (h : Edited net d n) : n.m.Consistent := by
  have hr := hU.roles
  refine ⟨h.almost.wf, ?_, ?_, ?_, fun v hv => (h.nodes v).2 (hr.nodes v ?_)⟩
  · rw [h.roles]; exact hr.dec
  · rw [h.roles]; exact hr.util
  · rw [h.roles]; exact hr.disj
  · rw [h.roles] at hv; exact hv

theorem Edited.staffed {net n : Net} {d : Node} (hU : net.Usable) (h : Edited net d n) : n.Staffed :=
  ⟨fun a => by rw [h.roles]; exact hU.staffed.both a, fun a ha => by
    rw [h.roles] at ha
    have := hU.staffed.owns a ha
    rw [h.base]
    have hrole : ∀ v, n.m.role v = net.m.role v := fun v => by rw [h.roles]; rfl
    simpa only [hrole] using this⟩

theorem Edited.inDom {net n : Net} {d : Node} (h : Edited net d n) (a : Assign) : n.InDom a ↔ net.InDom a := by
  unfold InDom dom
  rw [h.domain]
  exact ⟨fun q v hv => q v ((h.nodes v).2 hv), fun q v hv => q v ((h.nodes v).1 hv)⟩

/-- an edit of the parents of a node with a directly given relationship keeps all probabilities -/
theorem Edited.direct {net n : Net} {d : Node} (hU : net.Usable) (hd : d ∈ net.g.nodes) (h : Edited net d n) (hdir : net.Direct d) :
    n.Usable ∧ ∀ v ∈ net.g.nodes, ∀ a, net.InDom a → n.kernel v a = net.kernel v a := by
  obtain ⟨r, t, kind, force, hr, hnt, hk, hcomp⟩ := hdir.computed
  obtain ⟨c, hc, hcd⟩ := hU.good.complete d hd
  obtain ⟨_, r', hr', hcc⟩ := hU.good.reflects d c hc
  rw [hr] at hr'
  cases hr'
  rw [hcomp] at hcc
  obtain ⟨f1, f2, f3, f4, f5, f6⟩ := mkCpd_fields hcc
  have hconst : net.isConstant d = true := by
    unfold isConstant
    rw [hc]
    simpa [f3] using hk
  obtain ⟨c', hc', hcc'⟩ := h.redone r hr hconst
  rw [hcomp] at hcc'
  obtain ⟨g1, g2, g3, g4, g5, g6⟩ := mkCpd_fields hcc'
  have hcdom : c'.domain = c.domain := by
    obtain ⟨c2, hc2, hd2⟩ := h.almost.complete d ((h.nodes d).2 hd)
    rw [hc'] at hc2
    cases hc2
    rw [h.domain, hcd] at hd2
    exact (Option.some.inj hd2).symm
  have hpar : ∀ p ∈ n.g.parents d, p ∈ net.g.nodes := fun p hp => (h.nodes p).1 (h.almost.wf.edgeNodes p d (Graph.mem_parents.1 hp)).1
  have hpar0 : ∀ p ∈ net.g.parents d, p ∈ net.g.nodes := fun p hp => (hU.good.wf.edgeNodes p d (Graph.mem_parents.1 hp)).1
  have hker : ∀ v ∈ net.g.nodes, ∀ a, net.InDom a → n.kernel v a = net.kernel v a := by
    intro v hv a ha
    unfold kernel
    by_cases e : v = d
    · subst e
      rw [hc', hc, h.domain]
      simp only
      rw [const_prob hcc hcc' hcdom (inDoms_of hU.good.complete ha hpar0) (inDoms_of hU.good.complete ha hpar)]
    · rw [h.cpds v e, h.domain]
  have hdomd : n.domain.get? d = some c'.domain := by rw [h.domain, hcd, hcdom]
  refine ⟨⟨?_, ?_, h.consistent hU, by rw [h.base]; exact hU.base, h.staffed hU⟩, hker⟩
  · have hA := h.almost
    refine ⟨hA.wf, hA.keys, hA.relNodes, fun v c1 h1 => ?_, hA.complete, fun v c1 h1 => ?_, fun v c1 h1 => ?_, fun v c1 h1 hk1 => ?_⟩
    · by_cases e : v = d
      · subst e
        rw [hc'] at h1
        cases h1
        refine ⟨hdomd, r, by rw [h.rel]; exact hr, ?_⟩
        rw [hcomp, h.domain]
        exact hcc'
      · exact hA.reflects v c1 e h1
    · by_cases e : v = d
      · subst e
        rw [hc'] at h1
        cases h1
        rw [h.domain]
        exact mkCpd_fits hcc'
      · exact hA.fits v c1 e h1
    · by_cases e : v = d
      · subst e
        rw [hc'] at h1
        cases h1
        exact mkCpd_wf hcc' (Graph.nodup_parents hA.wf.edgesNodup v) (hcdom ▸ (hU.good.cpdOk v c hc).nonempty)
      · exact hA.cpdOk v c1 e h1
    · by_cases e : v = d
      · subst e
        rw [h.rel, hr] at h1
        exact absurd (Option.some.inj h1) (hnt c1)
      · exact hA.tabs v c1 e h1 hk1
  · intro v hv a ha
    have hv' := (h.nodes v).1 hv
    have ha' := (h.inDom a).1 ha
    have hdom : n.dom v = net.dom v := by unfold dom; rw [h.domain]
    obtain ⟨q1, q2⟩ := hU.normalised v hv' a ha'
    rw [hker v hv' a ha']
    refine ⟨q1, ?_⟩
    rw [← q2, hdom]
    congr 1
    apply List.map_congr_left
    intro x hx
    refine hker v hv' _ (fun w hw => ?_)
    unfold Assign.upd
    split
    · rename_i e; rw [e]; exact hx
    · exact ha' w hw

/-- an edit of the parents of any other node leaves its CPD as it was -/
theorem Edited.stale {net n : Net} {d : Node} (hU : net.Usable) (hd : d ∈ net.g.nodes) (h : Edited net d n) (hdir : ¬ net.Direct d) :
    ∀ v, n.cpds.get? v = net.cpds.get? v := by
  intro v
  by_cases e : v = d
  · subst e
    obtain ⟨c, hc, hcd⟩ := hU.good.complete v hd
    obtain ⟨_, r, hr, hcc⟩ := hU.good.reflects v c hc
    by_cases hk : net.isConstant v = true
    · obtain ⟨c', hc', hcc'⟩ := h.redone r hr hk
      cases r with
      | tab c0 =>
        cases hcc
        cases hcc'
        rw [hc, hc']
      | func f =>
        have hcc2 : mkCpd .stochastic v f none (net.g.parents v) net.domain (cardOf net.domain) = .ok c := hcc
        have := (mkCpd_fields hcc2).2.2.1
        unfold isConstant at hk
        rw [hc] at hk
        simp [this] at hk
      | dist t => exact absurd (Or.inl ⟨t, hr⟩) hdir
      | seq l => exact absurd (Or.inr ⟨l, hr⟩) hdir
    · exact h.left r hr (by simpa using hk)
  · exact h.cpds v e

theorem checkModel_parents {net : Net} (h : net.checkModel = true) {v : Node} (hv : v ∈ net.g.nodes) : ∃ c, net.cpds.get? v = some c ∧
    ∀ p, p ∈ c.evidence ↔ net.g.Edge p v := by
  unfold checkModel at h
  have := List.all_eq_true.1 h v hv
  cases hc : net.cpds.get? v with
  | none => rw [hc] at this; simp at this
  | some c =>
    rw [hc] at this
    simp only [Bool.and_eq_true, List.all_eq_true, decide_eq_true_eq, mem_parents] at this
    exact ⟨c, rfl, fun p => ⟨this.1.1.1 p, this.1.1.2 p⟩⟩

/-- a query about something connected to a node whose CPD does not fit its parents raises -/
theorem stale_query {net : Net} (hw : net.g.WF) {d : Node} (hd : d ∈ net.g.nodes) {c : Cpd} (hc : net.cpds.get? d = some c) {x : Node}
    (hx : x ∈ c.evidence ↔ ¬ net.g.Edge x d) (ord : List Node → List Node) {q : List Node} {ctx : List (Node × Outcome)}
    {v : Node} (hv : v ∈ q) (hcon : net.g.Connected v d) : ∃ e, (net.queryOn ord q ctx).2 = .error e := by
  unfold queryOn
  split
  · exact ⟨_, rfl⟩
  · simp only
    have hkeep : d ∈ q.flatMap (component net.g) := List.mem_flatMap.2 ⟨v, hv, (mem_component hw).2 hcon⟩
    split
    · exact ⟨_, rfl⟩
    · exact ⟨_, rfl⟩
    · unfold infer
      split
      · exact ⟨_, rfl⟩
      · rename_i hm
        exfalso
        have hm' : (net.prune (q.flatMap (component net.g))).checkModel = true := by simpa using hm
        have hdn : d ∈ (net.prune (q.flatMap (component net.g))).g.nodes := List.mem_filter.2 ⟨hd, by simpa using hkeep⟩
        obtain ⟨c', hc', hp⟩ := checkModel_parents hm' hdn
        have hcp : (net.prune (q.flatMap (component net.g))).cpds.get? d = net.cpds.get? d := by
          refine (get?_filter net.cpds (fun p => decide (p ∉ net.g.nodes ∨ p ∈ q.flatMap (component net.g))) d).trans ?_
          rw [if_pos (decide_eq_true (Or.inr hkeep))]
        rw [hcp, hc] at hc'
        cases hc'
        have hedge : (net.prune (q.flatMap (component net.g))).g.Edge x d ↔ net.g.Edge x d := by
          show (x, d) ∈ List.filter _ _ ↔ _
          rw [List.mem_filter]
          refine ⟨fun q => q.1, fun q => ⟨q, ?_⟩⟩
          simp only [decide_eq_true_eq]
          refine ⟨?_, hkeep⟩
          exact List.mem_flatMap.2 ⟨v, hv, (mem_component hw).2 (hcon.tail (Or.inr q))⟩
        have := hp x
        rw [hedge, hx] at this
        by_cases q : net.g.Edge x d <;> simp [q] at this

/-- assigning a function to a node brings it up to date -/
theorem Almost.assign {S : Node → Prop} {net : Net} (hG : Almost S net) {v : Node} (hv : v ∈ net.g.nodes) {f : Func} {c : Cpd}
    (hmk : mkCpd .stochastic v f none (net.g.parents v) net.domain (cardOf net.domain) = .ok c) (hd : c.domain = net.dom v)
    (hn : ∀ a, net.InDom a → 0 ≤ (c.prob net.domain ((net.g.parents v).map a) (a v)).getD 0 ∧
      ((net.dom v).map (fun x => (c.prob net.domain ((net.g.parents v).map a) x).getD 0)).sum = 1) :
    ∃ net', net.set v (.func f) = (net', .ok ()) ∧ Almost (fun w => S w ∧ w ≠ v) net' ∧ OnlyRules net [v] net' ∧ net'.cpds.get? v = some c := by
  obtain ⟨f1, f2, f3, f4, f5, f6⟩ := mkCpd_fields hmk
  have hf := mkCpd_fits hmk
  have hw := mkCpd_wf hmk (Graph.nodup_parents hG.wf.edgesNodup v) (hd ▸ (hG.doms v hv).2)
  obtain ⟨c0, hc0, hd0⟩ := hG.complete v hv
  have hdv : net.domain.get? v = some c.domain := by rw [hd, dom_eq hd0, hd0]
  have hto : (stage net v (.func f)).toCpd v (.func f) = .ok c := by
    have hv' : v ∈ (stage net v (.func f)).g.nodes := hv
    unfold toCpd
    simp only [hv', if_true]
    rw [← hmk]
    refine mkCpd_congr (fun _ _ => rfl) (fun p hp' => ?_)
    have hp' : p ∈ net.g.parents v := hp'
    have hpn := (hG.wf.edgeNodes p v (Graph.mem_parents.1 hp')).1
    have hne : p ≠ v := fun e => hG.wf.acyclic v (.single (by have := Graph.mem_parents.1 hp'; rwa [e] at this))
    obtain ⟨cp, k1, k2⟩ := hG.complete p hpn
    have : p ∈ (stage net v (.func f)).g.nodes := hpn
    simp only [Net.card, getCpd, this, if_true, stage_cpds, if_neg hne, k1, cardOf, k2]
  have hset : net.set v (.func f) = (put net v (.func f) c, .ok ()) := by
    unfold Net.set
    rcases setItem_cases net.g.nodes.length net v (.func f) with ⟨h1, _⟩ | ⟨e, _, h1, _⟩ | ⟨c', h1, h2⟩
    · rw [hto] at h1; simp at h1
    · rw [hto] at h1; simp at h1
    · rw [hto] at h1
      cases h1
      have hall : ∀ x ∈ c.var :: c.evidence, x ∈ net.g.nodes := by
        intro x hx
        rcases List.mem_cons.1 hx with rfl | hx
        · rw [hf.var]; exact hv
        · exact (hG.wf.edgeNodes x v ((hf.parents x).1 hx)).1
      rcases h2 with ⟨h, _⟩ | ⟨_, h, _⟩ | ⟨_, _, _, _, h⟩ | ⟨_, _, h, _⟩
      · exact absurd hall h
      · exact absurd hf.var h
      · exact h
      · exact absurd ⟨hw.nonempty, hdv⟩ h
  have hdom : (put net v (.func f) c).domain = net.domain := Dict.set_same hdv
  have hO : OnlyRules net [v] (put net v (.func f) c) := by
    refine ⟨rfl, rfl, hdom, fun w hw => ?_, fun w hw => ?_⟩
    · rw [put_cpds, if_neg (by simpa using hw)]
    · rw [put_rels, if_neg (by simpa using hw)]
  refine ⟨_, hset, ?_, hO, by rw [put_cpds]; simp⟩
  have hcase : ∀ w c', (put net v (.func f) c).cpds.get? w = some c' → (w = v ∧ c' = c) ∨ (w ≠ v ∧ net.cpds.get? w = some c') := by
    intro w c' h
    rw [put_cpds] at h
    split at h
    · rename_i e; left; exact ⟨e, by simpa using h.symm⟩
    · rename_i e; right; exact ⟨e, h⟩
  have hSne : ∀ w, ¬ (S w ∧ w ≠ v) → w ≠ v → ¬ S w := fun w h1 h2 h3 => h1 ⟨h3, h2⟩
  refine ⟨hG.wf, nodup_stage hG.keys, fun w hw => ?_, fun w hw => ?_, fun w hw => ?_, fun w c' hS h => ?_, fun w c' hS h => ?_,
    fun w c' hS h => ?_, fun w c' hS h hk => ?_, fun w hwn hS a ha => ?_⟩
  · obtain ⟨x, hx⟩ := Dict.mem_keys.1 hw
    rw [put_rels] at hx
    split at hx
    · rename_i e; exact e ▸ hv
    · exact hG.relNodes w (Dict.mem_keys.2 ⟨x, hx⟩)
  · rw [hdom, put_cpds]
    by_cases e : w = v
    · subst e; exact ⟨c, by simp, hdv⟩
    · rw [if_neg e]; exact hG.complete w hw
  · rw [hO.dom]; exact hG.doms w hw
  · rw [hdom, put_rels]
    rcases hcase w c' h with ⟨rfl, rfl⟩ | ⟨hne, h⟩
    · exact ⟨hdv, .func f, by simp, hmk⟩
    · rw [if_neg hne]
      exact hG.reflects w c' (hSne w hS hne) h
  · rw [hdom]
    rcases hcase w c' h with ⟨rfl, rfl⟩ | ⟨hne, h⟩
    · exact hf
    · exact hG.fits w c' (hSne w hS hne) h
  · rcases hcase w c' h with ⟨rfl, rfl⟩ | ⟨hne, h⟩
    · exact hw
    · exact hG.cpdOk w c' (hSne w hS hne) h
  · rw [put_rels] at h
    split at h
    · simp at h
    · rename_i e
      obtain ⟨c2, h1, h2⟩ := hG.tabs w c' (hSne w hS e) h hk
      refine ⟨c2, by rw [hdom]; exact h1, h2.1, fun a ha x => ?_⟩
      rw [hdom]
      exact h2.2 a ((hO.inDom a).1 ha) x
  · have ha' := (hO.inDom a).1 ha
    by_cases e : w = v
    · subst e
      have hk : ∀ b, (put net w (.func f) c).kernel w b = (c.prob net.domain ((net.g.parents w).map b) (b w)).getD 0 :=
        fun b => kernel_rule hO (by rw [put_cpds]; simp) hmk b
      rw [hO.dom, hk]
      refine ⟨(hn a ha').1, ?_⟩
      rw [← (hn a ha').2]
      congr 1
      apply List.map_congr_left
      intro x _
      rw [hk]
      have : (net.g.parents w).map (Assign.upd a w x) = (net.g.parents w).map a := by
        apply List.map_congr_left
        intro p hp
        have : p ≠ w := fun e => hG.wf.acyclic w (.single (by have := Graph.mem_parents.1 hp; rwa [e] at this))
        simp [Assign.upd, this]
      rw [this]
      simp [Assign.upd]
    · have : w ∉ [v] := by simpa using e
      simp only [hO.kernel this, hO.dom]
      exact hG.normalised w hwn (hSne w hS e) a ha'

/-- after an edit, a function of the new parents can be assigned -/
theorem Edited.assign {net n : Net} {d : Node} (hU : net.Usable) (hd : d ∈ net.g.nodes) (h : Edited net d n) {δ : Assign → Outcome → Rat}
    (hs : (net.dom d).Pairwise (· < ·)) (h0 : ∀ a, net.InDom a → ∀ x ∈ net.dom d, 0 ≤ δ (n.view d a) x)
    (h1 : ∀ a, net.InDom a → ((net.dom d).map (δ (n.view d a))).sum = 1) :
    ∃ n', n.set d (.func (fun pv => .ok (.dist ((net.dom d).map (fun x => (x, some (δ (fun p => (pv p).getD 0) x))))))) = (n', .ok ()) ∧
      n'.Usable ∧ n'.m = n.m ∧ n'.domain = net.domain ∧ (∀ v ∈ net.g.nodes, v ≠ d → n'.kernel v = net.kernel v) ∧
      ∀ a, net.InDom a → n'.kernel d a = δ (n.view d a) (a d) := by
  have hdn := (h.nodes d).2 hd
  have hdomeq : n.dom d = net.dom d := by unfold dom; rw [h.domain]
  obtain ⟨hnd, hne⟩ := h.almost.doms d hdn
  rw [hdomeq] at hnd hne
  have hpn : ∀ p ∈ n.g.parents d, p ∈ n.g.nodes := fun p hp => (h.almost.wf.edgeNodes p d (Graph.mem_parents.1 hp)).1
  have hpd : ∀ p ∈ n.g.parents d, ∃ l, n.domain.get? p = some l ∧ l ≠ [] := by
    intro p hp
    obtain ⟨c, _, hcd⟩ := h.almost.complete p (hpn p hp)
    refine ⟨_, hcd, ?_⟩
    have := (h.almost.doms p (hpn p hp)).2
    rwa [dom_eq hcd] at this
  have hview : ∀ a, (fun p => ((restrict (n.g.parents d) a) p).getD 0) = n.view d a := by
    intro a
    funext p
    unfold restrict view
    simp only [Graph.mem_parents]
    split
    · rfl
    · rfl
  -- every instantiation of the parents is that of an assignment
  have hinst : ∀ vals, Instantiation (n.g.parents d) n.domain vals → ∃ a, net.InDom a ∧ vals = (n.g.parents d).map a := by
    intro vals hv
    obtain ⟨a, rfl, ha⟩ := exists_assign (Graph.nodup_parents h.almost.wf.edgesNodup d) hv
    obtain ⟨b, hb1, hb2⟩ := exists_inDom hU.good a (· ∈ n.g.parents d) (fun p hp _ => by
      obtain ⟨l, hl, hal⟩ := ha p hp
      rw [h.domain] at hl
      unfold dom
      rw [hl]
      exact hal)
    exact ⟨b, hb1, List.map_congr_left (fun p hp => (hb2 p hp).symm)⟩
  obtain ⟨c, hmk, hcd, hcp⟩ := mkCpd_full (v := d) (ps := n.g.parents d) (dom := n.domain)
    (δ := fun pv => δ (fun p => (pv p).getD 0)) hs hne hpd
    (fun vals hv x hx => by
      obtain ⟨a, ha, rfl⟩ := hinst vals hv
      rw [pvOf_map, hview]
      exact h0 a ha x hx)
    (fun vals hv => by
      obtain ⟨a, ha, rfl⟩ := hinst vals hv
      rw [pvOf_map, hview]
      exact h1 a ha)
  have hentry : ∀ a, net.InDom a → ∀ x ∈ net.dom d, (c.prob n.domain ((n.g.parents d).map a) x).getD 0 = δ (n.view d a) x := by
    intro a ha x hx
    have hi : Instantiation (n.g.parents d) n.domain ((n.g.parents d).map a) :=
      inst_of_inDoms (inDoms_of h.almost.complete ((h.inDom a).2 ha) hpn)
    rw [hcp _ hi x hx, pvOf_map, hview]
    rfl
  obtain ⟨n', k1, k2, k3, k4⟩ := h.almost.assign hdn hmk (by rw [hcd, hdomeq]) (fun a ha => by
    have ha' := (h.inDom a).1 ha
    rw [hdomeq, hentry a ha' _ (ha' d hd)]
    refine ⟨h0 a ha' _ (ha' d hd), ?_⟩
    rw [← h1 a ha']
    congr 1
    exact List.map_congr_left (fun x hx => hentry a ha' x hx))
  obtain ⟨q1, q2⟩ := k2.good (fun v q => q.2 q.1)
  refine ⟨n', k1, ⟨q1, q2, by rw [k3.m]; exact h.consistent hU, by rw [k3.base, h.base]; exact hU.base, k3.staffed (h.staffed hU)⟩, k3.m,
    by rw [k3.domain, h.domain], fun v hv hvd => ?_, fun a ha => ?_⟩
  · funext a
    rw [k3.kernel (by simpa using hvd)]
    unfold kernel
    rw [h.cpds v hvd, h.domain]
  · rw [kernel_rule k3 k4 hmk a, hentry a ha _ (ha d hd)]

end Net
end Verif

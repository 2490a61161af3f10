import Verif.Lemmas.Recall
import Verif.Props.Solve
import Verif.Props.Solved
import Verif.Props.Worth

/-!
# C58: `quantitative_voi` and `quantitative_voc`
-/

namespace Verif

open Graph Relation Macid Net

namespace Net

theorem SameWorld.trans {ds : Node → Prop} {a b c : Net} (h1 : SameWorld ds a b) (h2 : SameWorld ds b c) : SameWorld ds a c :=
  ⟨fun v => (h2.nodes v).trans (h1.nodes v), fun v => (h2.roles v).trans (h1.roles v),
    fun v hv => (h2.outcomes v ((h1.nodes v).2 hv)).trans (h1.outcomes v hv), fun v hv hd a ha => by
      rw [h2.kernels v ((h1.nodes v).2 hv) hd a (fun u hu => by
        rw [h1.outcomes u ((h1.nodes u).1 hu)]; exact ha u ((h1.nodes u).1 hu)), h1.kernels v hv hd a ha]⟩

theorem SameWorld.congr {ds es : Node → Prop} {a b : Net} (h : SameWorld ds a b) (he : ∀ v, ds v → es v) : SameWorld es a b :=
  ⟨h.nodes, h.roles, h.outcomes, fun v hv hd => h.kernels v hv (fun q => hd (he v q))⟩

theorem SameWorld.refl (ds : Node → Prop) (a : Net) : SameWorld ds a a :=
  ⟨fun _ => Iff.rfl, fun _ => rfl, fun _ _ => rfl, fun _ _ _ _ _ => rfl⟩

theorem OnlyRules.world {n n' : Net} {ds : List Node} (h : OnlyRules n ds n') : SameWorld (· ∈ ds) n n' :=
  ⟨fun v => by rw [h.g], fun v => by rw [h.m], fun v _ => by rw [h.dom], fun v _ hd a _ => by rw [h.kernel hd]⟩

theorem Equiv.world {n n' : Net} (h : Equiv n n') (hr : ∀ v, n'.m.role v = n.m.role v) (ds : Node → Prop) : SameWorld ds n n' :=
  ⟨fun v => by rw [h.nodes], hr, fun v hv => h.dom hv, fun v hv _ => h.kernel v hv⟩

theorem kernel_local {n : Net} (hG : n.Good) {v : Node} (hv : v ∈ n.g.nodes) :
    DependsOn (n.kernel v) (fun u => u = v ∨ n.g.Edge u v) := (bn_local hG).scope v hv

/-- the same world restricted to the same components -/
theorem SameWorld.rest {ds : Node → Prop} {n1 n2 s1 s2 : Net} {us1 us2 : List Node} (hw : SameWorld ds n1 n2) (hG1 : n1.Good) (hG2 : n2.Good)
    (h1 : Rest n1 us1 s1) (h2 : Rest n2 us2 s2) (hn : ∀ v, v ∈ s2.g.nodes ↔ v ∈ s1.g.nodes) : SameWorld ds s1 s2 := by
  refine ⟨hn, fun v => by rw [h1.role, h2.role, hw.roles], fun v hv => ?_, fun v hv hd a ha => ?_⟩
  · rw [h1.sess.dom_eq, h2.sess.dom_eq, hw.outcomes v (h1.sess.sub v hv)]
  · obtain ⟨b, hb1, hb2⟩ := exists_inDom hG1 a (· ∈ s1.g.nodes) (fun p hq _ => by rw [← h1.sess.dom_eq]; exact ha p hq)
    have hk1 : s1.kernel v a = n1.kernel v a := by unfold kernel; rw [h1.sess.cpds v hv, h1.sess.dom]
    have hk2 : s2.kernel v a = n2.kernel v a := by unfold kernel; rw [h2.sess.cpds v ((hn v).2 hv), h2.sess.dom]
    rw [hk1, hk2]
    have e1 : n1.kernel v a = n1.kernel v b := by
      refine kernel_local hG1 (h1.sess.sub v hv) a b (fun u hu => (hb2 u ?_).symm)
      rcases hu with rfl | hu
      · exact hv
      · exact h1.closed v u (Or.inr hu) hv
    have e2 : n2.kernel v a = n2.kernel v b := by
      refine kernel_local hG2 ((hw.nodes v).2 (h1.sess.sub v hv)) a b (fun u hu => (hb2 u ?_).symm)
      rcases hu with rfl | hu
      · exact hv
      · exact (hn u).1 (h2.closed v u (Or.inr hu) ((hn v).2 hv))
    rw [e1, e2]
    exact hw.kernels v (h1.sess.sub v hv) hd b hb1

/-- random rules after an edit -/
theorem Edited.impute {net n : Net} {d : Node} (hU : net.Usable) (h : Edited net d n) (hd : d ∈ net.m.decisions) :
    ∃ n', n.imputeMixed = (n', .ok ()) ∧ n'.Usable ∧ SameWorld (· ∈ net.m.decisions) net n' ∧ n'.g = n.g ∧ n'.m.decisions = net.m.decisions ∧
      (∀ e ∈ net.m.decisions, n'.Rolled e) ∧ ∀ v, v ∉ net.m.decisions → n'.cpds.get? v = net.cpds.get? v := by
  have hdec : n.m.decisions = net.m.decisions := by rw [h.roles]; rfl
  have hrole : ∀ v, n.m.role v = net.m.role v := fun v => by rw [h.roles]; rfl
  have hc : n.m.Consistent := by
    have hr := hU.roles
    refine ⟨h.almost.wf, ?_, ?_, ?_, fun v hv => (h.nodes v).2 (hr.nodes v ?_)⟩
    · rw [h.roles]; exact hr.dec
    · rw [h.roles]; exact hr.util
    · rw [h.roles]; exact hr.disj
    · rw [h.roles] at hv; exact hv
  obtain ⟨n', h1, h2, h3, h4⟩ := h.almost.imputeMixed (fun v e => by rw [hdec, e]; exact hd) hc (by rw [h.base]; exact hU.base)
    ⟨fun a => by rw [h.roles]; exact hU.staffed.both a, fun a ha => by
      rw [h.roles] at ha
      have := hU.staffed.owns a ha
      rw [h.base]
      simpa only [hrole] using this⟩
  rw [hdec] at h4
  refine ⟨n', h1, h2, ?_, h3.g, by rw [h3.m, hdec], h4, fun v hv => by
    rw [h3.cpds v (by rw [hdec]; exact hv), h.cpds v (fun e => hv (e ▸ hd))]⟩
  rw [hdec] at h3
  have hw1 : SameWorld (· ∈ net.m.decisions) net n := ⟨h.nodes, hrole, fun v _ => by unfold dom; rw [h.domain], fun v _ hv a _ => by
    unfold kernel
    rw [h.cpds v (fun e => hv (e ▸ hd)), h.domain]⟩
  exact hw1.trans h3.world

theorem exists_observing {cid : Net} (hU : cid.Usable) {d x : Node} (hx : x ∈ cid.g.nodes) (hd : d ∈ cid.m.decisions)
    (hxd : ¬ cid.g.DescEq d x) : ∃ n, Observing cid d x n := by
  obtain ⟨n, _, h2, h3⟩ := hU.addEdge hx (hU.roles.nodes d (Or.inl hd)) hxd
  obtain ⟨n', _, k2, k3, k4, _⟩ := h2.impute hU hd
  exact ⟨n', k2, k3, fun u v => by rw [k4]; exact h3 u v⟩

theorem exists_notObserving {cid : Net} (hU : cid.Usable) {d x : Node} (hd : d ∈ cid.m.decisions) : ∃ n, NotObserving cid d x n := by
  by_cases he : cid.g.Edge x d
  · obtain ⟨n, _, h2, h3⟩ := hU.removeEdge he
    obtain ⟨n', _, k2, k3, k4, _⟩ := h2.impute hU hd
    exact ⟨n', k2, k3, fun u v => by rw [k4]; exact h3 u v⟩
  · exact ⟨cid, hU, .refl _ _, fun u v => ⟨fun h => ⟨h, fun q => he (by rw [← q.1, ← q.2]; exact h)⟩, fun h => h.1⟩⟩

theorem set_graph (net : Net) (v : Node) (r : Rel) : (net.set v r).1.g = net.g := by
  have := (setItem_m (net.g.nodes.length + 1) net v r).1
  unfold Net.g
  unfold Net.set
  rw [this]

theorem forNet_nodes {f : Net → Node → Net × Py Unit} (hf : ∀ net d net', f net d = (net', .ok ()) → d ∈ net.g.nodes ∧ net'.g = net.g) :
    ∀ (ds : List Node) {net net' : Net}, forNet f net ds = (net', .ok ()) → ∀ d ∈ ds, d ∈ net.g.nodes
  | [], _, _, _ => by simp
  | e :: ds, net, net', h => by
    unfold forNet at h
    generalize hq : f net e = q at h
    obtain ⟨n1, r⟩ := q
    cases r with
    | error e => simp at h
    | ok _ =>
      obtain ⟨h1, h2⟩ := hf net e n1 hq
      intro d hd
      rcases List.mem_cons.1 hd with rfl | hd
      · exact h1
      · rw [← h2]; exact forNet_nodes hf ds h d hd

theorem removeRules_nodes {net net' : Net} (h : net.removeRules = (net', .ok ())) : ∀ d ∈ net.m.decisions, d ∈ net.g.nodes := by
  refine forNet_nodes (fun net d net' h => ?_) _ h
  unfold removeRule at h
  split at h
  · simp at h
  · rename_i dom _
    refine ⟨?_, by rw [← set_graph net d (.seq dom), h]⟩
    by_contra hd
    unfold Net.set at h
    rcases setItem_cases net.g.nodes.length net d (.seq dom) with ⟨h1, _⟩ | ⟨e, _, _, h1⟩ | ⟨c, h1, _⟩
    · have : d ∉ (stage net d (.seq dom)).g.nodes := hd
      simp [toCpd, this] at h1
    · rw [h1] at h; simp at h
    · have : d ∉ (stage net d (.seq dom)).g.nodes := hd
      simp [toCpd, this] at h1

theorem imputeMixed_nodes {net net' : Net} (h : net.imputeMixed = (net', .ok ())) : ∀ d ∈ net.m.decisions, d ∈ net.g.nodes := by
  refine forNet_nodes (fun net d net' h => ?_) _ h
  unfold imputeRandom at h
  split at h
  · simp at h
  · split at h
    · simp at h
    · rename_i c hc
      refine ⟨?_, by rw [← set_graph net d (.tab c), h]⟩
      unfold newRule at hc
      by_contra hd
      rw [if_neg hd] at hc
      simp at hc

end Net

theorem namesOk_sub {g h : Graph} (hg : NamesOk g) (hs : ∀ v ∈ h.nodes, v ∈ g.nodes) : NamesOk h :=
  ⟨fun u hu v hv => hg.1 u (hs u hu) v (hs v hv), fun v hv => hg.2 v (hs v hv)⟩

/-- one of the two steps: impute an optimal policy and evaluate it -/
theorem optimalEU_exact {net n1 : Net} (h1 : net.imputeMixed = (n1, .ok ())) (hU1 : n1.Usable) (hnames : NamesOk n1.g)
    (hone : ∀ e b, n1.m.role e = .decision b → b = 0) (hrec : n1.m.NoRelianceCycle n1.m.decisions)
    {pick : Pick} {tpick : List Node → Nat} {ord setOrd : List Node → List Node} {rnd : Nat}
    (hord : ∀ l, (ord l).Perm l) (hset : ∀ l, (setOrd l).Perm l) {s : Net} {ev : Rat}
    (h : optimalEU pick tpick ord setOrd rnd net = (s, .ok ev)) :
    n1.IsMaxEU 0 ev ∧ ∃ c us, c.Usable ∧ OnlyRules n1 n1.m.decisions c ∧ c.m.agentUtilities.get? 0 = some us ∧ Rest c us s ∧ ev = c.EU 0 := by
  unfold optimalEU at h
  generalize hq : net.imputeOptimalPolicy pick tpick ord setOrd rnd = q at h
  obtain ⟨c, r⟩ := q
  cases r with
  | error e => simp at h
  | ok _ =>
    simp only at h
    obtain ⟨k1, k2, _, k4⟩ := optimal_core h1 hU1 hnames (fun d hd => by
      obtain ⟨b, hb⟩ := decisions_role.1 hd
      rw [hb, hone d b hb]) hrec hord hset hq
    obtain ⟨us, hus⟩ : ∃ us, c.m.agentUtilities.get? 0 = some us := by
      unfold expectedUtility at h
      cases hx : c.m.agentUtilities.get 0 with
      | error e => rw [hx] at h; simp at h
      | ok us => exact ⟨us, Dict.get_ok.1 hx⟩
    obtain ⟨k5, k6⟩ := Rest.of_utility k1 hord hus h
    refine ⟨⟨⟨c, k1, k2, k6.symm⟩, fun n q1 q2 => by rw [k6]; exact k4 n q1 q2⟩, c, us, k1, k2, hus, k5, k6⟩

/-- **C58** `quantitative_voi` of a node that is not a descendant of the decision, one decision maker, sufficient recall with
and without the observation: if a number is returned, it is the maximal expected utility with the observation minus the maximal
expected utility without it, and not negative. -/
theorem C58_quantitative_voi {cid : Net} (hU : cid.Usable) (hnames : NamesOk cid.g) (hone : ∀ e b, cid.m.role e = .decision b → b = 0)
    {d x : Node} (hd : cid.m.role d = .decision 0) (hrec1 : ∀ n, Observing cid d x n → n.m.NoRelianceCycle n.m.decisions)
    (hrec2 : ∀ n, NotObserving cid d x n → n.m.NoRelianceCycle n.m.decisions)
    {pick : Pick} {tpick : List Node → Nat} {ord setOrd : List Node → List Node} {rnd1 rnd2 : Nat}
    (hord : ∀ l, (ord l).Perm l) (hset : ∀ l, (setOrd l).Perm l) {r : Rat}
    (h : quantitativeVoi pick tpick ord setOrd rnd1 rnd2 cid d x = .ok r) :
    ∃ r1 r2, r = r1 - r2 ∧ 0 ≤ r ∧ (∃ n, Observing cid d x n) ∧ (∀ n, Observing cid d x n → n.IsMaxEU 0 r1) ∧
      (∃ n, NotObserving cid d x n) ∧ ∀ n, NotObserving cid d x n → n.IsMaxEU 0 r2 := by
  unfold quantitativeVoi at h
  split_ifs at h with c1 c2 c3
  have hx : x ∈ cid.g.nodes := by simpa using c1
  have hdn : d ∈ cid.g.nodes := by simpa using c2
  have hdd : d ∈ cid.m.decisions := decisions_role.2 ⟨0, hd⟩
  have hxd : ¬ cid.g.DescEq d x := by
    intro q
    rcases reflTransGen_iff_eq_or_transGen.1 q with e | q
    · exact c3 (Or.inl e)
    · exact c3 (Or.inr ((mem_descendants hU.good.wf).2 q))
  obtain ⟨N2, hN2⟩ := exists_notObserving (x := x) hU hdd
  obtain ⟨cp, hcp, hUc, hEq, hRc, _, _⟩ := hU.copy
  have hwc := hEq.world hRc (· ∈ cid.m.decisions)
  have hdc := fun v => hwc.decisions v
  rw [hcp] at h
  simp only at h
  obtain ⟨e1, he1, hed, hedE⟩ := hUc.addEdge (x := x) (d := d) (by rw [hEq.nodes]; exact hx) (by rw [hEq.nodes]; exact hdn) (by
    rw [Graph.descEq_congr hEq.edges]; exact hxd)
  rw [he1] at h
  simp only at h
  obtain ⟨n0, i1, i2, i3, i4, i5⟩ := hed.impute hUc ((hdc d).2 hdd)
  have hw0 : SameWorld (· ∈ cid.m.decisions) cid n0 := hwc.trans (i3.congr (fun v q => (hdc v).1 q))
  have hobs0 : Observing cid d x n0 := ⟨i2, hw0, fun u v => by rw [i4, hedE, hEq.edges]⟩
  have hone0 : ∀ e b, n0.m.role e = .decision b → b = 0 := fun e b q => hone e b (by rw [← hw0.roles]; exact q)
  generalize hq1 : optimalEU pick tpick ord setOrd rnd1 e1 = q1 at h
  obtain ⟨s1, r1⟩ := q1
  cases r1 with
  | error e => simp at h
  | ok ev1 =>
  simp only at h
  obtain ⟨hm1, c, us, hc1, hc2, hus, hrest, _⟩ := optimalEU_exact i1 i2 (namesOk_sub hnames (fun v q => (hw0.nodes v).1 q)) hone0 (hrec1 n0 hobs0)
    hord hset hq1
  generalize hq2 : s1.removeRules = q2 at h
  obtain ⟨s2, r2⟩ := q2
  cases r2 with
  | error e => simp at h
  | ok _ =>
  simp only at h
  have hwc1 : SameWorld (· ∈ cid.m.decisions) cid c := hw0.trans (hc2.world.congr (fun v q => (hw0.decisions v).1 q))
  have honec : ∀ e b, c.m.role e = .decision b → b = 0 := fun e b q => hone e b (by rw [← hwc1.roles]; exact q)
  have hs1d : s1.m.decisions = c.m.decisions := by rw [hrest.sess.roles]; rfl
  have hdecs : ∀ e ∈ c.m.decisions, e ∈ s1.g.nodes := fun e he => removeRules_nodes hq2 e (by rw [hs1d]; exact he)
  have hUs1 : s1.Usable := hrest.usable hc1 honec hus hdecs
  obtain ⟨s2', t1, hUs2, hOs2, _⟩ := C49_remove_rules hUs1
  rw [hq2] at t1
  cases t1
  have hds1 : ∀ v, v ∈ s1.m.decisions ↔ v ∈ cid.m.decisions := fun v => by rw [hs1d]; exact hwc1.decisions v
  have hwc1' : SameWorld (· ∈ cid.m.decisions) s1 s2 := hOs2.world.congr (fun v q => (hds1 v).1 q)
  have hEc : ∀ u v, c.g.Edge u v ↔ cid.g.Edge u v ∨ (u = x ∧ v = d) := fun u v => by rw [hc2.g]; exact hobs0.edges u v
  have hd1 : d ∈ s1.g.nodes := hdecs d ((hwc1.decisions d).2 hdd)
  have hE1 : ∀ u v, v ∈ s1.g.nodes → (s1.g.Edge u v ↔ c.g.Edge u v) := hrest.sess.edges
  obtain ⟨n3, he3, hed3, hedE3⟩ := hUs2.removeEdge (x := x) (d := d) (by
    rw [hOs2.g, hE1 x d hd1, hEc]; exact Or.inr ⟨rfl, rfl⟩)
  rw [he3] at h
  simp only at h
  have hds2 : ∀ v, v ∈ s2.m.decisions ↔ v ∈ cid.m.decisions := fun v => by rw [hOs2.m]; exact hds1 v
  obtain ⟨n4, j1, j2, j3, j4, j5⟩ := hed3.impute hUs2 ((hds2 d).2 hdd)
  have hw4 : SameWorld (· ∈ cid.m.decisions) s1 n4 := hwc1'.trans (j3.congr (fun v q => (hds2 v).1 q))
  have hE4 : ∀ u v, n4.g.Edge u v ↔ s1.g.Edge u v ∧ ¬ (u = x ∧ v = d) := fun u v => by rw [j4, hedE3, hOs2.g]
  have hrole4 : ∀ v, n4.m.role v = cid.m.role v := fun v => by rw [hw4.roles, hrest.role, hwc1.roles]
  have hnode4 : ∀ v ∈ n4.g.nodes, v ∈ cid.g.nodes := fun v q => (hwc1.nodes v).1 (hrest.sess.sub v ((hw4.nodes v).1 q))
  have hEn : ∀ (N : Net), NotObserving cid d x N → ∀ u v, v ∈ s1.g.nodes → (n4.g.Edge u v ↔ N.g.Edge u v) := by
    intro N hN u v hv
    rw [hE4, hE1 u v hv, hEc, hN.edges]
    tauto
  have hone4 : ∀ e b, n4.m.role e = .decision b → b = 0 := fun e b q => hone e b (by rw [← hrole4]; exact q)
  have hd4 : ∀ v, v ∈ n4.m.decisions ↔ v ∈ cid.m.decisions := fun v => by rw [decisions_role, decisions_role]; simp only [hrole4]
  have hrec4 : n4.m.NoRelianceCycle n4.m.decisions := by
    refine recall_sub j2.good.wf hN2.usable.good.wf (fun v => by rw [hrole4, hN2.same.roles]) (fun v q => (hN2.same.nodes v).2 (hnode4 v q))
      (fun u v hv => hEn N2 hN2 u v ((hw4.nodes v).1 hv)) (fun e he => ⟨j2.roles.nodes e (Or.inl he), ?_⟩) (hrec2 N2 hN2)
    exact (hN2.same.decisions e).2 ((hd4 e).1 he)
  generalize hq3 : optimalEU pick tpick ord setOrd rnd2 n3 = q3 at h
  obtain ⟨s3, r3⟩ := q3
  cases r3 with
  | error e => simp at h
  | ok ev2 =>
  simp only [Except.ok.injEq] at h
  obtain ⟨hm2, _⟩ := optimalEU_exact j1 j2 (namesOk_sub hnames hnode4) hone4 hrec4 hord hset hq3
  have hms1 : s1.IsMaxEU 0 ev1 := hrest.sess.max hc1 hUs1 hus hdecs (hm1.rules hc2)
  refine ⟨ev1, ev2, h.symm, ?_, ⟨n0, hobs0⟩, fun N hN => ?_, ⟨N2, hN2⟩, fun N hN => ?_⟩
  · rw [← h, sub_nonneg]
    refine IsMaxEU.mono j2 hUs1 hone4 (hw4.symm.congr (fun v q => (hd4 v).2 q)) (fun u v q => ((hE4 u v).1 q).1) hm2 hms1
  · refine IsMaxEU.same i2 hN.usable hone0 ((hw0.symm.trans hN.same).congr (fun v q => (hw0.decisions v).2 q)) (fun u v => ?_) hm1
    rw [hobs0.edges, hN.edges]
  · have honeN : ∀ e b, N.m.role e = .decision b → b = 0 := fun e b q => hone e b (by rw [← hN.same.roles]; exact q)
    have hcl : Closed N.g s1.g.nodes := by
      have hsub : ∀ u v, N.g.Edge u v → c.g.Edge u v := fun u v q => (hEc u v).2 (Or.inl ((hN.edges u v).1 q).1)
      exact fun u v huv hu => hrest.closed u v (huv.imp (hsub u v) (hsub v u)) hu
    obtain ⟨us', hus'⟩ : ∃ us', N.m.agentUtilities.get? 0 = some us' := by
      refine Dict.mem_keys.1 ((hN.usable.staffed.both 0).2 ?_)
      have : N.m.role d = .decision 0 := by rw [hN.same.roles]; exact hd
      obtain ⟨l, hl, _⟩ := (hN.usable.roles.dec.iff d 0).1 (role_decision.1 this)
      exact Dict.mem_keys.2 ⟨l, hl⟩
    have hR := Rest.prune hN.usable hcl (us := us') (fun u hu => by
      have h1 : N.m.role u = .utility 0 := (role_utility hN.usable.roles).2 ((hN.usable.roles.util.iff u 0).2 ⟨us', hus', hu⟩)
      have h2 : s1.m.role u = .utility 0 := by rw [hrest.role, hwc1.roles, ← hN.same.roles, h1]
      exact hUs1.roles.nodes u (Or.inr (Dict.mem_keys.2 ⟨0, (role_utility hUs1.roles).1 h2⟩)))
    have hdN : ∀ e ∈ N.m.decisions, e ∈ (N.prune s1.g.nodes).g.nodes := fun e he => mem_prune.2
      ⟨hN.usable.roles.nodes e (Or.inl he), hdecs e ((hwc1.decisions e).2 ((hN.same.decisions e).1 he))⟩
    have hUP := hR.usable hN.usable honeN hus' hdN
    obtain ⟨r, hr⟩ := exists_maxEU hN.usable honeN
    have hrP := hR.sess.max hN.usable hUP hus' hdN hr
    have hwP : SameWorld (· ∈ cid.m.decisions) s1 (N.prune s1.g.nodes) := (hwc1.symm.trans hN.same).rest hc1.good hN.usable.good hrest hR (fun v => by
      rw [mem_prune]
      exact ⟨fun q => q.2, fun q => ⟨(hN.same.nodes v).2 ((hwc1.nodes v).1 (hrest.sess.sub v q)), q⟩⟩)
    have := IsMaxEU.same j2 hUP hone4 ((hw4.symm.trans hwP).congr (fun v q => (hd4 v).2 q)) (fun u v => by
      by_cases hv : v ∈ s1.g.nodes
      · rw [hEn N hN u v hv, prune_edge hcl (Or.inr hv)]
      · constructor
        · intro q; exact absurd ((hw4.nodes v).1 (j2.good.wf.edgeNodes u v q).2) hv
        · intro q; exact absurd (prune_edge'.1 q).2.2 hv) hm2
    rw [this.unique hrP]
    exact hr

/-- the same network in which the owner of `x` is agent 0 -/
def Net.control (net : Net) (x : Node) : Net :=
  { net with m := { net.m with agentDecisions := appendRole net.m.agentDecisions 0 x, decisionAgent := net.m.decisionAgent.set x 0 } }

namespace Net

theorem makeDecision_chance {m : Macid} {x : Node} (hx : x ∈ m.g.nodes) (hr : m.role x = .chance) :
    m.makeDecision x 0 = ({ m with agentDecisions := appendRole m.agentDecisions 0 x, decisionAgent := m.decisionAgent.set x 0 }, .ok ()) := by
  have h1 : m.decisionAgent.get? x = none ∧ m.utilityAgent.get? x = none := by
    unfold Macid.role at hr
    cases h : m.decisionAgent.get? x <;> rw [h] at hr <;> cases h' : m.utilityAgent.get? x <;> simp [h'] at hr ⊢
  unfold makeDecision makeChance
  rw [if_neg (by simpa using hx)]
  simp only [h1.1, h1.2]

theorem makeDecision_node {m m' : Macid} {x : Node} (h : m.makeDecision x 0 = (m', .ok ())) : x ∈ m.g.nodes := by
  by_contra hx
  unfold makeDecision makeChance at h
  rw [if_pos hx] at h
  simp at h

theorem control_role {net : Net} (x v : Node) : (net.control x).m.role v = if v = x then .decision 0 else net.m.role v := by
  unfold Macid.role control
  simp only [Dict.get?_set]
  by_cases e : v = x
  · simp [e]
  · simp [e]

theorem appendRole_keys (d : Dict Agent (List Node)) (n : Node) (a : Agent) : a ∈ (appendRole d 0 n).keys ↔ a ∈ d.keys ∨ a = 0 := by
  unfold appendRole
  rw [Dict.mem_keys, Dict.mem_keys]
  split <;> simp only [Dict.get?_set] <;> by_cases e : a = 0 <;> simp_all

theorem Usable.control {net : Net} (hU : net.Usable) {x : Node} (hx : x ∈ net.g.nodes) (hr : net.m.role x = .chance)
    (h0 : 0 ∈ net.m.agentUtilities.keys) : (net.control x).Usable := by
  have hc := (runOp_spec hU.roles (.makeDecision x 0)).2 hx
  obtain ⟨m', e1, e2, _, _⟩ := hc
  have : m' = (net.control x).m := by
    have := makeDecision_chance hx hr
    simp only [runOp] at e1
    rw [this] at e1
    simp only [Prod.mk.injEq, and_true] at e1
    exact e1.symm
  subst this
  have hG := hU.good
  refine ⟨⟨hG.wf, hG.keys, hG.relNodes, hG.reflects, hG.complete, hG.fits, hG.cpdOk, hG.tabs⟩, hU.normalised, e2, hU.base, ?_, ?_⟩
  · intro a
    show a ∈ net.m.agentUtilities.keys ↔ a ∈ (appendRole net.m.agentDecisions 0 x).keys
    rw [appendRole_keys, ← hU.staffed.both a]
    constructor
    · exact Or.inl
    · rintro (h | rfl)
      · exact h
      · exact h0
  · intro a ha
    rcases hU.staffed.owns a ha with ⟨⟨n, hn⟩, ⟨u, hu⟩⟩ | h
    · refine Or.inl ⟨⟨n, ?_⟩, ⟨u, ?_⟩⟩
      · rw [control_role, if_neg (fun e => by rw [e, hr] at hn; simp at hn)]; exact hn
      · rw [control_role, if_neg (fun e => by rw [e, hr] at hu; simp at hu)]; exact hu
    · exact Or.inr h

theorem Rest.control {c s : Net} {us : List Node} (h : Rest c us s) (x : Node) : Rest (c.control x) us (s.control x) := by
  have hs := h.sess
  have hG := hs.good
  refine ⟨⟨⟨hG.wf, hG.keys, hG.relNodes, hG.reflects, hG.complete, hG.fits, hG.cpdOk, hG.tabs⟩, hs.normalised, hs.dom, ?_, hs.sub, hs.keep, hs.edges,
    hs.conn, hs.cpds⟩, h.base, h.closed⟩
  show ({ s.m with agentDecisions := _, decisionAgent := _ } : Macid) = _
  rw [hs.roles]
  rfl

theorem control_decisions {net : Net} {x v : Node} : v ∈ (net.control x).m.decisions ↔ v = x ∨ v ∈ net.m.decisions := by
  rw [decisions_role, decisions_role]
  simp only [control_role]
  by_cases e : v = x <;> simp [e]

end Net

/-- the evaluation of an optimal policy, without recall -/
theorem optimalEU_close {net : Net} (hU : net.Usable) (hnames : NamesOk net.g)
    (hone : ∀ e b, net.m.role e = .decision b → b = 0) (hrec : ¬ net.m.NoRelianceCycle net.m.decisions)
    {pick : Pick} {tpick : List Node → Nat} {ord setOrd : List Node → List Node} {rnd : Nat}
    (hord : ∀ l, (ord l).Perm l) (hset : ∀ l, (setOrd l).Perm l) {s : Net} {ev : Rat}
    (h : optimalEU pick tpick ord setOrd rnd net = (s, .ok ev)) :
    (∃ c us, OnlyRules net net.m.decisions c ∧ Rest c us s) ∧ ∃ m, Close (1 / 1000000000) ev m ∧
      ∀ n : Net, n.Usable → OnlyRules net net.m.decisions n → n.EU 0 ≤ m ∨ ∃ v, n.EU 0 ≤ v ∧ Close (1 / 1000000000) v m := by
  unfold optimalEU at h
  generalize hq : net.imputeOptimalPolicy pick tpick ord setOrd rnd = q at h
  obtain ⟨c, r⟩ := q
  cases r with
  | error e => simp at h
  | ok _ =>
    simp only at h
    obtain ⟨k1, k2, m, k3, k4⟩ := C48_without_recall hU hnames (fun d hd => by
      obtain ⟨b, hb⟩ := decisions_role.1 hd
      rw [hb, hone d b hb]) hrec hord hset hq
    obtain ⟨us, hus⟩ : ∃ us, c.m.agentUtilities.get? 0 = some us := by
      unfold expectedUtility at h
      cases hx : c.m.agentUtilities.get 0 with
      | error e => rw [hx] at h; simp at h
      | ok us => exact ⟨us, Dict.get_ok.1 hx⟩
    obtain ⟨k5, k6⟩ := Rest.of_utility k1 hord hus h
    exact ⟨⟨c, us, k2, k5⟩, m, by rw [k6]; exact k3, k4⟩

/-- what closeness up to a relative tolerance of 1e-9, used twice, costs -/
theorem close_loss {e1 e2 m : Rat} (h : Close (1 / 1000000000) e2 m) (h' : e1 ≤ m ∨ ∃ v, e1 ≤ v ∧ Close (1 / 1000000000) v m) :
    -(6 / 1000000000) * |e2| ≤ e2 - e1 := by
  unfold Close at h h'
  have a1 := abs_sub_abs_le_abs_sub m e2
  rw [abs_sub_comm m e2] at a1
  have b1 := neg_abs_le (e2 - m)
  have c0 := abs_nonneg e2
  have c1 : max |e2| |m| ≤ |e2| + |e2 - m| := max_le (by linarith [abs_nonneg (e2 - m)]) (by linarith)
  rcases h' with h' | ⟨v, h1, h2⟩
  · linarith
  · have a2 := abs_sub_abs_le_abs_sub v m
    have b2 := le_abs_self (v - m)
    have c2 : max |v| |m| ≤ |m| + |v - m| := max_le (by linarith) (by linarith [abs_nonneg (v - m)])
    linarith

/-- **C58** `quantitative_voc` of a chance node, one decision maker with sufficient recall: if a number is returned, then
afterwards the node is a decision of agent 0 in the caller's diagram, all other roles are as before; the first of the two
expected utilities is the maximum without control, and the number is not below zero by more than the tolerance with which
policies are compared.  If the diagram has sufficient recall also with the node as a decision, the second is the maximum with
control and the number is not negative. -/
theorem C58_quantitative_voc {cid : Net} (hU : cid.Usable) (hnames : NamesOk cid.g) (hone : ∀ e b, cid.m.role e = .decision b → b = 0)
    (hrec : cid.m.NoRelianceCycle cid.m.decisions) {x : Node} (hx : cid.m.role x = .chance)
    {pick : Pick} {tpick : List Node → Nat} {ord setOrd : List Node → List Node} {rnd1 rnd2 : Nat}
    (hord : ∀ l, (ord l).Perm l) (hset : ∀ l, (setOrd l).Perm l) {after : Net} {r : Rat}
    (h : quantitativeVoc pick tpick ord setOrd rnd1 rnd2 cid x = (after, .ok r)) :
    (∀ v, after.m.role v = if v = x then .decision 0 else cid.m.role v) ∧
    ∃ r1 r2, r = r2 - r1 ∧ cid.IsMaxEU 0 r1 ∧ -(6 / 1000000000) * |r2| ≤ r ∧ (∃ n, Controlling cid x n) ∧
      ((∀ n, Controlling cid x n → n.m.NoRelianceCycle n.m.decisions) → 0 ≤ r ∧ ∀ n, Controlling cid x n → n.IsMaxEU 0 r2) := by
  unfold quantitativeVoc at h
  have hxn : x ∈ cid.g.nodes := by
    by_contra q
    rw [if_pos q] at h
    simp at h
  rw [if_neg (by simpa using hxn)] at h
  obtain ⟨n0, i1, i2, i3, _⟩ := C49_fully_mixed hU
  generalize hq1 : optimalEU pick tpick ord setOrd rnd1 cid = q1 at h
  obtain ⟨s1, r1⟩ := q1
  cases r1 with
  | error e => simp at h
  | ok ev1 =>
  simp only at h
  obtain ⟨hm1, c, us, hc1, hc2, hus, hrest, hev1⟩ := optimalEU_exact i1 i2 (by rw [i3.g]; exact hnames) (by rw [i3.m]; exact hone)
    (by rw [i3.m]; exact hrec) hord hset hq1
  have hO : OnlyRules cid cid.m.decisions c := i3.trans hc2 (fun _ q => q) (fun w q => by rw [i3.m] at q; exact q)
  have hm0 : cid.IsMaxEU 0 ev1 := hm1.rules (by rw [i3.m]; exact i3.symm)
  generalize hq2 : s1.m.makeDecision x 0 = q2 at h
  obtain ⟨m2, r2⟩ := q2
  cases r2 with
  | error e => simp at h
  | ok _ =>
  simp only at h
  have hx1 : x ∈ s1.g.nodes := makeDecision_node hq2
  have hxc : c.m.role x = .chance := by rw [hO.m]; exact hx
  have hxs : s1.m.role x = .chance := by rw [hrest.role]; exact hxc
  rw [makeDecision_chance hx1 hxs] at hq2
  simp only [Prod.mk.injEq, and_true] at hq2
  subst hq2
  have hcs : ({ s1 with m := { s1.m with agentDecisions := appendRole s1.m.agentDecisions 0 x, decisionAgent := s1.m.decisionAgent.set x 0 } } : Net) =
    s1.control x := rfl
  rw [hcs] at h
  generalize hq3 : optimalEU pick tpick ord setOrd rnd2 (s1.control x) = q3 at h
  obtain ⟨s3, r3⟩ := q3
  cases r3 with
  | error e => simp at h
  | ok ev2 =>
  simp only [Prod.mk.injEq, Except.ok.injEq] at h
  obtain ⟨rfl, hr⟩ := h
  -- all decisions are left
  have hnodes : ∀ d ∈ (s1.control x).m.decisions, d ∈ s1.g.nodes := by
    have : ∃ n, (s1.control x).imputeMixed = (n, .ok ()) := by
      unfold optimalEU imputeOptimalPolicy at hq3
      generalize (s1.control x).imputeMixed = q at hq3 ⊢
      obtain ⟨n, r⟩ := q
      cases r with
      | error e => simp at hq3
      | ok _ => exact ⟨n, rfl⟩
    obtain ⟨n, hn⟩ := this
    exact imputeMixed_nodes hn
  have hs1d : s1.m.decisions = c.m.decisions := by rw [hrest.sess.roles]; rfl
  have honec : ∀ e b, c.m.role e = .decision b → b = 0 := by rw [hO.m]; exact hone
  have hUs1 : s1.Usable := hrest.usable hc1 honec hus (fun e he => hnodes e (control_decisions.2 (Or.inr (by rw [hs1d]; exact he))))
  have h0 : ∀ {n : Net}, n.m.agentUtilities = c.m.agentUtilities → 0 ∈ n.m.agentUtilities.keys := fun e => by
    rw [e]; exact Dict.mem_keys.2 ⟨us, hus⟩
  have hUs : (s1.control x).Usable := hUs1.control hx1 hxs (h0 (by rw [hrest.sess.roles]))
  have hxcn : x ∈ c.g.nodes := by rw [hO.g]; exact hxn
  have hUc : (c.control x).Usable := hc1.control hxcn hxc (h0 rfl)
  have hRc := hrest.control x
  have honex : ∀ {n : Net}, (∀ e b, n.m.role e = .decision b → b = 0) → ∀ e b, (n.control x).m.role e = .decision b → b = 0 := by
    intro n q e b he
    rw [control_role] at he
    split at he
    · cases he; rfl
    · exact q e b he
  have hones : ∀ e b, s1.m.role e = .decision b → b = 0 := fun e b q => honec e b (by rw [← hrest.role]; exact q)
  have hnames1 : NamesOk (s1.control x).g := namesOk_sub hnames (fun v q => by rw [← hO.g]; exact hrest.sess.sub v q)
  have hEU : (s1.control x).EU 0 = ev1 := by
    have : (s1.control x).EU 0 = s1.EU 0 := rfl
    rw [this, hrest.sess.EU hc1 hus, hev1]
  have hcon : Controlling cid x (c.control x) := by
    refine ⟨hUc, fun v => by rw [← hO.g]; rfl, fun u v => by rw [← hO.g]; rfl, fun v => by rw [control_role, hO.m], fun v _ => by rw [← hO.dom]; rfl,
      fun v _ hv hvx a _ => ?_⟩
    rw [← hO.kernel hv]
    rfl
  have hrole : ∀ v, (s1.control x).m.role v = if v = x then .decision 0 else cid.m.role v := fun v => by
    rw [control_role, hrest.role, hO.m]
  by_cases hrecs : (s1.control x).m.NoRelianceCycle (s1.control x).m.decisions
  · obtain ⟨n1, j1, j2, j3, _⟩ := C49_fully_mixed hUs
    obtain ⟨hm2, c3, us3, hc3, hO3, _, hrest3, _⟩ := optimalEU_exact j1 j2 (by rw [j3.g]; exact hnames1) (by rw [j3.m]; exact honex hones)
      (by rw [j3.m]; exact hrecs) hord hset hq3
    have hm2' : (s1.control x).IsMaxEU 0 ev2 := hm2.rules (by rw [j3.m]; exact j3.symm)
    have hpos : 0 ≤ ev2 - ev1 := by
      rw [sub_nonneg, ← hEU]
      exact hm2'.bound _ hUs (.rfl' _ _)
    refine ⟨fun v => by rw [hrest3.role, hO3.m, j3.m]; exact hrole v, ev1, ev2, hr.symm, hm0, ?_, ⟨_, hcon⟩, fun _ => ⟨by rw [← hr]; exact hpos, ?_⟩⟩
    · rw [← hr]
      have := abs_nonneg ev2
      linarith
    · intro N hN
      have hroleN : ∀ v, N.m.role v = (c.control x).m.role v := fun v => by rw [hN.roles, hcon.roles]
      have honeN : ∀ e b, N.m.role e = .decision b → b = 0 := fun e b q => honex honec e b (by rw [← hroleN]; exact q)
      have hdN' : ∀ v, v ∈ N.m.decisions ↔ v ∈ (c.control x).m.decisions := fun v => by
        rw [decisions_role, decisions_role]; simp only [hroleN]
      have hw : SameWorld (· ∈ (c.control x).m.decisions) (c.control x) N := by
        refine ⟨fun v => (hN.nodes v).trans (hcon.nodes v).symm, hroleN, fun v hv => ?_, fun v hv hd a ha => ?_⟩
        · have hv' := (hcon.nodes v).1 hv
          rw [hN.outcomes v hv', hcon.outcomes v hv']
        · have hv' := (hcon.nodes v).1 hv
          rw [control_decisions, hO.m] at hd
          have ha' : cid.InDom a := fun u hu => by rw [← hcon.outcomes u hu]; exact ha u ((hcon.nodes u).2 hu)
          rw [hN.kernels v hv' (fun q => hd (Or.inr q)) (fun q => hd (Or.inl q)) a ha',
            hcon.kernels v hv' (fun q => hd (Or.inr q)) (fun q => hd (Or.inl q)) a ha']
      have hE : ∀ u v, N.g.Edge u v ↔ c.g.Edge u v := fun u v => (hN.edges u v).trans (hcon.edges u v).symm
      have hcl : Closed N.g s1.g.nodes := fun u v huv hu => hrest.closed u v (huv.imp (hE u v).1 (hE v u).1) hu
      obtain ⟨us', hus'⟩ : ∃ us', N.m.agentUtilities.get? 0 = some us' := by
        refine Dict.mem_keys.1 ((hN.usable.staffed.both 0).2 ?_)
        have : N.m.role x = .decision 0 := by rw [hN.roles]; simp
        obtain ⟨l, hl, _⟩ := (hN.usable.roles.dec.iff x 0).1 (role_decision.1 this)
        exact Dict.mem_keys.2 ⟨l, hl⟩
      have hR := Rest.prune hN.usable hcl (us := us') (fun u hu => by
        have h1 : N.m.role u = .utility 0 := (role_utility hN.usable.roles).2 ((hN.usable.roles.util.iff u 0).2 ⟨us', hus', hu⟩)
        have h2 : (s1.control x).m.role u = .utility 0 := by rw [hRc.role, ← hroleN, h1]
        exact hUs.roles.nodes u (Or.inr (Dict.mem_keys.2 ⟨0, (role_utility hUs.roles).1 h2⟩)))
      have hsd : ∀ v, v ∈ (s1.control x).m.decisions ↔ v ∈ (c.control x).m.decisions := fun v => by
        rw [control_decisions, control_decisions, hs1d]
      have hdN : ∀ e ∈ N.m.decisions, e ∈ (N.prune s1.g.nodes).g.nodes := fun e he => mem_prune.2
        ⟨hN.usable.roles.nodes e (Or.inl he), hnodes e ((hsd e).2 ((hdN' e).1 he))⟩
      have hUP := hR.usable hN.usable honeN hus' hdN
      obtain ⟨r, hr⟩ := exists_maxEU hN.usable honeN
      have hrP := hR.sess.max hN.usable hUP hus' hdN hr
      have hwP : SameWorld (· ∈ (c.control x).m.decisions) (s1.control x) (N.prune s1.g.nodes) :=
        hw.rest hUc.good hN.usable.good hRc hR (fun v => by
          rw [mem_prune]
          exact ⟨fun q => q.2, fun q => ⟨(hN.nodes v).2 ((hcon.nodes v).1 (hrest.sess.sub v q)), q⟩⟩)
      have := IsMaxEU.same hUs hUP (honex hones) (hwP.congr (fun v q => (hsd v).2 q)) (fun u v => by
        by_cases hv : v ∈ s1.g.nodes
        · rw [prune_edge hcl (Or.inr hv), hE]; exact hrest.sess.edges u v hv
        · constructor
          · intro q; exact absurd (hUs.good.wf.edgeNodes u v q).2 hv
          · intro q; exact absurd (prune_edge'.1 q).2.2 hv) hm2'
      rw [this.unique hrP]
      exact hr
  · obtain ⟨⟨c3, us3, hO3, hrest3⟩, m, k1, k2⟩ := optimalEU_close hUs hnames1 (honex hones) hrecs hord hset hq3
    have hk := k2 _ hUs (.rfl' _ _)
    rw [hEU] at hk
    refine ⟨fun v => by rw [hrest3.role, hO3.m]; exact hrole v, ev1, ev2, hr.symm, hm0, by rw [← hr]; exact close_loss k1 hk, ⟨_, hcon⟩, fun hq => ?_⟩
    exact absurd (recall_sub hUs.good.wf hUc.good.wf (fun v => hRc.role v) (fun v q => hrest.sess.sub v q) hrest.sess.edges
      (fun e he => ⟨hnodes e he, by rw [control_decisions, hs1d] at he; exact control_decisions.2 he⟩) (hq _ hcon)) hrecs

/-! ### single-decision diagrams -/

theorem recall_single {m : Macid} {ds : List Node} {d : Node} (h : ∀ e ∈ ds, e = d) : m.NoRelianceCycle ds := by
  intro e he
  obtain ⟨f, ⟨h1, h2, h3, _⟩, _⟩ := TransGen.head'_iff.1 he
  exact h3 ((h _ h1).trans (h _ h2).symm)

/-- **C58** in a diagram with one decision of agent 0 `quantitative_voi` is the gain in maximal expected utility and never
negative -/
theorem C58_voi_single_decision {cid : Net} (hU : cid.Usable) (hnames : NamesOk cid.g) {d : Node}
    (hd : ∀ e b, cid.m.role e = .decision b ↔ e = d ∧ b = 0) {x : Node}
    {pick : Pick} {tpick : List Node → Nat} {ord setOrd : List Node → List Node} {rnd1 rnd2 : Nat}
    (hord : ∀ l, (ord l).Perm l) (hset : ∀ l, (setOrd l).Perm l) {r : Rat}
    (h : quantitativeVoi pick tpick ord setOrd rnd1 rnd2 cid d x = .ok r) :
    ∃ r1 r2, r = r1 - r2 ∧ 0 ≤ r ∧ (∃ n, Observing cid d x n) ∧ (∀ n, Observing cid d x n → n.IsMaxEU 0 r1) ∧
      (∃ n, NotObserving cid d x n) ∧ ∀ n, NotObserving cid d x n → n.IsMaxEU 0 r2 := by
  have hs : ∀ n : Net, SameWorld (· ∈ cid.m.decisions) cid n → n.m.NoRelianceCycle n.m.decisions := fun n hw =>
    recall_single (d := d) (fun e he => by
      obtain ⟨b, hb⟩ := decisions_role.1 he
      rw [hw.roles] at hb
      exact ((hd e b).1 hb).1)
  exact C58_quantitative_voi hU hnames (fun e b q => ((hd e b).1 q).2) ((hd d 0).2 ⟨rfl, rfl⟩) (fun n hn => hs n hn.same)
    (fun n hn => hs n hn.same) hord hset h

/-- **C58** in a diagram with one decision of agent 0 `quantitative_voc` of a chance node: as above, never negative by more than
the tolerance -/
theorem C58_voc_single_decision {cid : Net} (hU : cid.Usable) (hnames : NamesOk cid.g) {d : Node}
    (hd : ∀ e b, cid.m.role e = .decision b ↔ e = d ∧ b = 0) {x : Node} (hx : cid.m.role x = .chance)
    {pick : Pick} {tpick : List Node → Nat} {ord setOrd : List Node → List Node} {rnd1 rnd2 : Nat}
    (hord : ∀ l, (ord l).Perm l) (hset : ∀ l, (setOrd l).Perm l) {after : Net} {r : Rat}
    (h : quantitativeVoc pick tpick ord setOrd rnd1 rnd2 cid x = (after, .ok r)) :
    (∀ v, after.m.role v = if v = x then .decision 0 else cid.m.role v) ∧
    ∃ r1 r2, r = r2 - r1 ∧ cid.IsMaxEU 0 r1 ∧ -(6 / 1000000000) * |r2| ≤ r ∧ (∃ n, Controlling cid x n) ∧
      ((∀ n, Controlling cid x n → n.m.NoRelianceCycle n.m.decisions) → 0 ≤ r ∧ ∀ n, Controlling cid x n → n.IsMaxEU 0 r2) :=
  C58_quantitative_voc hU hnames (fun e b q => ((hd e b).1 q).2) (recall_single (d := d) (fun e he => by
    obtain ⟨b, hb⟩ := decisions_role.1 he
    exact ((hd e b).1 hb).1)) hx hord hset h

namespace ExV

/-- X is 0; the utility is 1 if D = X = 0 and a little less if D = X = 1 -/
def utility : Func := fun pv => .ok (.val (if pv "D" = pv "X" then (if pv "X" = some 0 then 1 else 1 - 1 / 10000000000) else 0))

def rels : List (Node × Rel) := [("X", .dist [(0, some 1), (1, some 0)]), ("D", .seq [0, 1]), ("U", .func utility)]

def m : Macid := ⟨⟨["D", "U", "X"], [("D", "U"), ("X", "U")]⟩, [(0, ["D"])], [(0, ["U"])], [("D", 0)], [("U", 0)]⟩

def net : Net := ((Net.mk m [] [] [] Macid.new).addCpds rels).1

theorem usable : net.Usable ∧ net.m = m :=
  usable_of_build (edges := [("D", "U"), ("X", "U")])
    (ad := [(0, ["D"])]) (au := [(0, ["U"])]) (rels := rels) (by decide +kernel)
    (by rw [← show ((Net.mk m [] [] [] Macid.new).addCpds rels).2 = .ok () by decide +kernel]; rfl)
    (by
      intro p hp
      simp only [rels, List.mem_cons, List.not_mem_nil, or_false] at hp
      rcases hp with rfl | rfl | rfl
      · trivial
      · trivial
      · intro pv; simp [utility])
    (by decide +kernel)

theorem names : NamesOk net.g := ⟨by decide +kernel, by decide +kernel⟩

theorem one : ∀ e b, net.m.role e = .decision b ↔ e = "D" ∧ b = 0 := by
  intro e b
  rw [usable.2, role_decision]
  by_cases h : e = "D"
  · subst h; simp [m, Dict.get?, eq_comm]
  · simp [m, Dict.get?, h, Ne.symm h]

end ExV

/-- **C58** The hypotheses of `C58_voc_single_decision` are met, and "never negative" is false: control over `X` is given a
negative value when `random.choice` takes the slightly worse of the two policies that are equal up to the tolerance. -/
theorem C58_voc_negative : ExV.net.Usable ∧ NamesOk ExV.net.g ∧ (∀ e b, ExV.net.m.role e = .decision b ↔ e = "D" ∧ b = 0) ∧
    ExV.net.m.role "X" = .chance ∧
    (quantitativeVoc (fun _ => 0) (fun _ => 0) id id 0 0 ExV.net "X").2 = .ok 0 ∧
    (quantitativeVoc (fun _ => 0) (fun _ => 0) id id 0 1 ExV.net "X").2 = .ok (-(1 / 10000000000)) :=
  ⟨ExV.usable.1, ExV.names, ExV.one, by rw [ExV.usable.2]; decide, by decide +kernel, by decide +kernel⟩

/-- The hypotheses of `C58_voi_single_decision` are met: observing `X` is worth nothing, observing `A` is worth 3/4. -/
theorem C58_voi_example : (ExW.net (1 / 3)).Usable ∧ NamesOk (ExW.net (1 / 3)).g ∧
    (∀ e b, (ExW.net (1 / 3)).m.role e = .decision b ↔ e = "D" ∧ b = 0) ∧
    quantitativeVoi (fun _ => 0) (fun _ => 0) id id 0 0 (ExW.net (1 / 3)) "D" "X" = .ok 0 ∧
    quantitativeVoi (fun _ => 0) (fun _ => 0) id id 0 0 (ExW.net (1 / 3)) "D" "A" = .ok (3 / 4) := by
  refine ⟨ExW.usable.1, ?_, ?_, by decide +kernel, by decide +kernel⟩
  · show NamesOk (ExW.net (1 / 3)).m.g
    rw [ExW.usable.2]
    exact ⟨by decide +kernel, by decide +kernel⟩
  · intro e b
    rw [ExW.usable.2, role_decision]
    by_cases h : e = "D"
    · subst h; simp [exInfo, Dict.get?, eq_comm]
    · simp [exInfo, Dict.get?, h, Ne.symm h]

/-- **C58** A case with sufficient recall before and after: control over the observed `A` is worth nothing more than observing
it, control over the mediator `M` neither; the caller's diagram has been changed. -/
theorem C58_voc_example :
    (quantitativeVoc (fun _ => 0) (fun _ => 0) id id 0 0 (ExW.net (1 / 3)) "M").2 = .ok 0 ∧
    (ExW.net (1 / 3)).m.role "M" = .chance ∧
    (quantitativeVoc (fun _ => 0) (fun _ => 0) id id 0 0 (ExW.net (1 / 3)) "M").1.m.role "M" = .decision 0 := by
  decide +kernel

end Verif

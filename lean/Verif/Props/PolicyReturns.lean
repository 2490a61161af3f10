import Verif.Spec.Arise
import Verif.Spec.Efg
import Verif.Lemmas.Arise
import Verif.Props.PolicyRuns
import Verif.Props.Quantify

/-!
# C100: when `impute_optimal_policy` and `solve` return
-/

namespace Verif

open Graph Relation Macid Net

/-- optimising one decision after the other, last first -/
theorem forOptimal_runs (pick : Pick) {ord setOrd : List Node → List Node} (hord : ∀ l, (ord l).Perm l) (hset : ∀ l, (setOrd l).Perm l)
    {a : Agent} : ∀ (L : List Node) {n : Net}, n.Usable → NamesOk n.g → (∀ d ∈ L, n.m.role d = .decision a) →
      L.Nodup → L.Pairwise (fun d e => ¬ n.g.Desc d e) → (∀ d ∈ L, ∀ e ∈ n.m.decisions, n.g.Connected d e) →
      (∀ e ∈ n.m.decisions, n.undecided e = false) → (∀ d ∈ L, ∀ p ∈ n.g.parents d, n.Own p) →
      (∀ d ∈ L, (∃ u, n.m.role u = .utility a ∧ n.g.Desc d u) ∧
        ∀ b, n.InDom b → 0 < n.P (Has (n.g.parents d) ((n.g.parents d).map b))) →
      (forNet (imputeOptimal pick ord setOrd) n L).2 = .ok ()
  | [], _, _, _, _, _, _, _, _, _, _ => rfl
  | d :: L, n, hU, hnames, hrole, hnd, hpw, hcon, hrules, hown, hgood => by
    obtain ⟨hdL, hnd'⟩ := List.nodup_cons.1 hnd
    obtain ⟨hpd, hpw'⟩ := List.pairwise_cons.1 hpw
    have h0 := (C47_succeeds_iff hU hnames pick hord hset (hrole d (by simp)) (fun e he => ⟨hcon d (by simp) e he, fun _ => hrules e he⟩)
      (hown d (by simp))).2 (hgood d (by simp))
    unfold forNet
    generalize hio : imputeOptimal pick ord setOrd n d = y at h0
    obtain ⟨n', r⟩ := y
    simp only at h0
    subst h0
    simp only
    obtain ⟨_, ag, φ, hd, _, _, _, _, hU', hO', hun, _⟩ := imputeOptimal_spec hU hord hset hio
    have hap : ∀ e ∈ L, ∀ p ∈ n.g.parents e, ¬ n.g.DescEq d p := fun e he p hp hdp =>
      hpd e he (TransGen.tail' hdp (Graph.mem_parents.1 hp))
    refine forOptimal_runs pick hord hset L hU' (by rw [hO'.g]; exact hnames) (by rw [hO'.m]; exact fun e he => hrole e (by simp [he])) hnd'
      (by rw [hO'.g]; exact hpw') (by rw [hO'.m, hO'.g]; exact fun e he => hcon e (by simp [he])) ?_ ?_ ?_
    · intro e he
      rw [hO'.m] at he
      by_cases q : e = d
      · subst q; exact hun
      · rw [hO'.undecided (by simpa using q)]
        exact hrules e he
    · rw [hO'.g]
      intro e he p hp c hc
      have hpd : p ≠ d := fun q => hap e he p hp (by subst q; exact .refl)
      rw [hO'.cpds p (by simpa using hpd)] at hc
      exact hown e (by simp [he]) p hp c hc
    · rw [hO'.m, hO'.g]
      intro e he
      obtain ⟨g1, g2⟩ := hgood e (by simp [he])
      refine ⟨g1, fun b hb => ?_⟩
      rw [upstream hU hU' hO' (fun p hp => (hU.good.wf.edgeNodes p e (Graph.mem_parents.1 hp)).1) (by
        intro d' hd' p hp
        rw [List.mem_singleton] at hd'
        subst hd'
        exact hap e he p hp)]
      exact g2 b ((hO'.inDom b).1 hb)

/-- what every step has to find -/
theorem forOptimal_needs {pick : Pick} {ord setOrd : List Node → List Node} (hord : ∀ l, (ord l).Perm l) (hset : ∀ l, (setOrd l).Perm l) :
    ∀ (L : List Node) {n n' : Net}, n.Usable → forNet (imputeOptimal pick ord setOrd) n L = (n', .ok ()) →
      (n'.Usable ∧ OnlyRules n L n') ∧ ∀ d ∈ L, ∃ s, s.Usable ∧ OnlyRules n L s ∧ ∃ ag, n.m.role d = .decision ag ∧
        (∃ u, n.m.role u = .utility ag ∧ n.g.Desc d u) ∧
        ∀ b, n.InDom b → 0 < s.P (Has (n.g.parents d) ((n.g.parents d).map b))
  | [], n, n', hU, h => by
    simp only [forNet, Prod.mk.injEq, and_true] at h
    subst h
    exact ⟨⟨hU, .rfl' _ _⟩, by simp⟩
  | d :: L, n, n', hU, h => by
    unfold forNet at h
    generalize hio : imputeOptimal pick ord setOrd n d = y at h
    obtain ⟨n1, r⟩ := y
    cases r with
    | error e => simp at h
    | ok u =>
      simp only at h
      obtain ⟨_, _, _, _, _, _, _, _, hU', hO', _⟩ := imputeOptimal_spec hU hord hset hio
      obtain ⟨⟨i1, i2⟩, i3⟩ := forOptimal_needs hord hset L hU' h
      have hO'' : OnlyRules n (d :: L) n1 := hO'.mono (fun w hw => by rw [List.mem_singleton] at hw; simp [hw])
      refine ⟨⟨i1, hO''.trans i2 (fun _ h => h) (fun w hw => by simp [hw])⟩, fun e he => ?_⟩
      rcases List.mem_cons.1 he with rfl | he
      · obtain ⟨ag, k1, k2, k3⟩ := C47_needs hU hord hset hio
        exact ⟨n, hU, .rfl' _ _, ag, k1, k2, k3⟩
      · obtain ⟨s, s1, s2, ag, s3, s4, s5⟩ := i3 e he
        refine ⟨s, s1, hO''.trans s2 (fun _ h => h) (fun w hw => by simp [hw]), ag, ?_, ?_, ?_⟩
        · rw [← hO'.m]; exact s3
        · rw [← hO'.m, ← hO'.g]; exact s4
        · rw [hO'.g] at s5
          exact fun b hb => s5 b ((hO'.inDom b).2 hb)

/-- `impute_optimal_policy` once the random rules are in place -/
theorem optimal_returns {net n1 : Net} (h1 : net.imputeMixed = (n1, .ok ())) (hU1 : n1.Usable) (hroll : ∀ d ∈ n1.m.decisions, n1.Rolled d)
    (hnames : NamesOk n1.g) {a : Agent} (hone : ∀ d ∈ n1.m.decisions, n1.m.role d = .decision a)
    (hrec : n1.m.NoRelianceCycle n1.m.decisions) (hcon : ∀ d ∈ n1.m.decisions, ∀ e ∈ n1.m.decisions, n1.g.Connected d e)
    (hown : ∀ d ∈ n1.m.decisions, ∀ p, n1.g.Edge p d → p ∉ n1.m.decisions → n1.Own p)
    (pick : Pick) (tpick : List Node → Nat) {ord setOrd : List Node → List Node} (rnd : Nat)
    (hord : ∀ l, (ord l).Perm l) (hset : ∀ l, (setOrd l).Perm l) :
    (net.imputeOptimalPolicy pick tpick ord setOrd rnd).2 = .ok () ↔ n1.Optimisable a := by
  obtain ⟨b, hb, hbi⟩ := recall_true hU1 hnames hone pick tpick
  obtain ⟨out, o1, o2, o3, o4⟩ := (C14_get_valid_order n1.m hU1.roles.wf tpick n1.m.decisions).1 (fun d hd => hU1.roles.nodes d (Or.inl hd))
  have hbt : b = true := hbi.2 hrec
  subst hbt
  unfold imputeOptimalPolicy
  rw [h1]
  simp only [hb, o1]
  have hL : ∀ d, d ∈ out.reverse ↔ d ∈ n1.m.decisions := fun d => List.mem_reverse.trans (o3 d)
  constructor
  · intro h d hd
    obtain ⟨_, hs⟩ := forOptimal_needs hord hset out.reverse hU1 (n' := (forNet (imputeOptimal pick ord setOrd) n1 out.reverse).1) (by rw [← h])
    obtain ⟨s, s1, s2, ag, s3, s4, s5⟩ := hs d ((hL d).2 hd)
    rw [hone d hd] at s3
    cases s3
    exact ⟨s4, fun b hb => ⟨s, s1, s2.mono (fun w hw => (hL w).1 hw), s5 b hb⟩⟩
  · intro h
    refine forOptimal_runs pick hord hset (a := a) out.reverse hU1 hnames (fun d hd => hone d ((hL d).1 hd)) (List.nodup_reverse.2 o2)
      (by rw [List.pairwise_reverse]; exact o4) (fun d hd => hcon d ((hL d).1 hd)) (fun e he => (hroll e he).decided) ?_ ?_
    · intro d hd p hp
      by_cases q : p ∈ n1.m.decisions
      · exact (hroll p q).own
      · exact hown d ((hL d).1 hd) p (Graph.mem_parents.1 hp) q
    · intro d hd
      obtain ⟨k1, k2⟩ := h d ((hL d).1 hd)
      exact ⟨k1, fun b hb => Feasible.pos hU1 hroll ((arises_iff hU1).1 (k2 b hb))⟩

theorem Net.OnlyRules.optimisable {n n' : Net} (hU : n.Usable) (hU' : n'.Usable) (h : OnlyRules n n.m.decisions n') {a : Agent} :
    n'.Optimisable a ↔ n.Optimisable a :=
  ⟨fun q => SameWorld.optimisable hU' hU (h.m ▸ h.symm.world) (fun u v => by rw [h.g]) q,
    fun q => SameWorld.optimisable hU hU' h.world (fun u v => by rw [h.g]) q⟩

/-- **C100** One decision maker with sufficient recall; all decisions in one component, and the chance variables that decisions
observe not given as bare tables: `impute_optimal_policy` succeeds exactly if every decision can influence a utility of its
owner and everything a decision could observe can arise under some policy. -/
theorem C100_impute_optimal_policy {net : Net} (hU : net.Usable) (hnames : NamesOk net.g) {a : Agent}
    (hone : ∀ d ∈ net.m.decisions, net.m.role d = .decision a) (hrec : net.m.NoRelianceCycle net.m.decisions)
    (hcon : ∀ d ∈ net.m.decisions, ∀ e ∈ net.m.decisions, net.g.Connected d e)
    (hown : ∀ d ∈ net.m.decisions, ∀ p, net.g.Edge p d → p ∉ net.m.decisions → net.Own p)
    (pick : Pick) (tpick : List Node → Nat) {ord setOrd : List Node → List Node} (rnd : Nat)
    (hord : ∀ l, (ord l).Perm l) (hset : ∀ l, (setOrd l).Perm l) :
    (net.imputeOptimalPolicy pick tpick ord setOrd rnd).2 = .ok () ↔ net.Optimisable a := by
  obtain ⟨n1, h1, hU1, hO1, _⟩ := C49_fully_mixed hU
  rw [← hO1.optimisable hU hU1]
  refine optimal_returns h1 hU1 (by rw [hO1.m]; exact mixed_rolled hU h1) (by rw [hO1.g]; exact hnames) (by rw [hO1.m]; exact hone)
    (by rw [hO1.m]; exact hrec) (by rw [hO1.m, hO1.g]; exact hcon) ?_ pick tpick rnd hord hset
  rw [hO1.m, hO1.g]
  intro d hd p hp q c hc
  rw [hO1.cpds p q] at hc
  exact hown d hd p hp q c hc

/-- **C100** `solve` returns exactly when `impute_optimal_policy` does. -/
theorem C100_solve {net : Net} (hU : net.Usable) (hnames : NamesOk net.g) {a : Agent}
    (hone : ∀ d ∈ net.m.decisions, net.m.role d = .decision a) (hrec : net.m.NoRelianceCycle net.m.decisions)
    (hcon : ∀ d ∈ net.m.decisions, ∀ e ∈ net.m.decisions, net.g.Connected d e)
    (hown : ∀ d ∈ net.m.decisions, ∀ p, net.g.Edge p d → p ∉ net.m.decisions → net.Own p)
    (pick : Pick) (tpick : List Node → Nat) {ord setOrd : List Node → List Node} (rnd : Nat)
    (hord : ∀ l, (ord l).Perm l) (hset : ∀ l, (setOrd l).Perm l) :
    (∃ sol, net.solve pick tpick ord setOrd rnd = .ok sol) ↔ net.Optimisable a := by
  obtain ⟨copy, hc, hUc, hE, hR, hB, _⟩ := hU.copy
  have hw : SameWorld (· ∈ net.m.decisions) net copy := hE.world hR _
  have hdec := fun v => hw.decisions v
  have hnc : NamesOk copy.g := by
    unfold NamesOk at *
    rw [hE.nodes]
    exact hnames
  have honec : ∀ d ∈ copy.m.decisions, copy.m.role d = .decision a := fun d hd => by rw [hR]; exact hone d ((hdec d).1 hd)
  have hrecc : copy.m.NoRelianceCycle copy.m.decisions :=
    recall_sub hUc.good.wf hU.good.wf hR (fun v hv => by rw [← show copy.m.g.nodes = net.m.g.nodes from hE.nodes]; exact hv) (fun u v _ => hE.edges u v)
      (fun d hd => ⟨hUc.roles.nodes d (Or.inl hd), (hdec d).1 hd⟩) hrec
  have hco : ∀ u v, net.g.Connected u v → copy.g.Connected u v := fun u v =>
    ReflTransGen.mono (fun x y h => h.imp (hE.edges x y).2 (hE.edges y x).2) _ _
  have key := C100_impute_optimal_policy hUc hnc honec hrecc (fun d hd e he => hco d e (hcon d ((hdec d).1 hd) e ((hdec e).1 he)))
    (fun d hd p hp q => own_copy hU hc (hown d ((hdec d).1 hd) p ((hE.edges p d).1 hp) (fun h => q ((hdec p).2 h)))) pick tpick rnd hord hset
  have hopt : copy.Optimisable a ↔ net.Optimisable a :=
    ⟨SameWorld.optimisable hUc hU (hw.symm.congr (fun v q => (hdec v).2 q)) (fun u v => (hE.edges u v).symm), SameWorld.optimisable hU hUc hw hE.edges⟩
  rw [← hopt, ← key]
  unfold solve
  rw [hc]
  simp only
  generalize hx : copy.imputeOptimalPolicy pick tpick ord setOrd rnd = x
  obtain ⟨new, r⟩ := x
  cases r with
  | error e => simp
  | ok u =>
    simp only [iff_true]
    obtain ⟨_, k2, _⟩ := C48_impute_optimal_policy hUc hnc honec hrecc hord hset hx
    obtain ⟨ys, h, _⟩ := mapPy_ok (f := fun d => match new.getCpd d with | .error e => .error e | .ok c => .ok (d, c)) (xs := new.m.decisions) (by
      intro d hd
      have hdn : d ∈ new.g.nodes := by
        rw [k2.g]
        rw [k2.m] at hd
        exact hUc.roles.nodes d (Or.inl hd)
      simp [getCpd, hdn])
    exact ⟨ys, h⟩

theorem without_recall_returns {net : Net} (hU : net.Usable) (hnames : NamesOk net.g) {a : Agent}
    (hone : ∀ d ∈ net.m.decisions, net.m.role d = .decision a) (hrec : ¬ net.m.NoRelianceCycle net.m.decisions)
    (hconn : ∀ u v, net.m.role u = .utility a → (net.m.role v = .utility a ∨ v ∈ net.m.decisions) → net.g.Connected u v)
    (pick : Pick) (tpick : List Node → Nat) {ord setOrd : List Node → List Node} (rnd : Nat)
    (hord : ∀ l, (ord l).Perm l) (hset : ∀ l, (setOrd l).Perm l) :
    ∃ n', net.imputeOptimalPolicy pick tpick ord setOrd rnd = (n', .ok ()) ∧ ∀ d ∈ net.m.decisions, n'.undecided d = false := by
  obtain ⟨n1, h1, hU1, hO1, hmix⟩ := C49_fully_mixed hU
  obtain ⟨b, hb, hbi⟩ := recall_true hU hnames hone pick tpick
  have hbf : b = false := by
    cases b with
    | false => rfl
    | true => exact absurd (hbi.1 rfl) hrec
  subst hbf
  have hutil : ∃ u, net.m.role u = .utility a := by
    by_contra hc
    push Not at hc
    refine hrec (fun d hd => ?_)
    obtain ⟨e, ⟨k1, k2, k3, ag, u, k4, k5, _⟩, _⟩ := TransGen.head'_iff.1 hd
    rw [hone d k1] at k4
    cases k4
    exact hc u k5
  have hds : net.m.decisions ≠ [] := by
    intro e
    apply hrec
    rw [e]
    intro d hd
    obtain ⟨e, he, _⟩ := TransGen.head'_iff.1 hd
    simp at he
  unfold imputeOptimalPolicy
  rw [h1]
  simp only [hO1.m, hb]
  unfold optimalPolicies
  rw [hO1.m]
  have hn1 : NamesOk n1.g := by rw [hO1.g]; exact hnames
  have hone1 : ∀ d ∈ net.m.decisions, n1.m.role d = .decision a := by rw [hO1.m]; exact hone
  obtain ⟨res, r1, r2⟩ := C46_succeeds hU1 hn1 pick hord hset (tol := 1 / 1000000000) (by norm_num) hds hone1
    (by rw [hO1.m]; exact hutil) (by rw [hO1.m, hO1.g]; exact hconn) (by rw [hO1.m]; exact fun e he hn => absurd he hn)
  have hres := r2 (by norm_num)
  rw [r1]
  simp only
  obtain ⟨pol, hpol⟩ : ∃ pol, randomChoice rnd res = .ok pol := by
    obtain ⟨x, xs, rfl⟩ := List.exists_cons_of_ne_nil hres
    exact ⟨_, rfl⟩
  rw [hpol]
  simp only
  obtain ⟨base, pols, q1, q2, q3, q4, q5, q6, _⟩ := C46_optimal_pure_policies hU1 hn1 hord hset
    (by norm_num) (by norm_num) hds hone1 r1
  have hmm : ∀ d, d ∈ setOrd net.m.decisions.dedup ↔ d ∈ net.m.decisions :=
    fun d => ((hset net.m.decisions.dedup).mem_iff).trans List.mem_dedup
  obtain ⟨pols', p1, p2, p3, p4⟩ := purePolicies_ok q1 ((hset _).nodup_iff.2 (List.nodup_dedup _)) (ds := setOrd net.m.decisions.dedup) (fun d hd => by
    refine q1.roles.nodes d (Or.inl (Dict.mem_keys.2 ⟨a, role_decision.1 ?_⟩))
    rw [q2.roles]
    exact hone1 d ((hmm d).1 hd))
  rw [q3] at p2
  cases p2
  have hE : Equiv n1 base := Reference.equiv q2 (by rw [hO1.m]; exact fun d hd => (hmix d hd).1)
  obtain ⟨g1, g2, g3⟩ := p4 pol (q6.subset (randomChoice_mem hpol))
  obtain ⟨n2, e1, e2, e3, e4⟩ := addPolicy_usable pol hU1 (g1.equiv hE.symm q1 hU1)
  refine ⟨n2, e1, fun d hd => ?_⟩
  obtain ⟨k, hk, rfl⟩ := List.mem_map.1 (show d ∈ pol.map (·.var) by rw [g2]; exact (hmm d).2 hd)
  unfold undecided
  rw [e4 k hk]
  simpa using (g3 k hk).2

/-- **C100** One decision maker without sufficient recall, all decisions and utilities in one component: `impute_optimal_policy`
succeeds whatever can be observed. -/
theorem C100_without_recall {net : Net} (hU : net.Usable) (hnames : NamesOk net.g) {a : Agent}
    (hone : ∀ d ∈ net.m.decisions, net.m.role d = .decision a) (hrec : ¬ net.m.NoRelianceCycle net.m.decisions)
    (hconn : ∀ u v, net.m.role u = .utility a → (net.m.role v = .utility a ∨ v ∈ net.m.decisions) → net.g.Connected u v)
    (pick : Pick) (tpick : List Node → Nat) {ord setOrd : List Node → List Node} (rnd : Nat)
    (hord : ∀ l, (ord l).Perm l) (hset : ∀ l, (setOrd l).Perm l) :
    (net.imputeOptimalPolicy pick tpick ord setOrd rnd).2 = .ok () := by
  obtain ⟨n', h, _⟩ := without_recall_returns hU hnames hone hrec hconn pick tpick rnd hord hset
  rw [h]

/-- the evaluation of a policy -/
theorem evaluation_returns {c : Net} (hU : c.Usable) (hnames : NamesOk c.g) (hutil : ∃ u, c.m.role u = .utility 0)
    (hconn : ∀ u v, c.m.role u = .utility 0 → (c.m.role v = .utility 0 ∨ v ∈ c.m.decisions) → c.g.Connected u v)
    (hdec : ∀ d ∈ c.m.decisions, c.undecided d = false) (pick : Pick) {ord : List Node → List Node} (hord : ∀ l, (ord l).Perm l) :
    ∃ s ev, c.expectedUtility pick ord [] [] 0 = (s, .ok ev) := by
  obtain ⟨u0, hu0⟩ := hutil
  obtain ⟨us, hus, hu0'⟩ := (hU.roles.util.iff u0 0).1 ((role_utility hU.roles).1 hu0)
  have hmem : ∀ u ∈ us, c.m.role u = .utility 0 := fun u hu => (role_utility hU.roles).2 ((hU.roles.util.iff u 0).2 ⟨us, hus, hu⟩)
  obtain ⟨l, hl⟩ := (Sess.refl hU.good hU.normalised us).runs hU hnames pick hord (List.ne_nil_of_mem hu0')
    (fun v hv => hU.roles.nodes v (Or.inr (Dict.mem_keys.2 ⟨0, (role_utility hU.roles).1 (hmem v hv)⟩)))
    (fun u hu v hv => hconn u v (hmem u hu) (Or.inl (hmem v hv)))
    (fun d hd => ⟨(mem_keepOf hU.good.wf).2 ⟨u0, hu0', hconn u0 d hu0 (Or.inr hd)⟩, hdec d hd⟩) (ctx := []) (by simp) (by rw [P_nil hU]; norm_num)
  unfold expectedUtility
  rw [Dict.get_ok.2 hus]
  simp only
  generalize c.expectedValue pick ord us [] [] = x at hl
  obtain ⟨s2, r⟩ := x
  simp only at hl
  subst hl
  exact ⟨s2, l.sum, rfl⟩

/-- one of the two steps: impute an optimal policy and evaluate it -/
theorem optimalEU_returns {net n1 : Net} (h1 : net.imputeMixed = (n1, .ok ())) (hU1 : n1.Usable) (hroll : ∀ d ∈ n1.m.decisions, n1.Rolled d)
    (hnames : NamesOk n1.g) (hone : ∀ e b, n1.m.role e = .decision b → b = 0)
    (hrec : n1.m.NoRelianceCycle n1.m.decisions) (hutil : ∃ u, n1.m.role u = .utility 0)
    (hconn : ∀ u v, n1.m.role u = .utility 0 → (n1.m.role v = .utility 0 ∨ v ∈ n1.m.decisions) → n1.g.Connected u v)
    (hown : ∀ d ∈ n1.m.decisions, ∀ p, n1.g.Edge p d → p ∉ n1.m.decisions → n1.Own p)
    (pick : Pick) (tpick : List Node → Nat) {ord setOrd : List Node → List Node} (rnd : Nat)
    (hord : ∀ l, (ord l).Perm l) (hset : ∀ l, (setOrd l).Perm l) :
    (∃ s ev, optimalEU pick tpick ord setOrd rnd net = (s, .ok ev)) ↔ n1.Optimisable 0 := by
  have hone' : ∀ d ∈ n1.m.decisions, n1.m.role d = .decision 0 := fun d hd => by
    obtain ⟨b, hb⟩ := decisions_role.1 hd
    rw [hb, hone d b hb]
  obtain ⟨u0, hu0⟩ := hutil
  rw [← optimal_returns h1 hU1 hroll hnames hone' hrec (fun d hd e he => (hconn u0 d hu0 (Or.inr hd)).symm.trans (hconn u0 e hu0 (Or.inr he)))
    hown pick tpick rnd hord hset]
  unfold optimalEU
  generalize hq : net.imputeOptimalPolicy pick tpick ord setOrd rnd = q
  obtain ⟨c, r⟩ := q
  cases r with
  | error e => simp
  | ok _ =>
    simp only [iff_true]
    obtain ⟨k1, k2, k3, _⟩ := optimal_core h1 hU1 hnames hone' hrec hord hset hq
    refine evaluation_returns k1 (by rw [k2.g]; exact hnames) ⟨u0, by rw [k2.m]; exact hu0⟩ (by rw [k2.m, k2.g]; exact hconn) ?_ pick hord
    rw [k2.m]
    exact fun d hd => (k3 d hd).1

/-- **C100** `quantitative_voi` of a node that is not a descendant of the decision, one decision maker, sufficient recall with
and without the observation, the diagram connected, and the decisions and utilities still connected without the observation:
a number is returned exactly if, with the observation and without it, every decision can influence a utility and whatever a
decision could observe can arise. -/
theorem C100_quantitative_voi {cid : Net} (hU : cid.Usable) (hnames : NamesOk cid.g) (hone : ∀ e b, cid.m.role e = .decision b → b = 0)
    {d x : Node} (hd : cid.m.role d = .decision 0) (hx : x ∈ cid.g.nodes) (hxd : ¬ cid.g.DescEq d x)
    (hutil : ∃ u, cid.m.role u = .utility 0)
    (hrec1 : ∀ n, Observing cid d x n → n.m.NoRelianceCycle n.m.decisions)
    (hrec2 : ∀ n, NotObserving cid d x n → n.m.NoRelianceCycle n.m.decisions) (hj : Joined cid.g)
    (hconn : ∀ n, NotObserving cid d x n → ∀ u v, n.m.role u = .utility 0 → (n.m.role v = .utility 0 ∨ v ∈ n.m.decisions) → n.g.Connected u v)
    (hown : ∀ e ∈ cid.m.decisions, ∀ p, (cid.g.Edge p e ∨ (p = x ∧ e = d)) → p ∉ cid.m.decisions → cid.Own p)
    (pick : Pick) (tpick : List Node → Nat) {ord setOrd : List Node → List Node} (rnd1 rnd2 : Nat)
    (hord : ∀ l, (ord l).Perm l) (hset : ∀ l, (setOrd l).Perm l) :
    (∃ r, quantitativeVoi pick tpick ord setOrd rnd1 rnd2 cid d x = .ok r) ↔
      (∀ n, Observing cid d x n → n.Optimisable 0) ∧ ∀ n, NotObserving cid d x n → n.Optimisable 0 := by
  have hdd : d ∈ cid.m.decisions := decisions_role.2 ⟨0, hd⟩
  have hdn : d ∈ cid.g.nodes := hU.roles.nodes d (Or.inl hdd)
  have c3 : ¬ (x = d ∨ x ∈ cid.g.descendants d) := by
    rintro (rfl | q)
    · exact hxd .refl
    · exact hxd ((mem_descendants hU.good.wf).1 q).to_reflTransGen
  obtain ⟨N2, hN2⟩ := exists_notObserving (x := x) hU hdd
  obtain ⟨cp, hcp, hUc, hEq, hRc, _, _⟩ := hU.copy
  have hwc := hEq.world hRc (· ∈ cid.m.decisions)
  have hdc := fun v => hwc.decisions v
  obtain ⟨e1, he1, hed, hedE⟩ := hUc.addEdge (x := x) (d := d) (by rw [hEq.nodes]; exact hx) (by rw [hEq.nodes]; exact hdn) (by
    rw [Graph.descEq_congr hEq.edges]; exact hxd)
  obtain ⟨n0, i1, i2, i3, i4, i5, i6, i7⟩ := hed.impute hUc ((hdc d).2 hdd)
  have hw0 : SameWorld (· ∈ cid.m.decisions) cid n0 := hwc.trans (i3.congr (fun v q => (hdc v).1 q))
  have hobs0 : Observing cid d x n0 := ⟨i2, hw0, fun u v => by rw [i4, hedE, hEq.edges]⟩
  have hone0 : ∀ e b, n0.m.role e = .decision b → b = 0 := fun e b q => hone e b (by rw [← hw0.roles]; exact q)
  have hn0 : ∀ v, v ∈ n0.g.nodes ↔ v ∈ cid.g.nodes := hw0.nodes
  have hj0 : Joined n0.g := fun u hu v hv => ReflTransGen.mono (fun a b q => q.imp (fun q => (hobs0.edges a b).2 (Or.inl q))
    (fun q => (hobs0.edges b a).2 (Or.inl q))) _ _ (hj u ((hn0 u).1 hu) v ((hn0 v).1 hv))
  have hun0 : ∀ u, n0.m.role u = .utility 0 → u ∈ n0.g.nodes := fun u hu =>
    i2.roles.nodes u (Or.inr (Dict.mem_keys.2 ⟨0, (role_utility i2.roles).1 hu⟩))
  have hconn0 : ∀ u v, n0.m.role u = .utility 0 → (n0.m.role v = .utility 0 ∨ v ∈ n0.m.decisions) → n0.g.Connected u v := by
    intro u v hu hv
    refine hj0 u (hun0 u hu) v ?_
    rcases hv with hv | hv
    · exact hun0 v hv
    · exact i2.roles.nodes v (Or.inl hv)
  have hutil0 : ∃ u, n0.m.role u = .utility 0 := by
    obtain ⟨u, hu⟩ := hutil
    exact ⟨u, by rw [hw0.roles]; exact hu⟩
  have hown0 : ∀ e ∈ n0.m.decisions, ∀ p, n0.g.Edge p e → p ∉ n0.m.decisions → n0.Own p := by
    intro e he p hp hpd c hc
    rw [i5] at he hpd
    rw [i7 p hpd] at hc
    exact own_copy hU hcp (hown e ((hdc e).1 he) p ((hobs0.edges p e).1 hp) (fun q => hpd ((hdc p).2 q))) c hc
  have key1 := optimalEU_returns i1 i2 (by rw [i5]; exact i6) (namesOk_sub hnames (fun v q => (hw0.nodes v).1 q)) hone0 (hrec1 n0 hobs0)
    hutil0 hconn0 hown0 pick tpick rnd1 hord hset
  have hall1 : (∀ n, Observing cid d x n → n.Optimisable 0) ↔ n0.Optimisable 0 :=
    ⟨fun h => h n0 hobs0, fun h n hn => SameWorld.optimisable i2 hn.usable ((hw0.symm.trans hn.same).congr (fun v q => (hw0.decisions v).2 q))
      (fun u v => by rw [hn.edges, hobs0.edges]) h⟩
  rw [hall1]
  unfold quantitativeVoi
  rw [if_neg (by simpa using hx), if_neg (by simpa using hdn), if_neg c3, hcp]
  simp only
  rw [he1]
  simp only
  by_cases hopt1 : n0.Optimisable 0
  swap
  · refine iff_of_false ?_ (fun h => hopt1 h.1)
    rintro ⟨r, hr⟩
    generalize hq1 : optimalEU pick tpick ord setOrd rnd1 e1 = q1 at hr
    obtain ⟨s1, r1⟩ := q1
    cases r1 with
    | error e => simp at hr
    | ok ev => exact hopt1 (key1.1 ⟨s1, ev, hq1⟩)
  rw [and_iff_right hopt1]
  obtain ⟨s1, ev1, hq1⟩ := key1.2 hopt1
  rw [hq1]
  simp only
  obtain ⟨hm1, c, us, hc1, hc2, hus, hrest, _⟩ := optimalEU_exact i1 i2 (namesOk_sub hnames (fun v q => (hw0.nodes v).1 q)) hone0 (hrec1 n0 hobs0)
    hord hset hq1
  have hwc1 : SameWorld (· ∈ cid.m.decisions) cid c := hw0.trans (hc2.world.congr (fun v q => (hw0.decisions v).1 q))
  have honec : ∀ e b, c.m.role e = .decision b → b = 0 := fun e b q => hone e b (by rw [← hwc1.roles]; exact q)
  -- nothing is pruned
  have hjc : Joined c.g := by rw [hc2.g]; exact hj0
  have hus0 : ∃ u, u ∈ us ∧ u ∈ c.g.nodes := by
    obtain ⟨u, hu⟩ := hutil0
    rw [← hc2.m] at hu
    obtain ⟨l, h1, h2⟩ := (hc1.roles.util.iff u 0).1 ((role_utility hc1.roles).1 hu)
    rw [hus] at h1
    cases h1
    exact ⟨u, h2, hc1.roles.nodes u (Or.inr (Dict.mem_keys.2 ⟨0, (role_utility hc1.roles).1 hu⟩))⟩
  have hsn : ∀ v, v ∈ s1.g.nodes ↔ v ∈ c.g.nodes := by
    intro v
    refine ⟨hrest.sess.sub v, fun hv => hrest.sess.keep v hv ?_⟩
    obtain ⟨u, hu1, hu2⟩ := hus0
    exact (mem_keepOf hc1.good.wf).2 ⟨u, hu1, hjc u hu2 v hv⟩
  have hs1d : s1.m.decisions = c.m.decisions := by rw [hrest.sess.roles]; rfl
  have hdecs : ∀ e ∈ c.m.decisions, e ∈ s1.g.nodes := fun e he => (hsn e).2 (hc1.roles.nodes e (Or.inl he))
  have hUs1 : s1.Usable := hrest.usable hc1 honec hus hdecs
  obtain ⟨s2, t1, hUs2, hOs2, _⟩ := C49_remove_rules hUs1
  rw [t1]
  simp only
  have hds1 : ∀ v, v ∈ s1.m.decisions ↔ v ∈ cid.m.decisions := fun v => by rw [hs1d]; exact hwc1.decisions v
  have hwc1' : SameWorld (· ∈ cid.m.decisions) s1 s2 := hOs2.world.congr (fun v q => (hds1 v).1 q)
  have hEc : ∀ u v, c.g.Edge u v ↔ cid.g.Edge u v ∨ (u = x ∧ v = d) := fun u v => by rw [hc2.g]; exact hobs0.edges u v
  have hE1 : ∀ u v, s1.g.Edge u v ↔ c.g.Edge u v := fun u v =>
    ⟨fun q => (hrest.sess.edges u v (hUs1.good.wf.edgeNodes u v q).2).1 q,
      fun q => (hrest.sess.edges u v ((hsn v).2 (hc1.good.wf.edgeNodes u v q).2)).2 q⟩
  obtain ⟨n3, he3, hed3, hedE3⟩ := hUs2.removeEdge (x := x) (d := d) (by rw [hOs2.g, hE1, hEc]; exact Or.inr ⟨rfl, rfl⟩)
  rw [he3]
  simp only
  have hds2 : ∀ v, v ∈ s2.m.decisions ↔ v ∈ cid.m.decisions := fun v => by rw [hOs2.m]; exact hds1 v
  obtain ⟨n4, j1, j2, j3, j4, j5, j6, j7⟩ := hed3.impute hUs2 ((hds2 d).2 hdd)
  have hws : SameWorld (· ∈ cid.m.decisions) c s1 := by
    refine ⟨hsn, hrest.role, fun v _ => by rw [hrest.sess.dom_eq], fun v hv _ b _ => ?_⟩
    unfold kernel
    rw [hrest.sess.cpds v ((hsn v).2 hv), hrest.sess.dom]
  have hw4 : SameWorld (· ∈ cid.m.decisions) cid n4 :=
    (hwc1.trans hws).trans (hwc1'.trans (j3.congr (fun v q => (hds2 v).1 q)))
  have hE4 : ∀ u v, n4.g.Edge u v ↔ cid.g.Edge u v ∧ ¬ (u = x ∧ v = d) := fun u v => by
    rw [j4, hedE3, hOs2.g, hE1, hEc]
    tauto
  have hnot : NotObserving cid d x n4 := ⟨j2, hw4, hE4⟩
  have hone4 : ∀ e b, n4.m.role e = .decision b → b = 0 := fun e b q => hone e b (by rw [← hw4.roles]; exact q)
  have hd4 : ∀ v, v ∈ n4.m.decisions ↔ v ∈ cid.m.decisions := hw4.decisions
  have hown4 : ∀ e ∈ n4.m.decisions, ∀ p, n4.g.Edge p e → p ∉ n4.m.decisions → n4.Own p := by
    intro e he p hp hpd k hk
    have hpd2 : p ∉ s2.m.decisions := by rw [← j5]; exact hpd
    have hpn : p ∈ s1.g.nodes := (hws.nodes p).2 ((hwc1.nodes p).2 ((hw4.nodes p).1 (j2.good.wf.edgeNodes p e hp).1))
    have hpc : p ∉ n0.m.decisions := fun q => hpd ((hd4 p).2 ((hw0.decisions p).1 q))
    rw [j7 p hpd2, hOs2.cpds p (fun q => hpd ((hd4 p).2 ((hds1 p).1 q))), hrest.sess.cpds p hpn, hc2.cpds p hpc] at hk
    refine hown0 e ((hw0.decisions e).2 ((hd4 e).1 he)) p ((hobs0.edges p e).2 (Or.inl ((hE4 p e).1 hp).1)) hpc k hk
  have key2 := optimalEU_returns j1 j2 (by rw [j5]; exact j6) (namesOk_sub hnames (fun v q => (hw4.nodes v).1 q)) hone4 (hrec2 n4 hnot)
    (by obtain ⟨u, hu⟩ := hutil; exact ⟨u, by rw [hw4.roles]; exact hu⟩) (hconn n4 hnot) hown4 pick tpick rnd2 hord hset
  have hall2 : (∀ n, NotObserving cid d x n → n.Optimisable 0) ↔ n4.Optimisable 0 :=
    ⟨fun h => h n4 hnot, fun h n hn => SameWorld.optimisable j2 hn.usable ((hw4.symm.trans hn.same).congr (fun v q => (hd4 v).2 q))
      (fun u v => by rw [hn.edges, hE4]) h⟩
  rw [hall2, ← key2]
  generalize optimalEU pick tpick ord setOrd rnd2 n3 = q3
  obtain ⟨s3, r3⟩ := q3
  cases r3 with
  | error e => simp
  | ok ev2 => simp

/-- two networks in which `x` is a decision of agent 0 and everything but the decision rules is as in `cid` -/
theorem controlling_same {cid n n' : Net} {x : Node} (h : Controlling cid x n) (h' : Controlling cid x n') :
    SameWorld (· ∈ n.m.decisions) n n' ∧ ∀ u v, n'.g.Edge u v ↔ n.g.Edge u v := by
  refine ⟨⟨fun v => (h'.nodes v).trans (h.nodes v).symm, fun v => by rw [h'.roles, h.roles], fun v hv => ?_, fun v hv hd a ha => ?_⟩,
    fun u v => (h'.edges u v).trans (h.edges u v).symm⟩
  · have hv' := (h.nodes v).1 hv
    rw [h'.outcomes v hv', h.outcomes v hv']
  · have hv' := (h.nodes v).1 hv
    have ha' : cid.InDom a := fun u hu => by rw [← h.outcomes u hu]; exact ha u ((h.nodes u).2 hu)
    have hvx : v ≠ x := fun q => hd (decisions_role.2 ⟨0, by rw [h.roles, if_pos q]⟩)
    have hvd : v ∉ cid.m.decisions := fun q => by
      obtain ⟨b, hb⟩ := decisions_role.1 q
      exact hd (decisions_role.2 ⟨b, by rw [h.roles, if_neg hvx]; exact hb⟩)
    rw [h'.kernels v hv' hvd hvx a ha', h.kernels v hv' hvd hvx a ha']

/-- **C100** `quantitative_voc` of a chance node, one decision maker with sufficient recall, the diagram connected: a number is
returned exactly if every decision can influence a utility and whatever a decision could observe can arise, in the diagram
and, if it has sufficient recall also with the node as a decision, in the diagram with the node as a decision. -/
theorem C100_quantitative_voc {cid : Net} (hU : cid.Usable) (hnames : NamesOk cid.g) (hone : ∀ e b, cid.m.role e = .decision b → b = 0)
    (hrec : cid.m.NoRelianceCycle cid.m.decisions) {x : Node} (hxn : x ∈ cid.g.nodes) (hx : cid.m.role x = .chance)
    (hutil : ∃ u, cid.m.role u = .utility 0) (hj : Joined cid.g)
    (hown : ∀ e, e ∈ cid.m.decisions ∨ e = x → ∀ p, cid.g.Edge p e → p ∉ cid.m.decisions → cid.Own p)
    (pick : Pick) (tpick : List Node → Nat) {ord setOrd : List Node → List Node} (rnd1 rnd2 : Nat)
    (hord : ∀ l, (ord l).Perm l) (hset : ∀ l, (setOrd l).Perm l) :
    (∃ r, (quantitativeVoc pick tpick ord setOrd rnd1 rnd2 cid x).2 = .ok r) ↔
      cid.Optimisable 0 ∧ ∀ n, Controlling cid x n → n.m.NoRelianceCycle n.m.decisions → n.Optimisable 0 := by
  have hun : ∀ {n : Net}, n.Usable → ∀ u, n.m.role u = .utility 0 → u ∈ n.g.nodes := fun hn u hu =>
    hn.roles.nodes u (Or.inr (Dict.mem_keys.2 ⟨0, (role_utility hn.roles).1 hu⟩))
  have hcn : ∀ {n : Net}, n.Usable → Joined n.g → ∀ u v, n.m.role u = .utility 0 → (n.m.role v = .utility 0 ∨ v ∈ n.m.decisions) →
      n.g.Connected u v := by
    intro n hn hjn u v hu hv
    refine hjn u (hun hn u hu) v ?_
    rcases hv with hv | hv
    · exact hun hn v hv
    · exact hn.roles.nodes v (Or.inl hv)
  obtain ⟨n0, i1, i2, i3, _⟩ := C49_fully_mixed hU
  have key1 := optimalEU_returns i1 i2 (by rw [i3.m]; exact mixed_rolled hU i1) (by rw [i3.g]; exact hnames) (by rw [i3.m]; exact hone)
    (by rw [i3.m]; exact hrec) (by rw [i3.m]; exact hutil) (hcn i2 (by rw [i3.g]; exact hj)) (by
      rw [i3.m, i3.g]
      intro d hd p hp q c hc
      rw [i3.cpds p q] at hc
      exact hown d (Or.inl hd) p hp q c hc) pick tpick rnd1 hord hset
  rw [i3.optimisable hU i2] at key1
  unfold quantitativeVoc
  rw [if_neg (by simpa using hxn)]
  by_cases hopt : cid.Optimisable 0
  swap
  · refine iff_of_false ?_ (fun h => hopt h.1)
    rintro ⟨r, hr⟩
    generalize hq1 : optimalEU pick tpick ord setOrd rnd1 cid = q1 at hr
    obtain ⟨s1, r1⟩ := q1
    cases r1 with
    | error e => simp at hr
    | ok ev => exact hopt (key1.1 ⟨s1, ev, hq1⟩)
  rw [and_iff_right hopt]
  obtain ⟨s1, ev1, hq1⟩ := key1.2 hopt
  rw [hq1]
  simp only
  obtain ⟨hm1, c, us, hc1, hc2, hus, hrest, hev1⟩ := optimalEU_exact i1 i2 (by rw [i3.g]; exact hnames) (by rw [i3.m]; exact hone)
    (by rw [i3.m]; exact hrec) hord hset hq1
  have hO : OnlyRules cid cid.m.decisions c := i3.trans hc2 (fun _ q => q) (fun w q => by rw [i3.m] at q; exact q)
  have hjc : Joined c.g := by rw [hO.g]; exact hj
  have hsn : ∀ v, v ∈ s1.g.nodes ↔ v ∈ c.g.nodes := by
    intro v
    refine ⟨hrest.sess.sub v, fun hv => hrest.sess.keep v hv ?_⟩
    obtain ⟨u, hu⟩ := hutil
    rw [← hO.m] at hu
    obtain ⟨l, h1, h2⟩ := (hc1.roles.util.iff u 0).1 ((role_utility hc1.roles).1 hu)
    rw [hus] at h1
    cases h1
    exact (mem_keepOf hc1.good.wf).2 ⟨u, h2, hjc u (hun hc1 u hu) v hv⟩
  have hxcn : x ∈ c.g.nodes := by rw [hO.g]; exact hxn
  have hx1 : x ∈ s1.g.nodes := (hsn x).2 hxcn
  have hxc : c.m.role x = .chance := by rw [hO.m]; exact hx
  have hxs : s1.m.role x = .chance := by rw [hrest.role]; exact hxc
  rw [makeDecision_chance hx1 hxs]
  simp only
  have hcs : ({ s1 with m := { s1.m with agentDecisions := appendRole s1.m.agentDecisions 0 x, decisionAgent := s1.m.decisionAgent.set x 0 } } : Net) =
    s1.control x := rfl
  rw [hcs]
  have hs1d : s1.m.decisions = c.m.decisions := by rw [hrest.sess.roles]; rfl
  have honec : ∀ e b, c.m.role e = .decision b → b = 0 := by rw [hO.m]; exact hone
  have hUs1 : s1.Usable := hrest.usable hc1 honec hus (fun e he => (hsn e).2 (hc1.roles.nodes e (Or.inl he)))
  have h0 : ∀ {n : Net}, n.m.agentUtilities = c.m.agentUtilities → 0 ∈ n.m.agentUtilities.keys := fun e => by
    rw [e]; exact Dict.mem_keys.2 ⟨us, hus⟩
  have hUs : (s1.control x).Usable := hUs1.control hx1 hxs (h0 (by rw [hrest.sess.roles]))
  have hones : ∀ e b, (s1.control x).m.role e = .decision b → b = 0 := by
    intro e b he
    rw [control_role] at he
    split at he
    · cases he; rfl
    · exact honec e b (by rw [← hrest.role]; exact he)
  have hnames1 : NamesOk (s1.control x).g := namesOk_sub hnames (fun v q => by rw [← hO.g]; exact hrest.sess.sub v q)
  have hE1 : ∀ u v, s1.g.Edge u v ↔ c.g.Edge u v := fun u v =>
    ⟨fun q => (hrest.sess.edges u v (hUs1.good.wf.edgeNodes u v q).2).1 q,
      fun q => (hrest.sess.edges u v ((hsn v).2 (hc1.good.wf.edgeNodes u v q).2)).2 q⟩
  have hdecs : ∀ v, v ∈ (s1.control x).m.decisions ↔ v = x ∨ v ∈ cid.m.decisions := fun v => by
    rw [control_decisions, hs1d, hO.m]
  have hcon : Controlling cid x (s1.control x) := by
    refine ⟨hUs, fun v => by rw [← hO.g]; exact hsn v, fun u v => by rw [← hO.g]; exact hE1 u v,
      fun v => by rw [control_role, hrest.role, hO.m], fun v _ => ?_, fun v hvn hv hvx a ha => ?_⟩
    · rw [← hO.dom]
      exact congrFun hrest.sess.dom_eq v
    · rw [← hO.kernel hv]
      show s1.kernel v a = c.kernel v a
      unfold kernel
      rw [hrest.sess.cpds v ((hsn v).2 (by rw [hO.g]; exact hvn)), hrest.sess.dom]
  have hjs : Joined (s1.control x).g := fun u hu v hv => ReflTransGen.mono (fun a b q => q.imp (hcon.edges a b).2 (hcon.edges b a).2) _ _
    (hj u ((hcon.nodes u).1 hu) v ((hcon.nodes v).1 hv))
  have hutils : ∃ u, (s1.control x).m.role u = .utility 0 := by
    obtain ⟨u, hu⟩ := hutil
    refine ⟨u, ?_⟩
    rw [hcon.roles, if_neg (fun q => by rw [q, hx] at hu; simp at hu)]
    exact hu
  have hones' : ∀ d ∈ (s1.control x).m.decisions, (s1.control x).m.role d = .decision 0 := fun d hd => by
    obtain ⟨b, hb⟩ := decisions_role.1 hd
    rw [hb, hones d b hb]
  suffices hfin : (∃ s ev, optimalEU pick tpick ord setOrd rnd2 (s1.control x) = (s, .ok ev)) ↔
      ∀ n, Controlling cid x n → n.m.NoRelianceCycle n.m.decisions → n.Optimisable 0 by
    rw [← hfin]
    generalize optimalEU pick tpick ord setOrd rnd2 (s1.control x) = q3
    obtain ⟨s3, r3⟩ := q3
    cases r3 with
    | error e => simp
    | ok ev2 => simp
  by_cases hrecs : (s1.control x).m.NoRelianceCycle (s1.control x).m.decisions
  · obtain ⟨n1, j1, j2, j3, _⟩ := C49_fully_mixed hUs
    rw [optimalEU_returns j1 j2 (by rw [j3.m]; exact mixed_rolled hUs j1) (by rw [j3.g]; exact hnames1) (by rw [j3.m]; exact hones)
      (by rw [j3.m]; exact hrecs) (by rw [j3.m]; exact hutils) (hcn j2 (by rw [j3.g]; exact hjs)) (by
        rw [j3.m, j3.g]
        intro d hd p hp q k hk
        have hpd : p ∉ cid.m.decisions := fun h => q ((hdecs p).2 (Or.inr h))
        rw [j3.cpds p q, show (s1.control x).cpds = s1.cpds from rfl, hrest.sess.cpds p (hUs1.good.wf.edgeNodes p d hp).1, hO.cpds p hpd] at hk
        exact hown d (((hdecs d).1 hd).symm) p ((hcon.edges p d).1 hp) hpd k hk) pick tpick rnd2 hord hset, j3.optimisable hUs j2]
    exact ⟨fun h n hn _ => SameWorld.optimisable hUs hn.usable (controlling_same hcon hn).1 (controlling_same hcon hn).2 h,
      fun h => h _ hcon hrecs⟩
  · refine iff_of_true ?_ (fun n hn hrn => absurd ?_ hrecs)
    · obtain ⟨n', e1, e2⟩ := without_recall_returns hUs hnames1 hones' hrecs (hcn hUs hjs) pick tpick rnd2 hord hset
      obtain ⟨k1, k2, _⟩ := C48_without_recall hUs hnames1 hones' hrecs hord hset e1
      unfold optimalEU
      rw [e1]
      simp only
      exact evaluation_returns k1 (by rw [k2.g]; exact hnames1) (by rw [k2.m]; exact hutils) (hcn k1 (by rw [k2.g]; exact hjs))
        (by rw [k2.m]; exact e2) pick hord
    · obtain ⟨w, hE⟩ := controlling_same hn hcon
      exact recall_sub hUs.good.wf hn.usable.good.wf (fun v => w.roles v) (fun v q => (w.nodes v).1 q) (fun u v _ => hE u v)
        (fun e he => ⟨hUs.roles.nodes e (Or.inl he), (w.decisions e).1 he⟩) hrn

/-! ### examples: `X` is a copy of `W`, and `D` observes `X` and `A` -/

namespace ExW

/-- here `W` is certain, so that `X = 1` cannot be observed -/
theorem usable1 : (net 1).Usable ∧ (net 1).m = exInfo :=
  usable_of_build (edges := edges) (ad := [(0, ["D"])]) (au := [(0, ["U"])]) (rels := rels 1) (by decide +kernel)
    (by rw [← show ((Net.mk exInfo [] [] [] Macid.new).addCpds (rels 1)).2 = .ok () by decide +kernel]; rfl) (honest _) (by decide +kernel)

theorem own {q : Rat} (h : ((net q).cpds.all fun p => decide (p.2.kind ≠ .tabular)) = true) (v : Node) : (net q).Own v := fun c hc => by
  have := List.all_eq_true.1 h (v, c) (Dict.mem_of_get? hc)
  simpa using this

theorem decs : exInfo.decisions = ["D"] := rfl

theorem utils {v : Node} (h : exInfo.role v = .utility 0) : v = "U" := by
  unfold Macid.role at h
  cases h1 : exInfo.decisionAgent.get? v with
  | some a => rw [h1] at h; simp at h
  | none =>
    rw [h1] at h
    cases h2 : exInfo.utilityAgent.get? v with
    | none => rw [h2] at h; simp at h
    | some a =>
      have := Dict.mem_of_get? h2
      simp [exInfo] at this
      exact this.1

theorem joined : Joined exInfo.g := by
  have hc : ∀ v ∈ exInfo.g.nodes, exInfo.g.Connected v "D" := by
    intro v hv
    simp only [exInfo, List.mem_cons, List.not_mem_nil, or_false] at hv
    have e1 : exInfo.g.Connected "X" "D" := .single (Or.inl (by decide))
    have e2 : exInfo.g.Connected "M" "D" := .single (Or.inr (by decide))
    rcases hv with rfl | rfl | rfl | rfl | rfl | rfl
    · exact .head (Or.inl (by decide)) e1
    · exact e1
    · exact .refl
    · exact .single (Or.inl (by decide))
    · exact .head (Or.inr (by decide)) e2
    · exact e2
  exact fun u hu v hv => (hc u hu).trans (hc v hv).symm

theorem single {n : Net} (h : ∀ v, n.m.role v = exInfo.role v) : n.m.NoRelianceCycle n.m.decisions :=
  recall_single (d := "D") (fun e he => by
    obtain ⟨b, hb⟩ := decisions_role.1 he
    rw [h] at hb
    have := Dict.mem_of_get? (role_decision.1 hb)
    simp [exInfo] at this
    exact this.1)

/-- all hypotheses of the four theorems but `Usable` -/
theorem hyps {q : Rat} (hm : (net q).m = exInfo) : NamesOk (net q).g ∧ (∀ d ∈ (net q).m.decisions, (net q).m.role d = .decision 0) ∧
    (net q).m.NoRelianceCycle (net q).m.decisions ∧ (∀ d ∈ (net q).m.decisions, ∀ e ∈ (net q).m.decisions, (net q).g.Connected d e) ∧
    (∀ e b, (net q).m.role e = .decision b → b = 0) ∧ Joined (net q).g ∧
    ∀ x n, NotObserving (net q) "D" x n → ∀ u v, n.m.role u = .utility 0 → (n.m.role v = .utility 0 ∨ v ∈ n.m.decisions) → n.g.Connected u v := by
  refine ⟨?_, ?_, single (fun v => by rw [hm]), ?_, by rw [hm]; exact owner, ?_, ?_⟩
  · show NamesOk (net q).m.g
    rw [hm]
    exact ⟨by decide +kernel, by decide +kernel⟩
  · rw [hm]; decide
  · show ∀ d ∈ (net q).m.decisions, ∀ e ∈ (net q).m.decisions, (net q).m.g.Connected d e
    rw [hm, decs]
    intro d hd e he
    rw [List.mem_singleton] at hd he
    subst hd he
    exact .refl
  · show Joined (net q).m.g
    rw [hm]; exact joined
  · intro x n hn u v hu hv
    have hr : ∀ v, n.m.role v = exInfo.role v := fun v => by rw [hn.same.roles, hm]
    rw [hr] at hu
    have he : ∀ u v, exInfo.g.Edge u v → v ≠ "D" → n.g.Edge u v := fun u v h hv =>
      (hn.edges u v).2 ⟨by show (net q).m.g.Edge u v; rw [hm]; exact h, fun q => hv q.2⟩
    rw [utils hu]
    rcases hv with hv | hv
    · rw [hr] at hv
      rw [utils hv]
      exact .refl
    · obtain ⟨b, hb⟩ := decisions_role.1 hv
      rw [hr] at hb
      have := Dict.mem_of_get? (role_decision.1 hb)
      simp [exInfo] at this
      rw [this.1]
      exact .head (Or.inr (he "M" "U" (by decide) (by decide))) (.single (Or.inr (he "D" "M" (by decide) (by decide))))

end ExW

/-- **C100** The hypotheses of `C100_impute_optimal_policy` and `C100_solve` are met in two diagrams: in the first, all
observations can arise; in the second, `X = 1` cannot be observed, and there is a `RuntimeError`. -/
theorem C100_example : (ExW.net (1 / 3)).Optimisable 0 ∧ ¬ (ExW.net 1).Optimisable 0 ∧
    (∃ sol, (ExW.net (1 / 3)).solve (fun _ => 0) (fun _ => 0) id id 0 = .ok sol) ∧
    ((ExW.net 1).imputeOptimalPolicy (fun _ => 0) (fun _ => 0) id id 0).2 = .error .runtime := by
  obtain ⟨h1, h2, h3, h4, _⟩ := ExW.hyps ExW.usable.2
  obtain ⟨k1, k2, k3, k4, _⟩ := ExW.hyps ExW.usable1.2
  have hopt := (C100_impute_optimal_policy ExW.usable.1 h1 h2 h3 h4 (fun _ _ p _ _ => ExW.own (by decide +kernel) p) (fun _ => 0) (fun _ => 0)
    (ord := id) (setOrd := id) 0 (fun _ => .refl _) (fun _ => .refl _)).1 (by decide +kernel)
  have herr : ((ExW.net 1).imputeOptimalPolicy (fun _ => 0) (fun _ => 0) id id 0).2 = .error .runtime := by decide +kernel
  refine ⟨hopt, fun hq => ?_, (C100_solve ExW.usable.1 h1 h2 h3 h4 (fun _ _ p _ _ => ExW.own (by decide +kernel) p) (fun _ => 0) (fun _ => 0)
    0 (fun _ => .refl _) (fun _ => .refl _)).2 hopt, herr⟩
  have := (C100_impute_optimal_policy ExW.usable1.1 k1 k2 k3 k4 (fun _ _ p _ _ => ExW.own (by decide +kernel) p) (fun _ => 0) (fun _ => 0)
    (ord := id) (setOrd := id) 0 (fun _ => .refl _) (fun _ => .refl _)).2 hq
  rw [herr] at this
  cases this

/-- **C100** The hypotheses of `C100_quantitative_voi` and `C100_quantitative_voc` are met in the same two diagrams; in the second
neither measure returns a number. -/
theorem C100_measures_example :
    ((∀ n, Observing (ExW.net (1 / 3)) "D" "A" n → n.Optimisable 0) ∧ ∀ n, NotObserving (ExW.net (1 / 3)) "D" "A" n → n.Optimisable 0) ∧
    (∀ r, quantitativeVoi (fun _ => 0) (fun _ => 0) id id 0 0 (ExW.net 1) "D" "A" ≠ .ok r) ∧
    (∀ n, Controlling (ExW.net (1 / 3)) "M" n → n.m.NoRelianceCycle n.m.decisions → n.Optimisable 0) ∧
    ∀ r, (quantitativeVoc (fun _ => 0) (fun _ => 0) id id 0 0 (ExW.net 1) "M").2 ≠ .ok r := by
  obtain ⟨h1, _, h3, _, h5, h6, h7⟩ := ExW.hyps ExW.usable.2
  obtain ⟨k1, k2, k3, k4, k5, k6, k7⟩ := ExW.hyps ExW.usable1.2
  have v1 := C100_quantitative_voi ExW.usable.1 h1 h5 (d := "D") (x := "A") (by rw [ExW.usable.2]; decide) (by decide +kernel)
    (fun q => by
      rcases Relation.reflTransGen_iff_eq_or_transGen.1 q with q | q
      · simp at q
      · exact absurd ((mem_descendants ExW.usable.1.good.wf).2 q) (by decide +kernel))
    ⟨"U", by rw [ExW.usable.2]; decide⟩ (fun n hn => ExW.single (fun v => by rw [hn.same.roles, ExW.usable.2]))
    (fun n hn => ExW.single (fun v => by rw [hn.same.roles, ExW.usable.2])) h6 (h7 "A")
    (fun _ _ p _ _ => ExW.own (by decide +kernel) p) (fun _ => 0) (fun _ => 0) (ord := id) (setOrd := id) 0 0 (fun _ => .refl _) (fun _ => .refl _)
  have v2 := C100_quantitative_voc ExW.usable.1 h1 h5 h3 (x := "M") (by decide +kernel) (by rw [ExW.usable.2]; decide)
    ⟨"U", by rw [ExW.usable.2]; decide⟩ h6 (fun _ _ p _ _ => ExW.own (by decide +kernel) p) (fun _ => 0) (fun _ => 0)
    (ord := id) (setOrd := id) 0 0 (fun _ => .refl _) (fun _ => .refl _)
  have v3 := C100_quantitative_voc ExW.usable1.1 k1 k5 k3 (x := "M") (by decide +kernel) (by rw [ExW.usable1.2]; decide)
    ⟨"U", by rw [ExW.usable1.2]; decide⟩ k6 (fun _ _ p _ _ => ExW.own (by decide +kernel) p) (fun _ => 0) (fun _ => 0)
    (ord := id) (setOrd := id) 0 0 (fun _ => .refl _) (fun _ => .refl _)
  refine ⟨v1.1 ⟨_, C58_voi_example.2.2.2.2⟩, ?_, (v2.1 ⟨_, C58_voc_example.1⟩).2, fun r hr => C100_example.2.1 (v3.1 ⟨r, hr⟩).1⟩
  intro r hr
  have : quantitativeVoi (fun _ => 0) (fun _ => 0) id id 0 0 (ExW.net 1) "D" "A" = .error .runtime := by decide +kernel
  rw [this] at hr
  cases hr

/-- the hypotheses of `C100_without_recall` are met by two decisions that do not see each other -/
example : (Ex3.net.imputeOptimalPolicy (fun _ => 0) (fun _ => 0) id id 0).2 = .ok () := by
  obtain ⟨h1, h2, h3, h4, _⟩ := C48_without_recall_example
  refine C100_without_recall h1 h2 h3 h4 ?_ _ _ 0 (fun _ => .refl _) (fun _ => .refl _)
  have hcon : ∀ v ∈ ["D1", "U", "D2"], Ex3.net.g.Connected "U" v := by
    intro v hv
    simp only [List.mem_cons, List.not_mem_nil, or_false] at hv
    rcases hv with rfl | rfl | rfl
    · exact .single (Or.inr (by decide +kernel))
    · exact .refl
    · exact .single (Or.inr (by decide +kernel))
  have hro : ∀ v, Ex3.net.m.role v = .utility 0 → v = "U" := by
    intro v hv
    rw [role_utility Ex3.usable.1.roles, Ex3.usable.2] at hv
    have := Dict.mem_of_get? hv
    simpa [Ex3.m] using this
  rintro u v hu hv
  rw [hro u hu]
  refine hcon v ?_
  rcases hv with hv | hv
  · rw [hro v hv]; simp
  · rw [Ex3.usable.2] at hv
    have : v ∈ ["D1", "D2"] := hv
    simp only [List.mem_cons, List.not_mem_nil, or_false] at this ⊢
    tauto

end Verif

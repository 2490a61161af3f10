import Verif.Lemmas.Session
import Verif.Lemmas.Improve
import Verif.Model.Optimal

/-!
# Optimal decision rules
-/

namespace Verif

open Graph Relation

namespace Net

/-! ### expectations as sums -/

theorem doBN_nil (net : Net) : net.doBN [] = net.bn := by
  unfold doBN bn
  congr 1
  unfold CutGraph
  cases hg : net.g with
  | mk n e => simp

theorem mean_sum {net : Net} (hG : Good net) {ctx : List (Node × Outcome)} {us : List Node} (hu : ∀ u ∈ us, u ∈ net.g.nodes) :
    (us.map (net.Mean [] ctx)).sum =
      net.bn.W (fun a => (us.map a).sum * if Ctx ctx a then 1 else 0) / net.P (Ctx ctx) := by
  rw [List.map_congr_left (fun u h => Mean_eq hG (by simp) (hu u h)), ← EW_sum]
  unfold EW
  rw [doBN_nil, PDo_nil]

theorem P_true {net : Net} (hG : Good net) (hN : net.Normalised) : net.P (fun _ => true) = 1 := by
  rw [P_eq_W]
  simpa using BN.W_one (bn_prob hG hN)

theorem EU_eq {net : Net} (hU : net.Usable) (agent : Agent) :
    net.EU agent = net.bn.W (fun a => ((((net.m.agentUtilities.get? agent).getD []).map a).sum)) := by
  unfold EU
  have hu : ∀ u ∈ (net.m.agentUtilities.get? agent).getD [], u ∈ net.g.nodes := by
    intro u hu
    cases h : net.m.agentUtilities.get? agent with
    | none => simp [h] at hu
    | some l =>
      rw [h] at hu
      exact hU.roles.nodes u (Or.inr (Dict.mem_keys.2 ⟨agent, (hU.roles.util.iff u agent).2 ⟨l, h, hu⟩⟩))
  rw [mean_sum hU.good hu]
  have : net.P (Ctx []) = 1 := P_true hU.good hU.normalised
  rw [this]
  simp [Ctx]

/-! ### one rule replaced -/

theorem bn_only {net net' : Net} {d : Node} (h : OnlyRules net [d] net') : net'.bn = net.bn.withRule d (net'.kernel d) := by
  unfold bn BN.withRule
  rw [h.g, h.dom]
  congr 1
  funext v a
  by_cases e : v = d
  · subst e; simp
  · simp only [e, if_false]
    exact h.kernel (by simpa using e) a

theorem isRule_only {net net' : Net} {d : Node} (hd : d ∈ net.g.nodes) (h : OnlyRules net [d] net') (hG : Good net') (hN : net'.Normalised) :
    net.bn.IsRule d (net'.kernel d) := by
  have := BN.isRule_k (bn_prob hG hN) (d := d) (by show d ∈ net'.g.nodes; rw [h.g]; exact hd)
  obtain ⟨h1, h2, h3⟩ := this
  unfold bn at h1 h2 h3
  rw [h.g] at h1
  rw [h.g, h.dom] at h2 h3
  exact ⟨h1, h2, h3⟩

/-- a deterministic rule object made for the network and stored in it -/
theorem set_pure {net : Net} (hU : net.Usable) {d : Node} (hd : d ∈ net.g.nodes) {f : Func} {φ : List Outcome → Outcome}
    (hf : ∀ vals, Instantiation (net.g.parents d) net.domain vals → f (pvOf (net.g.parents d) vals) = .ok (.val (φ vals)) ∧
      φ vals ∈ net.dom d) :
    ∃ c net', net.newRule d f (net.dom d) = .ok c ∧ net.set d (.tab c) = (net', .ok ()) ∧ net'.Usable ∧ OnlyRules net [d] net' ∧
      net'.cpds.get? d = some c ∧ c.kind = .stochastic ∧ net'.Pure d φ := by
  obtain ⟨hn, hne⟩ := dom_props hU.good hd
  obtain ⟨c, h1, h2, h3, h4, h5, h6⟩ := mkCpd_point (kind := .stochastic) (v := d) (f := f) (ps := net.g.parents d)
    (dom := net.domain) (card := cardOf net.domain) hn hne (parents_dom hU.good d) hf
  obtain ⟨net', k1, k2, k3, k4, k5⟩ := set_newRule hU.good hd h1 h2
  have hk : ∀ a, net.InDom a → net'.kernel d a = if a d = φ ((net.g.parents d).map a) then 1 else 0 := by
    intro a ha
    rw [kernel_rule k3 k4 h1, h6 _ (h3 ▸ inst_of_inDom hU.good ha d) _ (h2 ▸ ha d hd)]
    rfl
  refine ⟨c, net', by rw [newRule_eq hU.good hd]; exact h1, k1, k3.usable hU k2 (k3.normalised hU.normalised ?_), k3, k4, h4, ?_⟩
  · intro e he hen a ha
    rw [List.mem_singleton] at he
    subst he
    refine ⟨by rw [hk a ha]; split <;> norm_num, ?_⟩
    rw [List.map_congr_left (fun x hx => hk _ (inDom_upd ha hx))]
    have hp : ∀ x, (net.g.parents e).map (Assign.upd a e x) = (net.g.parents e).map a := by
      intro x
      apply List.map_congr_left
      intro p hp
      exact Assign.upd_ne _ _ (by rintro rfl; exact hU.good.wf.acyclic p (.single (Graph.mem_parents.1 hp)))
    simp only [Assign.upd_same, hp]
    exact sum_indicator hn (hf _ (inst_of_inDom hU.good ha e)).2
  · intro a ha
    rw [k3.g]
    exact hk a ((k3.inDom a).1 ha)

/-! ### the loops of `impute_optimal_decision` -/

theorem maxBy_spec : ∀ (l : List (Outcome × Rat)) (b : Outcome × Rat), ∃ v, (maxBy b l, v) ∈ b :: l ∧ ∀ p ∈ b :: l, p.2 ≤ v
  | [], b => ⟨b.2, by simp [maxBy], by simp⟩
  | p :: l, b => by
    unfold maxBy
    split
    · rename_i hlt
      obtain ⟨v, h1, h2⟩ := maxBy_spec l p
      refine ⟨v, List.mem_cons_of_mem _ h1, ?_⟩
      intro q hq
      rcases List.mem_cons.1 hq with rfl | hq
      · exact le_trans (le_of_lt hlt) (h2 p (by simp))
      · exact h2 q hq
    · rename_i hlt
      obtain ⟨v, h1, h2⟩ := maxBy_spec l b
      refine ⟨v, ?_, ?_⟩
      · rcases List.mem_cons.1 h1 with h | h
        · rw [h]; simp
        · exact List.mem_cons_of_mem _ (List.mem_cons_of_mem _ h)
      · intro q hq
        rcases List.mem_cons.1 hq with rfl | hq
        · exact h2 q (by simp)
        · rcases List.mem_cons.1 hq with rfl | hq
          · exact le_trans (not_lt.1 hlt) (h2 b (by simp))
          · exact h2 q (by simp [hq])

theorem argmax_spec {l : List (Outcome × Rat)} {x : Outcome} (h : argmax l = .ok x) :
    ∃ v, (x, v) ∈ l ∧ ∀ p ∈ l, p.2 ≤ v := by
  cases l with
  | nil => simp [argmax] at h
  | cons b l =>
    simp only [argmax, Except.ok.injEq] at h
    subst h
    exact maxBy_spec l b

/-- value of an action in a context, as computed -/
def actVal (ord : List Node → List Node) (c : Net) (us : List Node) (ctx : List (Node × Outcome)) (d : Node) (x : Outcome) : Rat :=
  ((ord us).map (c.Mean [] (ctx ++ [(d, x)]))).sum

section
variable {c : Net} (hG : c.Good) (hN : c.Normalised) {us : List Node} {pick : Pick} {ord : List Node → List Node} (hord : ∀ l, (ord l).Perm l) {d : Node}
include hG hN hord

theorem actionValues_spec {ctx : List (Node × Outcome)} (hc : ∀ p ∈ ctx, p.1 ∈ keepOf c us) (hdk : d ∈ keepOf c us) :
    ∀ (xs : List Outcome) {s : Net}, Sess c us s → Sess c us (actionValues pick ord us ctx d s xs).1 ∧
      ∀ l, (actionValues pick ord us ctx d s xs).2 = .ok l → l = xs.map (fun x => (x, actVal ord c us ctx d x)) ∧
        ∀ x ∈ xs, c.P (Ctx (ctx ++ [(d, x)])) ≠ 0
  | [], s, hs => ⟨hs, by intro l hl; simp only [actionValues, Except.ok.injEq] at hl; subst hl; simp⟩
  | x :: xs, s, hs => by
    have hs' := hs.step hG pick ord (ctx ++ [(d, x)])
    have hval := fun l => hs.value (l := l) hG hN (pick := pick) hord (ctx := ctx ++ [(d, x)]) (by
      intro p hp _
      rcases List.mem_append.1 hp with hp | hp
      · exact hc p hp
      · rw [List.mem_singleton] at hp; subst hp; exact hdk)
    unfold actionValues
    generalize hy : s.expectedValue pick ord us (ctx ++ [(d, x)]) [] = y at hs' hval
    obtain ⟨s1, r⟩ := y
    cases r with
    | error e => exact ⟨hs', by simp⟩
    | ok l =>
      obtain ⟨_, _, hP, hl⟩ := hval l rfl
      obtain ⟨ih1, ih2⟩ := actionValues_spec hc hdk xs hs'
      simp only
      generalize hz : actionValues pick ord us ctx d s1 xs = z at ih1 ih2
      obtain ⟨s2, r2⟩ := z
      cases r2 with
      | error e => exact ⟨ih1, by simp⟩
      | ok rest =>
        refine ⟨ih1, ?_⟩
        intro l' hl'
        simp only [Except.ok.injEq] at hl'
        obtain ⟨e1, e2⟩ := ih2 rest rfl
        subst hl'
        rw [e1, hl]
        refine ⟨rfl, ?_⟩
        intro y hy
        rcases List.mem_cons.1 hy with rfl | hy
        · exact hP
        · exact e2 y hy

theorem optTable_spec {dom : List Outcome} {ps : List Node} (hps : ∀ p ∈ ps, p ∈ keepOf c us) (hdk : d ∈ keepOf c us) :
    ∀ (cs : List (List Outcome)) {s : Net}, Sess c us s → Sess c us (optTable pick ord us d dom ps s cs).1 ∧
      ∀ t, (optTable pick ord us d dom ps s cs).2 = .ok t → t.map (·.1) = cs ∧
        ∀ e ∈ t, e.2 ∈ dom ∧ (∀ y ∈ dom, actVal ord c us (ps.zip e.1) d y ≤ actVal ord c us (ps.zip e.1) d e.2) ∧
          ∀ y ∈ dom, c.P (Ctx (ps.zip e.1 ++ [(d, y)])) ≠ 0
  | [], s, hs => ⟨hs, by intro l hl; simp only [optTable, Except.ok.injEq] at hl; subst hl; simp⟩
  | vals :: cs, s, hs => by
    obtain ⟨a1, a2⟩ := actionValues_spec hG hN (pick := pick) hord (d := d) (ctx := ps.zip vals)
      (fun p hp => hps p.1 (List.of_mem_zip hp).1) hdk dom hs
    unfold optTable optAction
    generalize hy : actionValues pick ord us (ps.zip vals) d s dom = y at a1 a2
    obtain ⟨s1, r⟩ := y
    cases r with
    | error e => exact ⟨a1, by simp⟩
    | ok eu =>
      obtain ⟨e1, e2⟩ := a2 eu rfl
      simp only
      cases hx : argmax eu with
      | error e => exact ⟨a1, by simp⟩
      | ok x =>
        obtain ⟨v, hv1, hv2⟩ := argmax_spec hx
        obtain ⟨ih1, ih2⟩ := optTable_spec hps hdk cs a1
        simp only
        generalize hz : optTable pick ord us d dom ps s1 cs = z at ih1 ih2
        obtain ⟨s2, r2⟩ := z
        cases r2 with
        | error e => exact ⟨ih1, by simp⟩
        | ok t =>
          refine ⟨ih1, ?_⟩
          intro t' ht'
          simp only [Except.ok.injEq] at ht'
          subst ht'
          obtain ⟨i1, i2⟩ := ih2 t rfl
          refine ⟨by simp [i1], ?_⟩
          intro e he
          rcases List.mem_cons.1 he with rfl | he
          · rw [e1] at hv1 hv2
            obtain ⟨x', hx', hxe⟩ := List.mem_map.1 hv1
            cases hxe
            refine ⟨hx', fun y hy => hv2 _ (List.mem_map_of_mem hy), fun y hy => e2 y hy⟩
          · exact i2 e he

end

theorem expectedValue_nil {s : Net} (hG : s.Good) (hN : s.Normalised) (pick : Pick) {ord : List Node → List Node}
    (hord : ∀ l, (ord l).Perm l) (ctx : List (Node × Outcome)) (l : List Rat) :
    (s.expectedValue pick ord [] ctx []).2 ≠ .ok l := by
  intro he
  unfold expectedValue at he
  generalize hx : s.query pick ord [] ctx [] = x at he
  obtain ⟨n, y⟩ := x
  cases y with
  | error e => simp at he
  | ok f =>
    obtain ⟨h1, _, h3⟩ := query_ok hG (f := f) (by rw [hx])
    exact (queryOn_ok hG hN hord (fun p hp => (h1 p hp).1) h3).1 rfl

theorem optTable_nil {s : Net} (hG : s.Good) (hN : s.Normalised) (pick : Pick) {ord : List Node → List Node}
    (hord : ∀ l, (ord l).Perm l) (d : Node) {dom : List Outcome} (hne : dom ≠ []) (ps : List Node) {cs : List (List Outcome)}
    (hcs : cs ≠ []) (t : List (List Outcome × Outcome)) : (optTable pick ord [] d dom ps s cs).2 ≠ .ok t := by
  obtain ⟨vals, cs, rfl⟩ := List.exists_cons_of_ne_nil hcs
  obtain ⟨x, dom, rfl⟩ := List.exists_cons_of_ne_nil hne
  have := expectedValue_nil hG hN pick hord (ps.zip vals ++ [(d, x)])
  unfold optTable optAction actionValues
  generalize s.expectedValue pick ord [] (ps.zip vals ++ [(d, x)]) [] = y at this
  obtain ⟨s1, r⟩ := y
  cases r with
  | error e => simp
  | ok l => exact absurd rfl (this l)

/-- a context and an action as an event -/
theorem ctx_fam {ps : List Node} {d : Node} (hd : d ∉ ps) (z : Assign) (x : Outcome) (a : Assign) :
    Ctx (ps.zip (ps.map z) ++ [(d, x)]) a = true ↔ ∀ v ∈ d :: ps, a v = Assign.upd z d x v := by
  rw [ctx_append, Bool.and_eq_true, ctx_zip (by simp)]
  have h2 : (∀ v ∈ d :: ps, a v = Assign.upd z d x v) ↔ a d = x ∧ ∀ v ∈ ps, a v = z v := by
    simp only [List.forall_mem_cons, Assign.upd_same]
    refine and_congr Iff.rfl (forall₂_congr (fun v hv => ?_))
    have hvd : v ≠ d := by rintro rfl; exact hd hv
    rw [Assign.upd_ne _ _ hvd]
  rw [h2, and_comm]
  refine and_congr (by simp [Ctx]) ?_
  unfold Has
  rw [decide_eq_true_eq]
  exact List.map_inj_left

/-- the sum of conditional expectations given context and action -/
theorem mean_act {net : Net} (hG : Good net) (hN : net.Normalised) {d : Node} (hd : d ∈ net.g.nodes) {us : List Node}
    (hu : ∀ u ∈ us, u ∈ net.g.nodes) (z : Assign) (x : Outcome) :
    net.P (Ctx ((net.g.parents d).zip ((net.g.parents d).map z) ++ [(d, x)])) =
      net.kernel d (Assign.upd z d x) * net.bn.act d (net.g.parents d) z x (fun _ => 1) ∧
    (us.map (net.Mean [] ((net.g.parents d).zip ((net.g.parents d).map z) ++ [(d, x)]))).sum =
      net.kernel d (Assign.upd z d x) * net.bn.act d (net.g.parents d) z x (fun a => (us.map a).sum) /
      (net.kernel d (Assign.upd z d x) * net.bn.act d (net.g.parents d) z x (fun _ => 1)) := by
  have hB := bn_prob hG hN
  have hZ : ∀ v, v ∈ net.g.parents d ↔ net.bn.g.Edge v d := fun v => Graph.mem_parents
  have hdZ := BN.not_mem_parents hB hZ
  have key := fun h => BN.W_fam hB hd hZ (hB.scope d hd) z x h
  rw [BN.withRule_self] at key
  have key : ∀ h, net.bn.W (BN.at_ (d :: net.g.parents d) (Assign.upd z d x) h) =
    net.kernel d (Assign.upd z d x) * net.bn.act d (net.g.parents d) z x h := key
  have hP : net.P (Ctx ((net.g.parents d).zip ((net.g.parents d).map z) ++ [(d, x)])) =
      net.kernel d (Assign.upd z d x) * net.bn.act d (net.g.parents d) z x (fun _ => 1) := by
    rw [P_eq_W, ← key (fun _ => 1)]
    congr 1
    funext a
    unfold BN.at_
    by_cases h : Ctx ((net.g.parents d).zip ((net.g.parents d).map z) ++ [(d, x)]) a = true
    · rw [if_pos h, if_pos ((ctx_fam hdZ z x a).1 h)]
    · rw [if_neg h, if_neg (fun h' => h ((ctx_fam hdZ z x a).2 h'))]
  refine ⟨hP, ?_⟩
  rw [mean_sum hG hu, hP, ← key (fun a => (us.map a).sum)]
  congr 2
  funext a
  unfold BN.at_
  by_cases h : Ctx ((net.g.parents d).zip ((net.g.parents d).map z) ++ [(d, x)]) a = true
  · rw [if_pos h, if_pos ((ctx_fam hdZ z x a).1 h), mul_one]
  · rw [if_neg h, if_neg (fun h' => h ((ctx_fam hdZ z x a).2 h')), mul_zero]

theorem mean_equiv {net net' : Net} (h : Equiv net net') (ctx : List (Node × Outcome)) {v : Node} (hv : v ∈ net.g.nodes) :
    net'.Mean [] ctx v = net.Mean [] ctx v := by
  have hP : ∀ E, net'.P E = net.P E := P_equiv h.nodes (fun v hv => by rw [h.dom hv]) h.kernel
  unfold Mean
  simp only [PDo_nil, hP, h.dom hv]

/-- the utility nodes of an agent that the decision can influence -/
def descUtils (net : Net) (agent : Agent) (d : Node) : List Node :=
  ((net.m.agentUtilities.get? agent).getD []).filter (fun u => decide (u ∈ net.g.descendants d))

/-- what `impute_optimal_decision` has achieved when it returns -/
theorem imputeOptimal_spec {net : Net} (hU : net.Usable) {pick : Pick} {ord setOrd : List Node → List Node}
    (hord : ∀ l, (ord l).Perm l) (hset : ∀ l, (setOrd l).Perm l) {d : Node} {net' : Net}
    (h : imputeOptimal pick ord setOrd net d = (net', .ok ())) :
    ∃ n1 agent φ, d ∈ net.g.nodes ∧ net.m.role d = .decision agent ∧ net.imputeRandom d = (n1, .ok ()) ∧ n1.Usable ∧
      OnlyRules net [d] n1 ∧ net'.Usable ∧ OnlyRules net [d] net' ∧ net'.undecided d = false ∧ net'.Pure d φ ∧
      (∀ vals, Instantiation (net.g.parents d) net.domain vals → φ vals ∈ net.dom d) ∧
      descUtils net agent d ≠ [] ∧
      ∀ z : Assign, (∀ p ∈ net.g.parents d, z p ∈ net.dom p) → ∀ x ∈ net.dom d,
        0 < n1.bn.act d (net.g.parents d) z x (fun _ => 1) ∧
        n1.bn.act d (net.g.parents d) z x (fun a => ((descUtils net agent d).map a).sum) ≤
          n1.bn.act d (net.g.parents d) z (φ ((net.g.parents d).map z)) (fun a => ((descUtils net agent d).map a).sum) := by
  unfold imputeOptimal at h
  have hd : d ∈ net.g.nodes := by
    by_contra hd
    have hnone : ∀ dom, net.newRule d (randomFunc dom) dom = .error .nx := by
      intro dom
      simp [newRule, hd]
    unfold imputeRandom at h
    cases hdd : net.domain.get? d with
    | none => simp [hdd] at h
    | some dom => simp [hdd, hnone] at h
  obtain ⟨n1, c1, h1, hU1, hO1, hc1, hk1, hker⟩ := imputeRandom_usable hU hd
  simp only [h1] at h
  have hd1 : d ∈ n1.g.nodes := by rw [hO1.g]; exact hd
  obtain ⟨c0, hc0, hdom0⟩ := hU1.good.complete d hd1
  have hdomd : n1.dom d = c0.domain := dom_eq hdom0
  rw [show n1.domain.get d = .ok c0.domain from Dict.get_ok.2 hdom0] at h
  simp only at h
  cases hag : n1.m.decisionAgent.get d with
  | error e => simp [hag] at h
  | ok agent =>
    simp only [hag] at h
    have hag' := Dict.get_ok.1 hag
    cases hut : n1.m.agentUtilities.get agent with
    | error e => simp [hut] at h
    | ok utils =>
      simp only [hut] at h
      have hut' := Dict.get_ok.1 hut
      obtain ⟨c, hc1', hc2, hc3, hc4, hc5, hc6⟩ := hU1.copy
      simp only [hc1'] at h
      obtain ⟨ds, hds⟩ : ∃ ds, parentDoms (n1.g.parents d) n1.domain = .ok ds := by
        obtain ⟨ds, h, _⟩ := mapPy_ok (f := domOf n1.domain) (xs := n1.g.parents d) (by
          intro p hp
          obtain ⟨x, h, _⟩ := parents_dom hU1.good d p hp
          exact ⟨x, domOf_ok.2 h⟩)
        exact ⟨ds, h⟩
      have hds' := parentDoms_ok.1 hds
      simp only [hds] at h
      -- the queried nodes
      have hfil : (n1.m.agentUtilities.get? agent).getD [] = utils := by rw [hut']; rfl
      have hdu : descUtils n1 agent d = utils.filter (fun u => decide (u ∈ n1.g.descendants d)) := by
        unfold descUtils; rw [hfil]
      have hnd : (descUtils n1 agent d).Nodup := by
        rw [hdu]
        exact (hU1.roles.util.nodup agent utils hut').filter _
      rw [← hdu, List.Nodup.dedup hnd] at h
      have hus := hset (descUtils n1 agent d)
      generalize hq : setOrd (descUtils n1 agent d) = us at h hus
      have hdesc : ∀ u ∈ us, n1.g.Desc d u := by
        intro u hu
        have := hus.mem_iff.1 hu
        rw [hdu, List.mem_filter, decide_eq_true_eq] at this
        exact (Graph.mem_descendants hU1.good.wf).1 this.2
      have hun : ∀ u ∈ us, u ∈ n1.g.nodes := by
        intro u hu
        have := hus.mem_iff.1 hu
        rw [hdu, List.mem_filter] at this
        exact hU1.roles.nodes u (Or.inr (Dict.mem_keys.2 ⟨agent, (hU1.roles.util.iff u agent).2 ⟨utils, hut', this.1⟩⟩))
      obtain ⟨hdn, hdne⟩ := dom_props hU1.good hd1
      rw [← hdomd] at h
      generalize htab : (optTable pick ord us d (n1.dom d) (n1.g.parents d) c (product ds)).2 = rt at h
      cases rt with
      | error e => simp at h
      | ok t =>
        simp only at h
        have hcs : product ds ≠ [] := by
          have : ∀ l : List (List Outcome), (∀ x ∈ l, x ≠ []) → product l ≠ [] := by
            intro l
            induction l with
            | nil => simp [product]
            | cons x l ih =>
              intro hl
              obtain ⟨y, ys, hy⟩ := List.exists_cons_of_ne_nil (hl x (by simp))
              obtain ⟨z, zs, hz⟩ := List.exists_cons_of_ne_nil (ih (fun w hw => hl w (by simp [hw])))
              simp [product, hy, hz]
          apply this
          intro x hx
          obtain ⟨i, hi, rfl⟩ := List.getElem_of_mem hx
          have hlen := hds'.length_eq
          have hget := (List.forall₂_iff_get.1 hds').2 i (by rw [hlen]; exact hi) hi
          have hpn : (n1.g.parents d)[i]'(by rw [hlen]; exact hi) ∈ n1.g.nodes :=
            (hU1.good.wf.edgeNodes _ d (Graph.mem_parents.1 (List.getElem_mem _))).1
          have := (dom_props hU1.good hpn).2
          have e : n1.dom ((n1.g.parents d)[i]'(by rw [hlen]; exact hi)) = ds[i] := dom_eq hget
          rw [e] at this
          exact this
        have hne : us ≠ [] := by
          rintro rfl
          exact optTable_nil hc2.good hc2.normalised pick hord d hdne _ hcs t htab
        obtain ⟨u0, us', hu0⟩ := List.exists_cons_of_ne_nil hne
        have hadj : ∀ u v, n1.g.Connected u v → c.g.Connected u v := by
          intro u v huv
          exact ReflTransGen.mono (fun a b h => h.imp (fun h => (hc3.edges _ _).2 h) (fun h => (hc3.edges _ _).2 h)) _ _ huv
        have hdk : d ∈ keepOf c us := by
          rw [mem_keepOf hc2.good.wf]
          refine ⟨u0, by rw [hu0]; simp, hadj _ _ (Graph.Connected.symm ?_)⟩
          have := (hdesc u0 (by rw [hu0]; simp))
          exact ReflTransGen.mono (fun a b h => Or.inl h) _ _ this.to_reflTransGen
        have hps : ∀ p ∈ n1.g.parents d, p ∈ keepOf c us := by
          intro p hp
          have hcl : Closed c.g (keepOf c us) := closed_keep hc2.good.wf us
          exact hcl d p (Or.inr ((hc3.edges _ _).2 (Graph.mem_parents.1 hp))) hdk
        obtain ⟨_, ht⟩ := optTable_spec hc2.good hc2.normalised (us := us) (pick := pick) hord (d := d) (dom := n1.dom d) hps hdk (product ds)
          (Sess.refl hc2.good hc2.normalised us)
        obtain ⟨ht1, ht2⟩ := ht t htab
        -- the chosen action
        have hget : ∀ vals, Instantiation (n1.g.parents d) n1.domain vals → ∃ x, Dict.get? t vals = some x ∧ (vals, x) ∈ t := by
          intro vals hv
          have hm : vals ∈ t.map (·.1) := by rw [ht1]; exact (inst_iff hds').2 hv
          obtain ⟨x, hx⟩ := Dict.mem_keys.1 (show vals ∈ Dict.keys t from hm)
          exact ⟨x, hx, Dict.mem_of_get? hx⟩
        let φ : List Outcome → Outcome := fun vals => (Dict.get? t vals).getD 0
        have hφ : ∀ vals, Instantiation (n1.g.parents d) n1.domain vals → (vals, φ vals) ∈ t := by
          intro vals hv
          obtain ⟨x, hx, hm⟩ := hget vals hv
          simp only [φ, hx]
          exact hm
        have hfun : ∀ vals, Instantiation (n1.g.parents d) n1.domain vals →
            optFunc (n1.g.parents d) t (pvOf (n1.g.parents d) vals) = .ok (.val (φ vals)) ∧ φ vals ∈ n1.dom d := by
          intro vals hv
          refine ⟨?_, (ht2 _ (hφ vals hv)).1⟩
          obtain ⟨x, hx, hm⟩ := hget vals hv
          have hmap : (n1.g.parents d).map (fun p => (pvOf (n1.g.parents d) vals p).getD 0) = vals := by
            have hl : (n1.g.parents d).length = vals.length := hv.length_eq
            apply List.ext_getElem
            · simpa using hl
            · intro i h1 h2
              simp only [List.getElem_map, pvOf]
              rw [get?_zip (Graph.nodup_parents hU1.good.wf.edgesNodup d) (by simpa using h1) h2]
              rfl
          unfold optFunc
          rw [hmap, hx]
          simp only [φ, hx]
          rfl
        obtain ⟨cp, net2, g1, g2, g3, g4, g5, g6, g7⟩ := set_pure hU1 hd1 hfun
        rw [g1] at h
        simp only [g2, Prod.mk.injEq, and_true] at h
        subst h
        have hgp : n1.g.parents d = net.g.parents d := by rw [hO1.g]
        have hdm : n1.dom = net.dom := hO1.dom
        have hdu' : descUtils n1 agent d = descUtils net agent d := by
          unfold descUtils; rw [hO1.m, hO1.g]
        refine ⟨n1, agent, φ, hd, ?_, h1, hU1, hO1, g3, hO1.trans g4 (fun w hw => hw) (fun w hw => hw), ?_, g7, ?_, ?_, ?_⟩
        · unfold Macid.role
          rw [← hO1.m, hag']
        · unfold undecided
          rw [g5]
          simp [g6]
        · intro vals hv
          rw [← hdm]
          exact (hfun vals (by rw [hgp, hO1.domain]; exact hv)).2
        · rw [← hdu']
          intro e
          rw [e] at hus
          exact hne hus.eq_nil
        · intro z0 hz0 x hx
          rw [← hgp] at hz0 ⊢
          rw [← hdm] at hz0 hx
          rw [← hdu']
          have hB := bn_prob hU1.good hU1.normalised
          have hZ : ∀ v, v ∈ n1.g.parents d ↔ n1.bn.g.Edge v d := fun v => Graph.mem_parents
          have hdZ := BN.not_mem_parents hB hZ
          obtain ⟨z, hz, hzz⟩ := exists_inDom hU1.good z0 (· ∈ n1.g.parents d) (fun u hu _ => hz0 u hu)
          have hmz : (n1.g.parents d).map z0 = (n1.g.parents d).map z := List.map_congr_left (fun v hv => (hzz v hv).symm)
          rw [BN.act_congr hdZ (fun v hv => (hzz v hv).symm) x, BN.act_congr hdZ (fun v hv => (hzz v hv).symm) x,
            BN.act_congr hdZ (fun v hv => (hzz v hv).symm), hmz]
          have hvi := inst_of_inDom hU1.good hz d
          obtain ⟨t1, t2, t3⟩ := ht2 _ (hφ _ hvi)
          have hlen : (0 : Rat) < 1 / ((n1.dom d).length : Rat) := by
            have := List.length_pos_iff.2 hdne
            positivity
          have hkz : ∀ y ∈ n1.dom d, n1.kernel d (Assign.upd z d y) = 1 / ((n1.dom d).length : Rat) := by
            intro y hy
            rw [hker _ ((hO1.inDom _).1 (inDom_upd hz hy)), hdm]
          have hval : ∀ y ∈ n1.dom d, n1.bn.act d (n1.g.parents d) z y (fun _ => 1) ≠ 0 ∧
              actVal ord c us ((n1.g.parents d).zip ((n1.g.parents d).map z)) d y =
                n1.bn.act d (n1.g.parents d) z y (fun a => ((descUtils n1 agent d).map a).sum) /
                n1.bn.act d (n1.g.parents d) z y (fun _ => 1) := by
            intro y hy
            obtain ⟨m1, m2⟩ := mean_act hU1.good hU1.normalised hd1 hun z y
            have hPe : c.P (Ctx ((n1.g.parents d).zip ((n1.g.parents d).map z) ++ [(d, y)])) =
                n1.P (Ctx ((n1.g.parents d).zip ((n1.g.parents d).map z) ++ [(d, y)])) :=
              P_equiv hc3.nodes (fun v hv => by rw [hc3.dom hv]) hc3.kernel _
            have hne := t3 y hy
            rw [hPe, m1, hkz y hy] at hne
            refine ⟨fun e => hne (by rw [e, mul_zero]), ?_⟩
            unfold actVal
            rw [((hord us).map _).sum_eq, List.map_congr_left (fun u hu => mean_equiv hc3 _ (hun u hu)), m2, hkz y hy,
              mul_div_mul_left _ _ (ne_of_gt hlen)]
            congr 2
            funext a
            exact (hus.map a).sum_eq
          have hx' := hval x hx
          have hφx := hval _ t1
          have hpe := BN.act_one hB hd1 hZ hx t1 z
          have hp0 := BN.act_nonneg hB hd1 hZ hx z (h := fun _ => 1) (fun _ => by norm_num)
          have hpp : 0 < n1.bn.act d (n1.g.parents d) z x (fun _ => 1) := lt_of_le_of_ne hp0 (Ne.symm hx'.1)
          refine ⟨hpp, ?_⟩
          have := t2 x hx
          rw [hx'.2, hφx.2, ← hpe, div_le_div_iff_of_pos_right hpp] at this
          exact this

/-- the event weights with the rule of `d` left out do not depend on that rule -/
theorem act_only {net n1 : Net} {d : Node} (h : OnlyRules net [d] n1) (Z : List Node) (z : Assign) (x : Outcome) (f : Assign → Rat) :
    n1.bn.act d Z z x f = net.bn.act d Z z x f := by
  unfold BN.act
  rw [bn_only h, BN.withRule_withRule]

theorem sum_split (l : List Node) (p : Node → Bool) (a : Assign) :
    (l.map a).sum = ((l.filter p).map a).sum + ((l.filter (fun u => !p u)).map a).sum := by
  induction l with
  | nil => simp
  | cons u l ih =>
    simp only [List.filter_cons, List.map_cons, List.sum_cons, ih]
    by_cases h : p u = true
    · simp only [h, if_true, Bool.not_true, Bool.false_eq_true, if_false, List.map_cons, List.sum_cons]; ring
    · simp only [h, Bool.false_eq_true, if_false, Bool.not_false, if_true, List.map_cons, List.sum_cons]; ring

/-- A pure rule that picks an action of maximal weight in every context is at least as good as any other rule. -/
theorem EU_le_of_act {net : Net} (hU : net.Usable) {d : Node} {agent : Agent} (hrole : net.m.role d = .decision agent)
    (hd : d ∈ net.g.nodes) {net' net'' : Net} (hU' : net'.Usable) (hO' : OnlyRules net [d] net') {φ : List Outcome → Outcome}
    (hpure : net'.Pure d φ) (hφ : ∀ vals, Instantiation (net.g.parents d) net.domain vals → φ vals ∈ net.dom d)
    (hmax : ∀ z : Assign, (∀ p ∈ net.g.parents d, z p ∈ net.dom p) → ∀ x ∈ net.dom d,
        net.bn.act d (net.g.parents d) z x (fun a => ((descUtils net agent d).map a).sum) ≤
          net.bn.act d (net.g.parents d) z (φ ((net.g.parents d).map z)) (fun a => ((descUtils net agent d).map a).sum))
    (hU'' : net''.Usable) (hO'' : OnlyRules net [d] net'') : net''.EU agent ≤ net'.EU agent := by
  have hB := bn_prob hU.good hU.normalised
  have hZ : ∀ v, v ∈ net.g.parents d ↔ net.bn.g.Edge v d := fun v => Graph.mem_parents
  have hr' := isRule_only hd hO' hU'.good hU'.normalised
  have hr'' := isRule_only hd hO'' hU''.good hU''.normalised
  -- split the utilities
  let us := (net.m.agentUtilities.get? agent).getD []
  have hsplit : ∀ a : Assign, (us.map a).sum = ((descUtils net agent d).map a).sum +
      ((us.filter (fun u => !decide (u ∈ net.g.descendants d))).map a).sum := by
    exact fun a => sum_split us (fun u => decide (u ∈ net.g.descendants d)) a
  have hEU : ∀ n : Net, n.Usable → OnlyRules net [d] n → n.EU agent =
      (net.bn.withRule d (n.kernel d)).W (fun a => ((descUtils net agent d).map a).sum) +
      (net.bn.withRule d (n.kernel d)).W (fun a => ((us.filter (fun u => !decide (u ∈ net.g.descendants d))).map a).sum) := by
    intro n hn hO
    rw [EU_eq hn, bn_only hO, hO.m, ← BN.W_add]
    congr 1
    funext a
    exact hsplit a
  rw [hEU net'' hU'' hO'', hEU net' hU' hO']
  apply add_le_add
  · have hbest := BN.best_response hB hd hZ (Graph.nodup_parents hU.good.wf.edgesNodup d)
      (h := fun a => ((descUtils net agent d).map a).sum) (φ := fun a => φ ((net.g.parents d).map a))
      (fun a b hab => by
        simp only
        rw [List.map_congr_left (fun v hv => hab v hv)])
      (fun z hz => by
        obtain ⟨b, hb, hbz⟩ := exists_inDom hU.good z (· ∈ net.g.parents d) (fun u hu _ => hz u hu)
        rw [← List.map_congr_left (fun v hv => hbz v hv)]
        exact hφ _ (inst_of_inDom hU.good hb d))
      (fun z hz x hx => hmax z hz x hx) hr''
    refine le_trans hbest (le_of_eq ?_)
    rw [BN.W_withRule hB.wf.nodesNodup hd, BN.W_withRule hB.wf.nodesNodup hd (net'.kernel d)]
    apply BN.W_congr
    intro a ha
    have := hpure a ((hO'.inDom a).2 ha)
    rw [hO'.g] at this
    rw [this]
  · apply le_of_eq
    apply BN.W_nondesc hB hr'' hr'
    intro a b hab
    simp only
    congr 1
    apply List.map_congr_left
    intro u hu
    obtain ⟨h1, h2⟩ := List.mem_filter.1 hu
    apply hab
    have huu : u ∈ net.m.utilities := by
      cases h : net.m.agentUtilities.get? agent with
      | none => simp [us, h] at h1
      | some l =>
        simp only [us, h, Option.getD_some] at h1
        exact Dict.mem_keys.2 ⟨agent, (hU.roles.util.iff u agent).2 ⟨l, h, h1⟩⟩
    refine ⟨hU.roles.nodes u (Or.inr huu), fun hdu => ?_⟩
    rcases ReflTransGen.cases_head_iff.1 hdu with rfl | ⟨w, hw1, hw2⟩
    · have hdd : d ∈ net.m.decisions := by
        unfold Macid.role at hrole
        cases h : net.m.decisionAgent.get? d with
        | some a => exact Dict.mem_keys.2 ⟨a, h⟩
        | none =>
          rw [h] at hrole
          simp only at hrole
          split at hrole <;> simp at hrole
      exact hU.roles.disj d hdd huu
    · have : u ∈ net.g.descendants d := (Graph.mem_descendants hU.good.wf).2 (TransGen.head'_iff.2 ⟨w, hw1, hw2⟩)
      simp [this] at h2

end Net
end Verif

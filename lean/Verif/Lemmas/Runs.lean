import Verif.Lemmas.Optimal

/-!
# When optimal rules are found
-/

namespace Verif

open Graph Relation Macid

namespace Net

theorem own_copy {net net' : Net} (hU : net.Usable) (hc : net.copy = .ok net') {v : Node} (ho : net.Own v) :
    net'.Own v := by
  obtain ⟨net2, h1, h2, h3, h4, h5, h6, h7, h8, _⟩ := copy_spec hU.good hU.roles hU.base hU.staffed.both
  rw [hc] at h1
  cases h1
  intro c hcv hk
  obtain ⟨_, r', hr', hcomp⟩ := h2.reflects v c hcv
  obtain ⟨r, hr, hcr⟩ := h8 v r' hr'
  have hv := hU.good.relNodes v (Dict.mem_keys.2 ⟨r, hr⟩)
  obtain ⟨c0, hc0, _⟩ := hU.good.complete v hv
  obtain ⟨_, r0, hr0, hcomp0⟩ := hU.good.reflects v c0 hc0
  rw [hr] at hr0
  cases hr0
  have hk0 := ho c0 hc0
  cases r with
  | func f =>
    simp only [copyRel, Except.ok.injEq] at hcr
    subst hcr
    unfold computed at hcomp
    have := (mkCpd_fields hcomp).2.2.1
    rw [hk] at this; simp at this
  | dist f =>
    simp only [copyRel, Except.ok.injEq] at hcr
    subst hcr
    unfold computed at hcomp
    have := (mkCpd_fields hcomp).2.2.1
    rw [hk] at this; simp at this
  | seq f =>
    simp only [copyRel, Except.ok.injEq] at hcr
    subst hcr
    unfold computed at hcomp
    have := (mkCpd_fields hcomp).2.2.1
    rw [hk] at this; simp at this
  | tab c1 =>
    simp only [computed, Except.ok.injEq] at hcomp0
    subst hcomp0
    have hd : ∀ k, k ≠ .tabular → (∃ c2, mkCpd k c1.var c1.func c1.force (net.g.parents v) net.domain net.card = .ok c2 ∧ r' = .tab c2) → False := by
      rintro k hkk ⟨c2, e1, rfl⟩
      simp only [computed, Except.ok.injEq] at hcomp
      subst hcomp
      have := (mkCpd_fields e1).2.2.1
      rw [hk] at this
      exact hkk this.symm
    unfold copyRel at hcr
    cases hkk : c1.kind with
    | tabular => exact hk0 hkk
    | decision =>
      simp only [hkk] at hcr
      cases hm : mkCpd .decision c1.var c1.func c1.force (net.g.parents v) net.domain net.card with
      | error e => simp [hm] at hcr
      | ok c2 => simp only [hm, Except.ok.injEq] at hcr; exact hd .decision (by simp) ⟨c2, hm, hcr.symm⟩
    | stochastic =>
      simp only [hkk] at hcr
      cases hm : mkCpd .stochastic c1.var c1.func c1.force (net.g.parents v) net.domain net.card with
      | error e => simp [hm] at hcr
      | ok c2 => simp only [hm, Except.ok.injEq] at hcr; exact hd .stochastic (by simp) ⟨c2, hm, hcr.symm⟩
    | constant =>
      simp only [hkk] at hcr
      cases hm : mkCpd .stochastic c1.var c1.func c1.force (net.g.parents v) net.domain net.card with
      | error e => simp [hm] at hcr
      | ok c2 => simp only [hm, Except.ok.injEq] at hcr; exact hd .stochastic (by simp) ⟨c2, hm, hcr.symm⟩

/-- queries of a session are answered, under conditions that can be checked on the original network -/
theorem Sess.runs {c s : Net} {q : List Node} (h : Sess c q s) (hU : c.Usable) (hnames : NamesOk c.g) (pick : Pick)
    {ord : List Node → List Node} (hord : ∀ l, (ord l).Perm l) (hq : q ≠ []) (hqn : ∀ v ∈ q, v ∈ c.g.nodes)
    (hqc : ∀ u ∈ q, ∀ v ∈ q, c.g.Connected u v)
    (hdec : ∀ d ∈ c.m.decisions, d ∈ keepOf c q ∧ c.undecided d = false)
    {ctx : List (Node × Outcome)}
    (hctx : ∀ p ∈ ctx, p.1 ∈ c.g.nodes ∧ p.1 ∈ keepOf c q ∧ p.2 ∈ c.dom p.1 ∧ c.Own p.1 ∧ p.1 ∉ q)
    (hpos : c.P (Ctx ctx) ≠ 0) : ∃ l, (s.expectedValue pick ord q ctx []).2 = .ok l := by
  have hG := hU.good
  have hm : s.m.decisions = c.m.decisions := by
    rw [h.roles]; rfl
  have hds : ∀ d ∈ s.m.decisions, d ∈ s.g.nodes := by
    intro d hd
    rw [hm] at hd
    exact h.keep d (hU.roles.nodes d (Or.inl hd)) (hdec d hd).1
  have hns : NamesOk s.g := ⟨fun u hu v hv => hnames.1 u (h.sub u hu) v (h.sub v hv), fun v hv => hnames.2 v (h.sub v hv)⟩
  have hcs : ∀ p ∈ ctx, p.1 ∈ s.g.nodes ∧ p.2 ∈ s.dom p.1 ∧ ∀ cc, s.cpds.get? p.1 = some cc → cc.kind ≠ .tabular := by
    intro p hp
    obtain ⟨a1, a2, a3, a4, a5⟩ := hctx p hp
    have hn := h.keep _ a1 a2
    refine ⟨hn, ?_, fun cc hcc => a4 cc (by rw [← h.cpds _ hn]; exact hcc)⟩
    unfold Net.dom at a3 ⊢
    rw [h.dom]; exact a3
  obtain ⟨mg, _, hpass, _⟩ := policiesOk_spec h.good hds hns pick (q := q) (ctx := ctx) (int := [])
    (fun p hp => (hcs p hp).1) (by simp)
  have hpol := hpass (by
    intro d hd hu
    rw [hm] at hd
    have : s.undecided d = c.undecided d := by
      unfold undecided
      rw [h.cpds d (h.keep d (hU.roles.nodes d (Or.inl hd)) (hdec d hd).1)]
    rw [this, (hdec d hd).2] at hu
    simp at hu)
  have hqp := query_pass h.good (ord := ord) hcs hpol
  have hqs : ∀ v ∈ q, v ∈ s.g.nodes := fun v hv => h.keep v (hqn v hv) ((mem_keepOf hG.wf).2 ⟨v, hv, .refl⟩)
  obtain ⟨_, _, h3⟩ := queryOn_spec h.good h.normalised hord q (ctx := ctx) (fun p hp => (hcs p hp).1)
  obtain ⟨_, _, h4⟩ := h3 hqs hq
  obtain ⟨_, h5⟩ := h4 (fun u hu v hv => (h.conn u hu v).2 (hqc u hu v hv))
  obtain ⟨f, hf1, hf2⟩ := h5 (fun v hv hin => by
    obtain ⟨p, hp, rfl⟩ := List.mem_map.1 hin
    exact (hctx p hp).2.2.2.2 hv)
  have hcx : ctxOf s q ctx = ctx := by
    apply List.filter_eq_self.2
    intro p hp
    rw [decide_eq_true_eq, h.mem_keep hG]
    exact (hctx p hp).2.1
  rw [hcx] at hf2
  have hdc : DependsOn (Ctx ctx) (fun v => v ∈ c.g.nodes ∧ v ∈ keepOf c q) :=
    (ctx_depends _).mono (fun v hv => by obtain ⟨p, hp, rfl⟩ := List.mem_map.1 hv; exact ⟨(hctx p hp).1, (hctx p hp).2.1⟩)
  have e := evOf_conditional h.good (int := []) (by simp) (by rw [PDo_nil, h.P hG hU.normalised _ hdc]; exact hpos) hqs (dom' := s.dom) (fun _ _ => .refl _)
    (f := f) (ctx := ctx) (by rw [show s.PDo [] = s.P from funext (PDo_nil s)]; exact hf2)
  refine ⟨f.vars.map (s.Mean [] ctx), ?_⟩
  unfold expectedValue
  rw [hqp]
  show (match s.queryOn ord q ctx with
    | (net', .error e) => (net', .error e)
    | (net', .ok f) => (net', evOf f) : Net × Py (List Rat)).2 = _
  generalize s.queryOn ord q ctx = y at hf1
  obtain ⟨n, r⟩ := y
  simp only at hf1
  subst hf1
  exact e

section
variable {c : Net} (hU : c.Usable) (hnames : NamesOk c.g) {us : List Node} {pick : Pick} {ord : List Node → List Node}
  (hord : ∀ l, (ord l).Perm l) {d : Node} (hq : us ≠ []) (hqn : ∀ v ∈ us, v ∈ c.g.nodes)
  (hqc : ∀ u ∈ us, ∀ v ∈ us, c.g.Connected u v) (hdec : ∀ d ∈ c.m.decisions, d ∈ keepOf c us ∧ c.undecided d = false)
include hU hnames hord hq hqn hqc hdec

theorem actionValues_runs {ctx : List (Node × Outcome)} : ∀ (xs : List Outcome),
    (∀ x ∈ xs, c.P (Ctx (ctx ++ [(d, x)])) ≠ 0 ∧ ∀ p ∈ ctx ++ [(d, x)], p.1 ∈ c.g.nodes ∧ p.1 ∈ keepOf c us ∧
      p.2 ∈ c.dom p.1 ∧ c.Own p.1 ∧ p.1 ∉ us) →
    ∀ {s : Net}, Sess c us s → ∃ l, (actionValues pick ord us ctx d s xs).2 = .ok l
  | [], _, s, hs => ⟨[], rfl⟩
  | x :: xs, hp, s, hs => by
    obtain ⟨l, hl⟩ := hs.runs hU hnames pick hord hq hqn hqc hdec (ctx := ctx ++ [(d, x)]) (hp x (by simp)).2 (hp x (by simp)).1
    have hs' := hs.step hU.good pick ord (ctx ++ [(d, x)])
    unfold actionValues
    generalize s.expectedValue pick ord us (ctx ++ [(d, x)]) [] = y at hs' hl
    obtain ⟨s1, r⟩ := y
    simp only at hl
    subst hl
    simp only
    obtain ⟨rest, hr⟩ := actionValues_runs xs (fun x hx => hp x (by simp [hx])) hs'
    generalize actionValues pick ord us ctx d s1 xs = z at hr
    obtain ⟨s2, r2⟩ := z
    simp only at hr
    subst hr
    exact ⟨_, rfl⟩

theorem optTable_runs {dom : List Outcome} (hdom : dom ≠ []) {ps : List Node} (hdk : d ∈ keepOf c us) (hps : ∀ p ∈ ps, p ∈ keepOf c us) :
    ∀ (cs : List (List Outcome)), (∀ vals ∈ cs, ∀ x ∈ dom, c.P (Ctx (ps.zip vals ++ [(d, x)])) ≠ 0 ∧
      ∀ p ∈ ps.zip vals ++ [(d, x)], p.1 ∈ c.g.nodes ∧ p.1 ∈ keepOf c us ∧ p.2 ∈ c.dom p.1 ∧ c.Own p.1 ∧ p.1 ∉ us) →
    ∀ {s : Net}, Sess c us s → ∃ t, (optTable pick ord us d dom ps s cs).2 = .ok t
  | [], _, s, hs => ⟨[], rfl⟩
  | vals :: cs, hp, s, hs => by
    obtain ⟨eu, hl⟩ := actionValues_runs hU hnames (pick := pick) hord hq hqn hqc hdec (d := d) (ctx := ps.zip vals) dom (hp vals (by simp)) hs
    obtain ⟨a1, a2⟩ := actionValues_spec hU.good hU.normalised (pick := pick) hord (d := d) (ctx := ps.zip vals) (us := us)
      (fun p hp => hps p.1 (List.of_mem_zip hp).1) hdk dom hs
    unfold optTable optAction
    generalize actionValues pick ord us (ps.zip vals) d s dom = y at hl a1 a2
    obtain ⟨s1, r⟩ := y
    simp only at hl
    subst hl
    obtain ⟨e1, _⟩ := a2 eu rfl
    obtain ⟨x, dom', rfl⟩ := List.exists_cons_of_ne_nil hdom
    simp only
    rw [e1]
    simp only [List.map_cons, argmax]
    obtain ⟨t, ht⟩ := optTable_runs hdom hdk hps cs (fun vals hv => hp vals (by simp [hv])) a1
    generalize optTable pick ord us d (x :: dom') ps s1 cs = z at ht
    obtain ⟨s2, r2⟩ := z
    simp only at ht
    subst ht
    exact ⟨_, rfl⟩

end

/-- the probability of a context of `d` -/
theorem act_context {net : Net} (hG : Good net) (hN : net.Normalised) {d : Node} (hd : d ∈ net.g.nodes) (z : Assign)
    (hz : ∀ p ∈ net.g.parents d, z p ∈ net.dom p) {x : Outcome} (hx : x ∈ net.dom d) :
    net.bn.act d (net.g.parents d) z x (fun _ => 1) = net.P (Has (net.g.parents d) ((net.g.parents d).map z)) := by
  have hB := bn_prob hG hN
  have hZ : ∀ v, v ∈ net.g.parents d ↔ net.bn.g.Edge v d := fun v => Graph.mem_parents
  have e := BN.W_ctx hB hd hZ (hB.scope d hd) z (fun _ => 1)
  rw [BN.withRule_self] at e
  rw [P_eq_W]
  have : (fun a => if Has (net.g.parents d) ((net.g.parents d).map z) a = true then (1 : Rat) else 0) =
      BN.at_ (net.g.parents d) z (fun _ => 1) := by
    funext a
    unfold BN.at_ Has
    simp only [decide_eq_true_eq, List.map_inj_left]
  rw [this, e, List.map_congr_left (fun y hy => by rw [BN.act_one hB hd hZ hy hx z]), List.sum_map_mul_right,
    hB.norm d hd z (fun p hp => hz p ((hZ p).2 hp)), one_mul]

theorem P_context_only {net n1 : Net} {d : Node} (hU : net.Usable) (hU1 : n1.Usable) (hO : OnlyRules net [d] n1) (hd : d ∈ net.g.nodes)
    (vals : List Outcome) (hv : Instantiation (net.g.parents d) net.domain vals) :
    n1.P (Has (net.g.parents d) vals) = net.P (Has (net.g.parents d) vals) := by
  obtain ⟨x, hx⟩ := List.exists_mem_of_ne_nil _ (dom_props hU.good hd).2
  have hnd := Graph.nodup_parents hU.good.wf.edgesNodup d
  have hl : (net.g.parents d).length = vals.length := hv.length_eq
  have hmap : (net.g.parents d).map (fun v => (Dict.get? ((net.g.parents d).zip vals) v).getD 0) = vals := by
    apply List.ext_getElem
    · simpa using hl
    · intro i h1 h2
      simp only [List.getElem_map]
      rw [get?_zip hnd (by simpa using h1) h2]
      rfl
  have hz : ∀ p ∈ net.g.parents d, (Dict.get? ((net.g.parents d).zip vals) p).getD 0 ∈ net.dom p := by
    have := hv
    rw [← hmap] at this
    unfold Instantiation at this
    rw [List.forall₂_map_right_iff, List.forall₂_same] at this
    intro p hp
    obtain ⟨ds, h1, h2⟩ := this p hp
    unfold Net.dom
    rw [h1]
    exact h2
  have e1 := act_context hU.good hU.normalised hd _ hz hx
  have e2 := act_context hU1.good hU1.normalised (d := d) (by rw [hO.g]; exact hd) _ (by rw [hO.g, hO.dom]; exact hz) (by rw [hO.dom]; exact hx)
  rw [hO.g, act_only hO, e1, hmap] at e2
  exact e2.symm

/-- `impute_optimal_decision` succeeds -/
theorem imputeOptimal_runs {net : Net} (hU : net.Usable) (hnames : NamesOk net.g) {pick : Pick} {ord setOrd : List Node → List Node}
    (hord : ∀ l, (ord l).Perm l) (hset : ∀ l, (setOrd l).Perm l) {d : Node} {agent : Agent} (hrole : net.m.role d = .decision agent)
    (hne : descUtils net agent d ≠ []) (hdec : ∀ e ∈ net.m.decisions, net.g.Connected d e ∧ (e ≠ d → net.undecided e = false))
    (hown : ∀ p ∈ net.g.parents d, net.Own p)
    (hpos : ∀ vals, Instantiation (net.g.parents d) net.domain vals → net.P (Has (net.g.parents d) vals) ≠ 0) :
    ∃ net', imputeOptimal pick ord setOrd net d = (net', .ok ()) := by
  have hag : net.m.decisionAgent.get? d = some agent := role_decision.1 hrole
  have hdd : d ∈ net.m.decisions := Dict.mem_keys.2 ⟨agent, hag⟩
  have hd : d ∈ net.g.nodes := hU.roles.nodes d (Or.inl hdd)
  obtain ⟨n1, c1, h1, hU1, hO1, hc1, hk1, hker⟩ := imputeRandom_usable hU hd
  have hd1 : d ∈ n1.g.nodes := by rw [hO1.g]; exact hd
  obtain ⟨c0, hc0, hdom0⟩ := hU1.good.complete d hd1
  have hdomd : n1.dom d = c0.domain := dom_eq hdom0
  have hgp : n1.g.parents d = net.g.parents d := by rw [hO1.g]
  have hdu' : descUtils n1 agent d = descUtils net agent d := by
    unfold descUtils; rw [hO1.m, hO1.g]
  have hag1 : n1.m.decisionAgent.get? d = some agent := by rw [hO1.m]; exact hag
  obtain ⟨utils, hut⟩ : ∃ utils, n1.m.agentUtilities.get? agent = some utils := by
    cases h : n1.m.agentUtilities.get? agent with
    | some l => exact ⟨l, rfl⟩
    | none =>
      exfalso
      rw [← hdu'] at hne
      apply hne
      unfold descUtils
      rw [h]
      rfl
  obtain ⟨c, hc1', hc2, hc3, hc4, hc5, hc6⟩ := hU1.copy
  obtain ⟨ds, hds⟩ : ∃ ds, parentDoms (n1.g.parents d) n1.domain = .ok ds := by
    obtain ⟨ds, h, _⟩ := mapPy_ok (f := domOf n1.domain) (xs := n1.g.parents d) (by
      intro p hp
      obtain ⟨x, h, _⟩ := parents_dom hU1.good d p hp
      exact ⟨x, domOf_ok.2 h⟩)
    exact ⟨ds, h⟩
  have hds' := parentDoms_ok.1 hds
  have hdu : descUtils n1 agent d = utils.filter (fun u => decide (u ∈ n1.g.descendants d)) := by
    unfold descUtils; rw [hut]; rfl
  have hnd : (descUtils n1 agent d).Nodup := by
    rw [hdu]
    exact (hU1.roles.util.nodup agent utils hut).filter _
  unfold imputeOptimal
  simp only [h1]
  rw [show n1.domain.get d = .ok c0.domain from Dict.get_ok.2 hdom0]
  simp only
  rw [show n1.m.decisionAgent.get d = .ok agent from Dict.get_ok.2 hag1]
  simp only
  rw [show n1.m.agentUtilities.get agent = .ok utils from Dict.get_ok.2 hut]
  simp only [hc1', hds]
  rw [← hdu, List.Nodup.dedup hnd]
  have hus := hset (descUtils n1 agent d)
  generalize hq : setOrd (descUtils n1 agent d) = us at hus
  have hdesc : ∀ u ∈ us, n1.g.Desc d u := by
    intro u hu
    have := hus.mem_iff.1 hu
    rw [hdu, List.mem_filter, decide_eq_true_eq] at this
    exact (Graph.mem_descendants hU1.good.wf).1 this.2
  have hun : ∀ u ∈ us, u ∈ n1.g.nodes := by
    intro u hu
    have := hus.mem_iff.1 hu
    rw [hdu, List.mem_filter] at this
    exact hU1.roles.nodes u (Or.inr (Dict.mem_keys.2 ⟨agent, (hU1.roles.util.iff u agent).2 ⟨utils, hut, this.1⟩⟩))
  have husne : us ≠ [] := by
    rintro rfl
    rw [← hdu'] at hne
    exact hne hus.symm.eq_nil
  obtain ⟨u0, us', hu0⟩ := List.exists_cons_of_ne_nil husne
  have hadj : ∀ u v, n1.g.Connected u v → c.g.Connected u v := by
    intro u v huv
    exact ReflTransGen.mono (fun a b h => h.imp (fun h => (hc3.edges _ _).2 h) (fun h => (hc3.edges _ _).2 h)) _ _ huv
  have hdu0 : ∀ u ∈ us, c.g.Connected d u := by
    intro u hu
    refine hadj _ _ ?_
    exact ReflTransGen.mono (fun a b h => Or.inl h) _ _ (hdesc u hu).to_reflTransGen
  have hkeep : ∀ v, c.g.Connected d v → v ∈ keepOf c us := by
    intro v hv
    rw [mem_keepOf hc2.good.wf]
    exact ⟨u0, by rw [hu0]; simp, (Graph.Connected.symm (hdu0 u0 (by rw [hu0]; simp))).trans hv⟩
  have hdk : d ∈ keepOf c us := hkeep d .refl
  have hps : ∀ p ∈ n1.g.parents d, p ∈ keepOf c us := by
    intro p hp
    exact hkeep p (.single (Or.inr ((hc3.edges _ _).2 (Graph.mem_parents.1 hp))))
  have hdZ : d ∉ n1.g.parents d := fun h => hU1.good.wf.acyclic d (.single (Graph.mem_parents.1 h))
  have hdecc : ∀ e ∈ c.m.decisions, e ∈ net.m.decisions := by
    intro e he
    obtain ⟨a, ha⟩ := Dict.mem_keys.1 he
    have := (hc4 e).symm.trans (role_decision.2 ha)
    rw [hO1.m] at this
    exact Dict.mem_keys.2 ⟨a, role_decision.1 this⟩
  have hB1 := bn_prob hU1.good hU1.normalised
  have hlen : (0 : Rat) < 1 / ((net.dom d).length : Rat) := by
    have := List.length_pos_iff.2 (dom_props hU.good hd).2
    positivity
  obtain ⟨t, ht⟩ := optTable_runs hc2 (c := c) (us := us) (pick := pick) (ord := ord) (d := d) (dom := c0.domain) (ps := n1.g.parents d)
    (by
      refine ⟨fun u hu v hv => hnames.1 u ?_ v ?_, fun v hv => hnames.2 v ?_⟩
      all_goals rw [← hO1.g, ← hc3.nodes]; assumption)
    hord husne (fun v hv => by rw [hc3.nodes]; exact hun v hv)
    (fun u hu v hv => (Graph.Connected.symm (hdu0 u hu)).trans (hdu0 v hv))
    (by
      intro e he
      have he' := hdecc e he
      have hen := hU.roles.nodes e (Or.inl he')
      obtain ⟨k1, k2⟩ := hdec e he'
      refine ⟨hkeep e (hadj _ _ (by rw [hO1.g]; exact k1)), ?_⟩
      rw [hc3.undecided e (by rw [hO1.g]; exact hen)]
      by_cases hed : e = d
      · subst hed
        simp [undecided, hc1, hk1]
      · rw [hO1.undecided (by simpa using hed)]
        exact k2 hed)
    (by rw [← hdomd]; exact (dom_props hU1.good hd1).2) hdk hps (product ds)
    (by
      intro vals hv x hx
      have hvi : Instantiation (n1.g.parents d) n1.domain vals := (inst_iff hds').1 hv
      have hl : (n1.g.parents d).length = vals.length := hvi.length_eq
      have hndp := Graph.nodup_parents hU1.good.wf.edgesNodup d
      have hmap : (n1.g.parents d).map (fun v => (Dict.get? ((n1.g.parents d).zip vals) v).getD 0) = vals := by
        apply List.ext_getElem
        · simpa using hl
        · intro i h1 h2
          simp only [List.getElem_map]
          rw [get?_zip hndp (by simpa using h1) h2]
          rfl
      have hz : ∀ p ∈ n1.g.parents d, (Dict.get? ((n1.g.parents d).zip vals) p).getD 0 ∈ n1.dom p := by
        have := hvi
        rw [← hmap] at this
        unfold Instantiation at this
        rw [List.forall₂_map_right_iff, List.forall₂_same] at this
        intro p hp
        obtain ⟨ds, h1, h2⟩ := this p hp
        unfold Net.dom
        rw [h1]
        exact h2
      rw [← hdomd] at hx
      constructor
      · rw [show c.P (Ctx ((n1.g.parents d).zip vals ++ [(d, x)])) = n1.P (Ctx ((n1.g.parents d).zip vals ++ [(d, x)])) from
          P_equiv hc3.nodes (fun v hv => by rw [hc3.dom hv]) hc3.kernel _]
        obtain ⟨b, hb, hbz⟩ := exists_inDom hU1.good (fun v => (Dict.get? ((n1.g.parents d).zip vals) v).getD 0) (· ∈ n1.g.parents d) (fun u hu _ => hz u hu)
        have hmb : (n1.g.parents d).map b = vals := by
          rw [← hmap]
          exact List.map_congr_left (fun v hv => hbz v hv)
        have hm := (mean_act hU1.good hU1.normalised hd1 hun b x).1
        rw [hmb] at hm
        rw [hm, act_context hU1.good hU1.normalised hd1 b (fun p hp => by rw [hbz p hp]; exact hz p hp) hx,
          hker _ ((hO1.inDom _).1 (inDom_upd hb hx)), hmb]
        apply mul_ne_zero (ne_of_gt hlen)
        rw [hgp, P_context_only hU hU1 hO1 hd vals (by rw [← hgp, ← hO1.domain]; exact hvi)]
        exact hpos vals (by rw [← hgp, ← hO1.domain]; exact hvi)
      · intro p hp
        rcases List.mem_append.1 hp with hp | hp
        · have hpp := (List.of_mem_zip hp).1
          have hpn := (hU1.good.wf.edgeNodes _ d (Graph.mem_parents.1 hpp)).1
          have hpd : p.1 ≠ d := by rintro e; rw [e] at hpp; exact hdZ hpp
          refine ⟨by rw [hc3.nodes]; exact hpn, hps _ hpp, ?_, ?_, ?_⟩
          · rw [hc3.dom hpn]
            obtain ⟨i, hi, he⟩ := List.getElem_of_mem hp
            have h1 : i < (n1.g.parents d).length := by simp at hi; omega
            have h2 : i < vals.length := by simp at hi; omega
            have hpe : p = ((n1.g.parents d)[i], vals[i]) := by rw [← he]; simp
            have := (List.forall₂_iff_get.1 hvi).2 i h1 h2
            obtain ⟨dd, e1, e2⟩ := this
            rw [hpe]
            unfold Net.dom
            simp only [List.get_eq_getElem] at e1 e2 ⊢
            rw [e1]
            exact e2
          · apply own_copy hU1 hc1'
            intro cc hcc
            rw [hO1.cpds _ (by simpa using hpd)] at hcc
            exact hown p.1 (by rw [← hgp]; exact hpp) cc hcc
          · intro hpu
            exact hU1.good.wf.acyclic d ((hdesc _ hpu).tail (Graph.mem_parents.1 hpp))
        · rw [List.mem_singleton] at hp
          subst hp
          refine ⟨by rw [hc3.nodes]; exact hd1, hdk, by rw [hc3.dom hd1]; exact hx, ?_, fun hu => hU1.good.wf.acyclic d (hdesc d hu)⟩
          apply own_copy hU1 hc1'
          intro cc hcc
          rw [hc1] at hcc
          cases hcc
          rw [hk1]
          simp)
    (Sess.refl hc2.good hc2.normalised us)
  rw [ht]
  simp only
  -- storing the rule
  obtain ⟨_, hts⟩ := optTable_spec hc2.good hc2.normalised (us := us) (pick := pick) hord (d := d) (dom := c0.domain) hps hdk (product ds)
    (Sess.refl hc2.good hc2.normalised us)
  obtain ⟨ht1, ht2⟩ := hts t ht
  have hget : ∀ vals, Instantiation (n1.g.parents d) n1.domain vals → ∃ x, Dict.get? t vals = some x ∧ x ∈ n1.dom d := by
    intro vals hv
    have hm : vals ∈ t.map (·.1) := by rw [ht1]; exact (inst_iff hds').2 hv
    obtain ⟨x, hx⟩ := Dict.mem_keys.1 (show vals ∈ Dict.keys t from hm)
    exact ⟨x, hx, by rw [hdomd]; exact (ht2 _ (Dict.mem_of_get? hx)).1⟩
  obtain ⟨cp, net2, g1, g2, _⟩ := set_pure hU1 hd1 (f := optFunc (n1.g.parents d) t) (φ := fun vals => (Dict.get? t vals).getD 0) (by
    intro vals hv
    obtain ⟨x, hx, hm⟩ := hget vals hv
    have hmap : (n1.g.parents d).map (fun p => (pvOf (n1.g.parents d) vals p).getD 0) = vals := by
      have hl : (n1.g.parents d).length = vals.length := hv.length_eq
      apply List.ext_getElem
      · simpa using hl
      · intro i h1 h2
        simp only [List.getElem_map, pvOf]
        rw [get?_zip (Graph.nodup_parents hU1.good.wf.edgesNodup d) (by simpa using h1) h2]
        rfl
    unfold optFunc
    rw [hmap]
    simp only [hx, Option.getD_some]
    exact ⟨trivial, hm⟩)
  rw [hdomd] at g1
  rw [g1]
  exact ⟨net2, g2⟩

/-- the table is determined by the original network -/
theorem optTable_det {c : Net} (hG : c.Good) (hN : c.Normalised) {us : List Node} {pick : Pick} {ord : List Node → List Node}
    (hord : ∀ l, (ord l).Perm l) {d : Node} {dom : List Outcome} {ps : List Node} (hps : ∀ p ∈ ps, p ∈ keepOf c us) (hdk : d ∈ keepOf c us) :
    ∀ (cs : List (List Outcome)) {s : Net}, Sess c us s → ∀ t, (optTable pick ord us d dom ps s cs).2 = .ok t →
      cs.map (fun vals => (vals, argmax (dom.map (fun x => (x, actVal ord c us (ps.zip vals) d x))))) = t.map (fun e => (e.1, .ok e.2))
  | [], s, _, t, h => by
    simp only [optTable, Except.ok.injEq] at h
    subst h
    rfl
  | vals :: cs, s, hs, t, h => by
    obtain ⟨a1, a2⟩ := actionValues_spec hG hN (pick := pick) hord (d := d) (ctx := ps.zip vals)
      (fun p hp => hps p.1 (List.of_mem_zip hp).1) hdk dom hs
    unfold optTable optAction at h
    generalize actionValues pick ord us (ps.zip vals) d s dom = y at a1 a2 h
    obtain ⟨s1, r⟩ := y
    cases r with
    | error e => simp at h
    | ok eu =>
      obtain ⟨e1, _⟩ := a2 eu rfl
      simp only at h
      cases hx : argmax eu with
      | error e => simp [hx] at h
      | ok x =>
        simp only [hx] at h
        have ih := optTable_det hG hN (pick := pick) hord (dom := dom) hps hdk cs a1
        generalize optTable pick ord us d dom ps s1 cs = z at h ih
        obtain ⟨s2, r2⟩ := z
        cases r2 with
        | error e => simp at h
        | ok t2 =>
          simp only [Except.ok.injEq] at h
          subst h
          simp only [List.map_cons]
          rw [ih t2 rfl, ← e1, hx]

end Net
end Verif

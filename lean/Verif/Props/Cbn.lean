import Verif.Lemmas.Cbn
import Verif.Lemmas.Session
import Verif.Props.Value
import Verif.Props.Witness

/-!
# C101: plain causal Bayesian networks
-/

namespace Verif
open Net Graph Macid

/-! ## which networks are ready -/

/-- **C101** The constructor followed by one `add_cpds` call that gives every node a function, a distribution or a fitting
table yields a network that is ready, provided the probabilities are exact. -/
theorem C101_build {edges : List (Node × Node)} {net0 : Net} (hi : Cbn.init edges = .ok net0)
    {rels : List (Node × Rel)} {net : Net} (ha : Cbn.addCpds net0 rels = (net, .ok ()))
    (hk : (rels.map (·.1)).Nodup) (hl : Cbn.ListFree rels) (hh : ∀ p ∈ rels, Honest p.2)
    (hall : ∀ v ∈ net0.g.nodes, v ∈ rels.map (·.1))
    (ht : ∀ v c, (v, Rel.tab c) ∈ rels → c.kind = .tabular ∧ c.Fits net.g net.domain v)
    (hx : ∀ v c, net.cpds.get? v = some c → ∀ col ∈ c.table, (∀ y ∈ col, 0 ≤ y) ∧ col.sum = 1) : Cbn.Ready net := by
  unfold Cbn.init Macid.init at hi
  cases hg : Graph.ofEdges edges with
  | error e => simp [hg] at hi
  | ok g =>
    simp only [hg, Except.ok.injEq] at hi
    subst hi
    obtain ⟨e1, e2⟩ := Cbn.addCpds_eq rels ⟨⟨g, [], [], invert [], invert []⟩, [], [], [], Macid.new⟩ (fun v l => List.not_mem_nil) hl
    rw [e1] at ha
    rw [ha] at e2
    have hruns := addCpds_runs ha
    have hm := runs_m hruns
    have hrel := addCpds_rels hk ha
    suffices hG : net.Good by
      refine ⟨⟨?_, hm.2, e2⟩, hG, normalised_of_tables hG hx⟩
      show net.m = ⟨net.m.g, [], [], [], []⟩
      rw [hm.1]
      rfl
    · refine good_of_runs (net := ⟨⟨g, [], [], invert [], invert []⟩, [], [], [], Macid.new⟩) (wf_of_ofEdges hg) ⟨rfl, rfl, rfl⟩ ?_ hruns ?_ ?_
      · intro op ho
        obtain ⟨p, hp, rfl⟩ := List.mem_map.1 ho
        exact hh p hp
      · intro v hv
        rw [Dict.mem_keys]
        obtain ⟨r, hr⟩ := Dict.mem_keys.1 (show v ∈ Dict.keys rels from hall v hv)
        exact ⟨r, by rw [hrel, hr]⟩
      · intro v c h
        rw [hrel] at h
        cases hg : Dict.get? rels v with
        | none => rw [hg] at h; simp [Dict.get?] at h
        | some r =>
          rw [hg] at h
          simp only [Option.some.injEq] at h
          subst h
          exact ht v c (Dict.mem_of_get? hg)

/-! ## queries -/

namespace Cbn

/-- what the part of `query` after the context check does -/
theorem core_spec {net : Net} (hU : net.Usable) {ord : List Node → List Node}
    (hord : ∀ l, (ord l).Perm l) (q : List Node) {ctx int : List (Node × Outcome)} (hi : net.IntOk int)
    (hctx : ∀ p ∈ ctx, p.1 ∈ net.g.nodes) :
    ((∃ v ∈ q, v ∉ net.g.nodes) → (net.queryCore ord q ctx int).2 = .error .key) ∧
    (q = [] → (net.queryCore ord q ctx int).2 = .error .nx) ∧
    ((∀ v ∈ q, v ∈ net.g.nodes) → q ≠ [] →
      ((¬ ∀ u ∈ q, ∀ v ∈ q, (CutGraph net.g (int.map (·.1))).Connected u v) → (net.queryCore ord q ctx int).2 = .error .value) ∧
      ((∀ u ∈ q, ∀ v ∈ q, (CutGraph net.g (int.map (·.1))).Connected u v) →
        ((∃ v ∈ q, v ∈ ctx.map (·.1)) → (net.queryCore ord q ctx int).2 = .error .value) ∧
        ((∀ v ∈ q, v ∉ ctx.map (·.1)) → ∃ f, (net.queryCore ord q ctx int).2 = .ok f ∧
          ∃ dom', (∀ v ∈ net.g.nodes, (dom' v).Perm (net.dom v)) ∧
            (∀ v ∈ net.g.nodes, v ∉ int.map (·.1) → dom' v = net.dom v) ∧ f.vars = ord q ∧
            ((net.PDo int (Ctx ctx) ≠ 0 ∨ ∀ p ∈ ctx, ∃ v ∈ q, (CutGraph net.g (int.map (·.1))).Connected v p.1) →
              IsConditional f q dom' (net.PDo int) (Ctx ctx))))) := by
  -- one network is asked in both cases
  have key : ∃ c : Net, (net.queryCore ord q ctx int).2 = (c.queryOn ord q ctx).2 ∧ Good c ∧ c.Normalised ∧ c.g.nodes = net.g.nodes ∧
      (∀ u w, c.g.Edge u w ↔ (CutGraph net.g (int.map (·.1))).Edge u w) ∧
      (∀ v ∈ net.g.nodes, (c.dom v).Perm (net.dom v)) ∧ (∀ v ∈ net.g.nodes, v ∉ int.map (·.1) → c.dom v = net.dom v) ∧
      ∀ E, c.P E = net.PDo int E := by
    cases int with
    | nil =>
      refine ⟨net, rfl, hU.good, hU.normalised, rfl, ?_, fun _ _ => .refl _, fun _ _ _ => rfl, fun E => (PDo_nil net E).symm⟩
      intro u w
      rw [mem_cutGraph]
      simp
    | cons p l =>
      obtain ⟨c, c', e1, e2, e3⟩ := hU.act hi
      refine ⟨c', ?_, e3⟩
      simp only [queryCore, e1, e2]
  obtain ⟨c, h0, hG, hN, hn, he, hd1, hd2, hP⟩ := key
  have hconn : ∀ u v, c.g.Connected u v ↔ (CutGraph net.g (int.map (·.1))).Connected u v := by
    intro u v
    constructor
    · exact Relation.ReflTransGen.mono (fun a b h => h.imp (fun h => (he _ _).1 h) (fun h => (he _ _).1 h)) _ _
    · exact Relation.ReflTransGen.mono (fun a b h => h.imp (fun h => (he _ _).2 h) (fun h => (he _ _).2 h)) _ _
  have hctx' : ∀ p ∈ ctx, p.1 ∈ c.g.nodes := fun p hp => by rw [hn]; exact hctx p hp
  obtain ⟨s1, s2, s3⟩ := queryOn_spec hG hN hord q hctx'
  rw [h0]
  refine ⟨?_, ?_, ?_⟩
  · rintro ⟨v, hv, hvn⟩
    rw [s1 ⟨v, hv, by rw [hn]; exact hvn⟩]
  · intro e
    rw [s2 e]
  · intro hq hne
    obtain ⟨_, t1, t2⟩ := s3 (fun v hv => by rw [hn]; exact hq v hv) hne
    refine ⟨fun h => t1 (fun hall => h (fun u hu v hv => (hconn u v).1 (hall u hu v hv))), fun hcon => ?_⟩
    obtain ⟨t3, t4⟩ := t2 (fun u hu v hv => (hconn u v).2 (hcon u hu v hv))
    refine ⟨t3, fun hdis => ?_⟩
    obtain ⟨f, hf, _⟩ := t4 hdis
    obtain ⟨_, k2, _, _, k5, k6⟩ := queryOn_ok hG hN hord hctx' hf
    refine ⟨f, hf, c.dom, hd1, hd2, k6, fun hor => ?_⟩
    have hPP : net.PDo int = c.P := funext (fun E => (hP E).symm)
    rw [hPP] at hor ⊢
    rcases hor with hpos | hall
    · exact conditional_full hG hN k2 hctx' hpos k5
    · have hcx : ctxOf c q ctx = ctx := by
        apply List.filter_eq_self.2
        intro p hp
        obtain ⟨v, hv, hvp⟩ := hall p hp
        rw [decide_eq_true_eq, mem_keepOf hG.wf]
        exact ⟨v, hv, (hconn _ _).2 hvp⟩
      rw [hcx] at k5
      exact k5

theorem query_core {net : Net} (hR : Ready net) (ord : List Node → List Node) (q : List Node) {ctx : List (Node × Outcome)}
    (int : List (Node × Outcome)) (hctx : ∀ p ∈ ctx, p.1 ∈ net.g.nodes ∧ p.2 ∈ net.dom p.1) :
    query ord net q ctx int = net.queryCore ord q ctx int := by
  rw [query_eq hR.plain]
  unfold queryCbn
  rw [checkContextCbn_pass hR.good hctx]

end Cbn

/-- **C101** A query to a plain network is answered exactly if the queried variables are nodes, there is at least one, none
is in the context, and they lie in one connected component once the edges into intervened variables are cut (context
variables are nodes with a listed outcome). -/
theorem C101_query_answered_iff {net : Net} (hR : Cbn.Ready net) {ord : List Node → List Node}
    (hord : ∀ l, (ord l).Perm l) {q : List Node} {ctx int : List (Node × Outcome)} (hi : net.IntOk int)
    (hctx : ∀ p ∈ ctx, p.1 ∈ net.g.nodes ∧ p.2 ∈ net.dom p.1) :
    (∃ f, (Cbn.query ord net q ctx int).2 = .ok f) ↔
      q ≠ [] ∧ (∀ v ∈ q, v ∈ net.g.nodes) ∧ (∀ v ∈ q, v ∉ ctx.map (·.1)) ∧
      ∀ u ∈ q, ∀ v ∈ q, (CutGraph net.g (int.map (·.1))).Connected u v := by
  obtain ⟨s1, s2, s3⟩ := Cbn.core_spec hR.usable hord q hi (fun p hp => (hctx p hp).1)
  rw [Cbn.query_core hR ord q int hctx]
  constructor
  · rintro ⟨f, hf⟩
    have hq : ∀ v ∈ q, v ∈ net.g.nodes := by
      by_contra hn
      push Not at hn
      rw [s1 hn] at hf
      cases hf
    have hne : q ≠ [] := fun e => by rw [s2 e] at hf; cases hf
    obtain ⟨t1, t2⟩ := s3 hq hne
    have hcon : ∀ u ∈ q, ∀ v ∈ q, (CutGraph net.g (int.map (·.1))).Connected u v := by
      by_contra hn
      rw [t1 hn] at hf
      cases hf
    refine ⟨hne, hq, ?_, hcon⟩
    intro v hv hm
    rw [(t2 hcon).1 ⟨v, hv, hm⟩] at hf
    cases hf
  · rintro ⟨hne, hq, hdis, hcon⟩
    obtain ⟨f, hf, _⟩ := ((s3 hq hne).2 hcon).2 hdis
    exact ⟨f, hf⟩

/-- **C101** Which exception is raised otherwise: KeyError for a queried variable that is no node, NetworkXError for no
variables, ValueError for variables in different components or in the context. -/
theorem C101_query_rejected {net : Net} (hR : Cbn.Ready net) {ord : List Node → List Node}
    (hord : ∀ l, (ord l).Perm l) {q : List Node} {ctx int : List (Node × Outcome)} (hi : net.IntOk int)
    (hctx : ∀ p ∈ ctx, p.1 ∈ net.g.nodes ∧ p.2 ∈ net.dom p.1) :
    ((∃ v ∈ q, v ∉ net.g.nodes) → (Cbn.query ord net q ctx int).2 = .error .key) ∧
    (q = [] → (Cbn.query ord net q ctx int).2 = .error .nx) ∧
    ((∀ v ∈ q, v ∈ net.g.nodes) → (∃ u ∈ q, ∃ v ∈ q, ¬ (CutGraph net.g (int.map (·.1))).Connected u v) →
      (Cbn.query ord net q ctx int).2 = .error .value) ∧
    ((∀ v ∈ q, v ∈ net.g.nodes) → (∃ v ∈ q, v ∈ ctx.map (·.1)) → (Cbn.query ord net q ctx int).2 = .error .value) := by
  obtain ⟨s1, s2, s3⟩ := Cbn.core_spec hR.usable hord q hi (fun p hp => (hctx p hp).1)
  rw [Cbn.query_core hR ord q int hctx]
  refine ⟨s1, s2, ?_, ?_⟩
  · rintro hq ⟨u, hu, v, hv, hn⟩
    exact (s3 hq (List.ne_nil_of_mem hu)).1 (fun h => hn (h u hu v hv))
  · rintro hq ⟨v, hv, hm⟩
    obtain ⟨t1, t2⟩ := s3 hq (List.ne_nil_of_mem hv)
    by_cases hcon : ∀ u ∈ q, ∀ v ∈ q, (CutGraph net.g (int.map (·.1))).Connected u v
    · exact (t2 hcon).1 ⟨v, hv, hm⟩
    · exact t1 hcon

/-- **C101** The answer is P(query | context, do(intervention)) when the context is possible, or when every context variable
is connected to the query (then an impossible context gives NaN entries). No kind of CPD is excluded from the context. -/
theorem C101_query_exact {net : Net} (hR : Cbn.Ready net) {ord : List Node → List Node}
    (hord : ∀ l, (ord l).Perm l) {q : List Node} {ctx int : List (Node × Outcome)} (hi : net.IntOk int)
    (hctx : ∀ p ∈ ctx, p.1 ∈ net.g.nodes ∧ p.2 ∈ net.dom p.1) {f : Factor}
    (h : (Cbn.query ord net q ctx int).2 = .ok f)
    (hpos : net.PDo int (Ctx ctx) ≠ 0 ∨ ∀ p ∈ ctx, ∃ v ∈ q, (CutGraph net.g (int.map (·.1))).Connected v p.1) :
    ∃ dom', (∀ v ∈ net.g.nodes, (dom' v).Perm (net.dom v)) ∧
      (∀ v ∈ net.g.nodes, v ∉ int.map (·.1) → dom' v = net.dom v) ∧
      f.vars = ord q ∧ IsConditional f q dom' (net.PDo int) (Ctx ctx) := by
  obtain ⟨hne, hq, hdis, hcon⟩ := (C101_query_answered_iff hR hord hi hctx).1 ⟨f, h⟩
  obtain ⟨_, _, s3⟩ := Cbn.core_spec hR.usable hord q hi (fun p hp => (hctx p hp).1)
  obtain ⟨f', hf', dom', d1, d2, d3, d4⟩ := ((s3 hq hne).2 hcon).2 hdis
  rw [Cbn.query_core hR ord q int hctx, hf'] at h
  cases h
  exact ⟨dom', d1, d2, d3, d4 hpos⟩

/-- **C101** A context variable without known domain gives KeyError, an outcome outside the domain ValueError, and the
network is unchanged. (The entries before it are in order.) -/
theorem C101_context_rejected (net : Net) (ord : List Node → List Node) (q : List Node)
    {pre : List (Node × Outcome)} (hpre : ∀ p ∈ pre, ∃ d, net.domain.get? p.1 = some d ∧ p.2 ∈ d)
    (v : Node) (x : Outcome) (rest int : List (Node × Outcome)) :
    (net.domain.get? v = none → Cbn.query ord net q (pre ++ (v, x) :: rest) int = (net, .error .key)) ∧
    (∀ d, net.domain.get? v = some d → x ∉ d → Cbn.query ord net q (pre ++ (v, x) :: rest) int = (net, .error .value)) := by
  have hstep : ∀ pre : List (Node × Outcome), (∀ p ∈ pre, ∃ d, net.domain.get? p.1 = some d ∧ p.2 ∈ d) →
      net.checkContextCbn (pre ++ (v, x) :: rest) = net.checkContextCbn ((v, x) :: rest) := by
    intro pre
    induction pre with
    | nil => intro _; rfl
    | cons p pre ih =>
      intro h
      obtain ⟨d, h1, h2⟩ := h p (by simp)
      rw [List.cons_append, checkContextCbn, h1]
      simp only
      rw [if_pos h2]
      exact ih (fun p hp => h p (by simp [hp]))
  constructor
  · intro h
    unfold Cbn.query
    rw [hstep pre hpre, checkContextCbn, h]
  · intro d h hx
    unfold Cbn.query
    rw [hstep pre hpre, checkContextCbn, h]
    simp only
    rw [if_neg hx]

/-- **C101** What a query does to the network: nothing if there is an intervention; otherwise it may remove the nodes that
are not connected to a queried node, and nothing else. -/
theorem C101_query_effect {net : Net} (hR : Cbn.Ready net) (ord : List Node → List Node) (q : List Node)
    (ctx int : List (Node × Outcome)) :
    (int ≠ [] → (Cbn.query ord net q ctx int).1 = net) ∧
    ((∀ v ∈ net.g.nodes, ∃ x ∈ q, net.g.Connected x v) → (Cbn.query ord net q ctx int).1 = net) ∧
    ((Cbn.query ord net q ctx int).1 = net ∨ (Cbn.Ready (Cbn.query ord net q ctx int).1 ∧
      (∀ v, v ∈ (Cbn.query ord net q ctx int).1.g.nodes ↔ v ∈ net.g.nodes ∧ ∃ x ∈ q, net.g.Connected x v) ∧
      (∀ u v, (Cbn.query ord net q ctx int).1.g.Edge u v ↔ net.g.Edge u v ∧ v ∈ (Cbn.query ord net q ctx int).1.g.nodes) ∧
      (∀ v ∈ (Cbn.query ord net q ctx int).1.g.nodes, (Cbn.query ord net q ctx int).1.cpds.get? v = net.cpds.get? v))) := by
  have hint : int ≠ [] → (Cbn.query ord net q ctx int).1 = net := by
    intro hi
    obtain ⟨p, l, rfl⟩ := List.exists_cons_of_ne_nil hi
    unfold Cbn.query
    split
    · rfl
    · split
      · simp at *
      · split
        · rfl
        · split <;> rfl
  have hres : (Cbn.query ord net q ctx int).1 = net ∨ (Cbn.query ord net q ctx int).1 = net.prune (keepOf net q) := by
    cases int with
    | cons p l => exact Or.inl (hint (by simp))
    | nil =>
      unfold Cbn.query
      split
      · exact Or.inl rfl
      · simp only [queryOn]
        split
        · exact Or.inl rfl
        · right
          split <;> rfl
  have hK : Closed net.g (keepOf net q) := closed_keep hR.good.wf q
  refine ⟨hint, ?_, ?_⟩
  · intro hc
    rcases hres with h | h
    · exact h
    · rw [h]
      apply prune_all
      · intro v hv
        exact (mem_keepOf hR.good.wf).2 (hc v hv)
      · exact fun e he => hR.good.wf.edgeNodes e.1 e.2 he
  · rcases hres with h | h
    · exact Or.inl h
    · right
      rw [h]
      refine ⟨⟨⟨?_, hR.plain.base, ?_⟩, prune_good hR.good hK, prune_normalised hR.good hR.normalised hK⟩, ?_, ?_, ?_⟩
      · show ({ net.m with g := _ } : Macid) = _
        rw [hR.plain.roles]
        rfl
      · intro v l hm
        exact hR.plain.lists v l (List.mem_filter.1 hm).1
      · intro v
        rw [mem_prune, mem_keepOf hR.good.wf]
      · intro u v
        rw [prune_edge', mem_prune]
        constructor
        · rintro ⟨h1, h2, h3⟩
          exact ⟨h1, (hR.good.wf.edgeNodes u v h1).2, h3⟩
        · rintro ⟨h1, _, h3⟩
          exact ⟨h1, hK v u (Or.inr h1) h3, h3⟩
      · intro v hv
        rw [prune_cpds, if_pos (Or.inr (mem_prune.1 hv).2)]

/-! ## expected values -/

/-- **C101** `expected_value` returns the conditional expectations of the variables, in the order of the factor. -/
theorem C101_expected_value {net : Net} (hR : Cbn.Ready net) {ord : List Node → List Node}
    (hord : ∀ l, (ord l).Perm l) {q : List Node} {ctx int : List (Node × Outcome)} (hi : net.IntOk int)
    (hctx : ∀ p ∈ ctx, p.1 ∈ net.g.nodes ∧ p.2 ∈ net.dom p.1) (hne : q ≠ []) (hq : ∀ v ∈ q, v ∈ net.g.nodes)
    (hdis : ∀ v ∈ q, v ∉ ctx.map (·.1)) (hcon : ∀ u ∈ q, ∀ v ∈ q, (CutGraph net.g (int.map (·.1))).Connected u v)
    (hpos : net.PDo int (Ctx ctx) ≠ 0) :
    (Cbn.expectedValue ord net q ctx int).2 = .ok ((ord q).map (net.Mean int ctx)) := by
  obtain ⟨f, h⟩ := (C101_query_answered_iff hR hord hi hctx).2 ⟨hne, hq, hdis, hcon⟩
  obtain ⟨dom', d1, d2, d3, hf⟩ := C101_query_exact hR hord hi hctx h (Or.inl hpos)
  unfold Cbn.expectedValue
  generalize Cbn.query ord net q ctx int = x at h
  obtain ⟨n, y⟩ := x
  simp only at h
  subst h
  simp only
  rw [evOf_conditional hR.good (fun p hp => (hi.2 p hp).1) hpos hq d1 hf, d3]

/-- **C101** A context of probability 0, all of whose variables are connected to the query: RuntimeError. -/
theorem C101_expected_value_impossible {net : Net} (hR : Cbn.Ready net) {ord : List Node → List Node}
    (hord : ∀ l, (ord l).Perm l) {q : List Node} {ctx int : List (Node × Outcome)} (hi : net.IntOk int)
    (hctx : ∀ p ∈ ctx, p.1 ∈ net.g.nodes ∧ p.2 ∈ net.dom p.1) (hne : q ≠ []) (hq : ∀ v ∈ q, v ∈ net.g.nodes)
    (hdis : ∀ v ∈ q, v ∉ ctx.map (·.1)) (hcon : ∀ u ∈ q, ∀ v ∈ q, (CutGraph net.g (int.map (·.1))).Connected u v)
    (hall : ∀ p ∈ ctx, ∃ v ∈ q, (CutGraph net.g (int.map (·.1))).Connected v p.1)
    (h0 : net.PDo int (Ctx ctx) = 0) :
    (Cbn.expectedValue ord net q ctx int).2 = .error .runtime := by
  obtain ⟨f, h⟩ := (C101_query_answered_iff hR hord hi hctx).2 ⟨hne, hq, hdis, hcon⟩
  obtain ⟨dom', d1, d2, d3, hf1, hf2, hf3⟩ := C101_query_exact hR hord hi hctx h (Or.inr hall)
  unfold Cbn.expectedValue
  generalize Cbn.query ord net q ctx int = x at h
  obtain ⟨n, y⟩ := x
  simp only at h
  subst h
  simp only [evOf]
  rw [if_pos]
  rw [List.any_eq_true]
  have hne : product f.states ≠ [] := by
    rw [hf2]
    have : ∀ l : List Node, (∀ v ∈ l, v ∈ net.g.nodes) → ∃ xs, xs ∈ product (l.map dom') := by
      intro l
      induction l with
      | nil => intro _; exact ⟨[], by simp [product]⟩
      | cons v l ih =>
        intro hl
        obtain ⟨xs, hxs⟩ := ih (fun w hw => hl w (by simp [hw]))
        have hv := hl v (by simp)
        obtain ⟨x, hx⟩ := List.exists_mem_of_ne_nil _ (dom_props hR.good hv).2
        exact ⟨x :: xs, by
          simp only [List.map_cons, product, List.mem_flatMap, List.mem_map]
          exact ⟨x, (d1 v hv).mem_iff.2 hx, xs, hxs, rfl⟩⟩
    obtain ⟨xs, hxs⟩ := this f.vars (fun v hv => hq v (hf1.mem_iff.1 hv))
    exact List.ne_nil_of_mem hxs
  obtain ⟨xs, hxs⟩ := List.exists_mem_of_ne_nil _ hne
  refine ⟨none, ?_, rfl⟩
  rw [hf3]
  exact List.mem_map.2 ⟨xs, hxs, by simp [h0]⟩

/-! ## copies and interventions -/

/-- **C101** `copy` returns a ready network a user cannot tell from the original. -/
theorem C101_copy {net : Net} (hR : Cbn.Ready net) :
    ∃ net', Cbn.copy net = .ok net' ∧ Cbn.Ready net' ∧ Equiv net net' := by
  obtain ⟨net', h1, h2, h3, h4, h5, _⟩ := hR.usable.copy
  obtain ⟨e1, e2⟩ := Cbn.copy_eq hR.plain
  refine ⟨net', by rw [e1]; exact h1, ⟨⟨?_, by rw [h5]; exact hR.plain.base, e2 _ h1⟩, h2.good, h2.normalised⟩, h3⟩
  have hm : net.m.agents = [] := by rw [hR.plain.roles]; rfl
  unfold Net.copy Macid.copyWithoutCpds at h1
  rw [hR.plain.base, hm] at h1
  cases hg : (Macid.new.g.addNodes net.m.g.nodes).addEdges net.m.g.edgesView with
  | error e => simp [hg] at h1
  | ok g =>
    simp only [hg, Macid.copyRoles] at h1
    have : ∀ (rels : List (Node × Rel)) (acc c : Net), net.copyLoop acc rels = .ok c → c.m = acc.m := by
      intro rels
      induction rels with
      | nil => intro acc c h; simp only [Net.copyLoop, Except.ok.injEq] at h; rw [h]
      | cons p rels ih =>
        intro acc c h
        obtain ⟨v, r⟩ := p
        unfold Net.copyLoop at h
        cases hc : net.copyRel v r with
        | error e => simp [hc] at h
        | ok r' =>
          simp only [hc] at h
          have hm := acc.set_m v r'
          generalize acc.set v r' = x at h hm
          obtain ⟨acc', y⟩ := x
          cases y with
          | error e => simp at h
          | ok u => rw [ih acc' c h, hm.1]
    have hmm := this _ _ _ h1
    show net'.m = ⟨net'.m.g, [], [], [], []⟩
    rw [hmm]
    rfl

/-- **C101** `intervene` turns the network into a ready network whose joint distribution is the truncated factorisation. -/
theorem C101_intervene {net : Net} (hR : Cbn.Ready net) {int : List (Node × Outcome)} (hi : net.IntOk int) :
    ∃ net', Cbn.intervene net int = (net', .ok ()) ∧ Cbn.Ready net' ∧ net'.g.nodes = net.g.nodes ∧
      (∀ u w, net'.g.Edge u w ↔ net.g.Edge u w ∧ w ∉ int.map (·.1)) ∧ ∀ E, net'.P E = net.PDo int E := by
  obtain ⟨net', h1, h2, h3, h4, h5⟩ := C36_intervene_exact hR.good hi.1 hi.2
  obtain ⟨e1, e2⟩ := Cbn.intervene_eq int hR.plain.lists
  rw [h1] at e1 e2
  refine ⟨net', e1, ⟨⟨?_, by rw [h5]; exact hR.plain.base, e2⟩, h2,
    h3.normalised hR.good hR.normalised (fun p hp => (hi.2 p hp).2.1)⟩, h3.nodes, h3.edges,
    fun E => P_cut h3 (fun p hp => (hi.2 p hp).1) E⟩
  rw [h4, hR.plain.roles]

/-! ## lists -/

/-- **C101** Only influence diagrams know lists as relationships: for a plain network the assignment raises ValueError. The
previous CPD is lost and the list stays in the model. -/
theorem C101_list_rejected (net : Net) (v : Node) (l : List Outcome) :
    (Cbn.set net v (.seq l)).2 = .error .value ∧ (Cbn.set net v (.seq l)).1.cpds.get? v = none ∧
    (Cbn.set net v (.seq l)).1.rels.get? v = some (.seq l) ∧
    (∀ w, w ≠ v → (Cbn.set net v (.seq l)).1.cpds.get? w = net.cpds.get? w) := by
  unfold Cbn.set Cbn.setItem
  simp only [Cbn.toCpd]
  refine ⟨trivial, ?_, ?_, fun w hw => ?_⟩
  · rw [Dict.get?_erase, if_pos rfl]
  · rw [get?_append_single, if_pos rfl]
  · rw [Dict.get?_erase, if_neg hw]

/-- **C101** Consequence: as long as a list is in the model the network cannot be copied, and every query with an
intervention raises. -/
theorem C101_list_blocks_copy {net : Net} {v : Node} {l : List Outcome} (h : (v, Rel.seq l) ∈ net.rels) :
    (∃ e, Cbn.copy net = .error e) ∧
    ∀ ord q ctx int, int ≠ [] → ∃ e, (Cbn.query ord net q ctx int).2 = .error e := by
  have hloop : ∀ (rels : List (Node × Rel)) (acc : Net), (v, Rel.seq l) ∈ rels → ∃ e, Cbn.copyLoop net acc rels = .error e := by
    intro rels
    induction rels with
    | nil => intro acc h; simp at h
    | cons p rels ih =>
      intro acc h
      obtain ⟨w, r⟩ := p
      unfold Cbn.copyLoop
      cases hc : net.copyRel w r with
      | error e => exact ⟨e, rfl⟩
      | ok r' =>
        simp only
        by_cases hr : (v, Rel.seq l) = (w, r)
        · cases hr
          simp only [copyRel, Except.ok.injEq] at hc
          subst hc
          have := (C101_list_rejected acc v l).1
          generalize Cbn.set acc v (.seq l) = x at this
          obtain ⟨a, y⟩ := x
          simp only at this
          subst this
          exact ⟨.value, rfl⟩
        · have hm : (v, Rel.seq l) ∈ rels := by
            rcases List.mem_cons.1 h with h | h
            · exact absurd h hr
            · exact h
          generalize Cbn.set acc w r' = x
          obtain ⟨a, y⟩ := x
          cases y with
          | error e => exact ⟨e, rfl⟩
          | ok u => exact ih a hm
  have hcopy : ∃ e, Cbn.copy net = .error e := by
    unfold Cbn.copy
    split
    · exact ⟨_, rfl⟩
    · exact hloop _ _ h
  refine ⟨hcopy, ?_⟩
  intro ord q ctx int hi
  obtain ⟨p, l', rfl⟩ := List.exists_cons_of_ne_nil hi
  obtain ⟨e, he⟩ := hcopy
  unfold Cbn.query
  split
  · exact ⟨_, rfl⟩
  · simp only [he]
    exact ⟨_, rfl⟩

/-! ## example: X → Z ← Y, where X is a plain pgmpy table -/

namespace ExCb

def tabX : Cpd := ⟨"X", [0, 1], [], [], [[1 / 4, 3 / 4]], .tabular, fun _ => .error .type, none⟩

def rels : List (Node × Rel) :=
  [("Z", .func (fun pv => .ok (.val ((pv "X").getD 0 + (pv "Y").getD 0)))), ("X", .tab tabX),
    ("Y", .dist [(0, some (1 / 3)), (1, some (2 / 3))])]

def net0 : Net := (Cbn.init [("X", "Z"), ("Y", "Z")]).toOption.getD ⟨Macid.new, [], [], [], Macid.new⟩

def net : Net := (Cbn.addCpds net0 rels).1

theorem ready : Cbn.Ready net := by
  have hi : Cbn.init [("X", "Z"), ("Y", "Z")] = .ok net0 := by rfl
  have ha : Cbn.addCpds net0 rels = (net, .ok ()) := by
    have : (Cbn.addCpds net0 rels).2 = .ok () := by decide +kernel
    unfold net
    rw [← this]
  have hl : Cbn.ListFree rels := by
    intro v l h
    simp [rels] at h
  have hh : ∀ p ∈ rels, Honest p.2 := by
    intro p hp
    simp only [rels, List.mem_cons, List.not_mem_nil, or_false] at hp
    rcases hp with rfl | rfl | rfl
    · intro pv; simp
    · exact ⟨by decide +kernel, by simp [tabX], by simp [tabX], by simp [tabX], by simp [tabX]⟩
    · trivial
  have ht : ∀ v c, (v, Rel.tab c) ∈ rels → c.kind = .tabular ∧ c.Fits net.g net.domain v := by
    intro v c h
    simp only [rels, List.mem_cons, Prod.mk.injEq, Rel.tab.injEq, List.not_mem_nil, or_false, reduceCtorEq, and_false,
      false_or] at h
    obtain ⟨rfl, rfl⟩ := h
    have hgm : net.g = ⟨["X", "Z", "Y"], [("X", "Z"), ("Y", "Z")]⟩ := by decide +kernel
    have hdd : net.domain = [("X", [0, 1]), ("Y", [0, 1]), ("Z", [0, 1, 2])] := by decide +kernel
    rw [hgm, hdd]
    exact ⟨rfl, rfl, by simp [Graph.Edge, tabX], rfl, by decide +kernel⟩
  refine C101_build hi ha (by decide +kernel) hl hh (by decide +kernel) ht (fun v c hc => ?_)
  have key : ∀ p ∈ net.cpds, ∀ col ∈ p.2.table, (∀ y ∈ col, 0 ≤ y) ∧ col.sum = 1 := by decide +kernel
  exact key (v, c) (Dict.mem_of_get? hc)

theorem intOk : net.IntOk [("X", 1)] := by
  refine ⟨by decide, fun p hp => ?_⟩
  rw [List.mem_singleton] at hp
  subst hp
  exact ⟨by decide +kernel, by decide +kernel, Or.inl (by decide +kernel)⟩

end ExCb

/-- The hypotheses are met, with a table in the context: P(Z | X = 1), P(Y | X = 0, Z = 1), P(Z | do(X = 1)), E(Z | X = 1),
and an impossible context. -/
example : Cbn.Ready ExCb.net ∧ ExCb.net.IntOk [("X", 1)] ∧
    (Cbn.query id ExCb.net ["Z"] [("X", 1)] []).2 = .ok ⟨["Z"], [[0, 1, 2]], [some 0, some (1 / 3), some (2 / 3)]⟩ ∧
    (Cbn.query id ExCb.net ["Y"] [("X", 0), ("Z", 1)] []).2 = .ok ⟨["Y"], [[0, 1]], [some 0, some 1]⟩ ∧
    (Cbn.query id ExCb.net ["Z"] [] [("X", 1)]).2 = .ok ⟨["Z"], [[0, 1, 2]], [some 0, some (1 / 3), some (2 / 3)]⟩ ∧
    (Cbn.query id ExCb.net ["X", "Z"] [] [("X", 1), ("Z", 1)]).2 = .error .value ∧
    (Cbn.expectedValue id ExCb.net ["Z"] [("X", 1)] []).2 = .ok [5 / 3] ∧
    (Cbn.expectedValue id ExCb.net ["Y"] [("X", 0), ("Z", 2)] []).2 = .error .runtime :=
  ⟨ExCb.ready, ExCb.intOk, by decide +kernel, by decide +kernel, by decide +kernel, by decide +kernel, by decide +kernel,
    by decide +kernel⟩

/-- **C101** (negative) A rejected list keeps doing harm: after the refused assignment to `Z`, giving `X` another domain is
refused as well, although that assignment alone is fine. -/
theorem C101_list_lingers :
    (Cbn.set ExCb.net "X" (.dist [(0, some (1 / 2)), (5, some (1 / 2))])).2 = .ok () ∧
    (Cbn.set (Cbn.set ExCb.net "Z" (.seq [0, 1])).1 "X" (.dist [(0, some (1 / 2)), (5, some (1 / 2))])).2 = .error .value := by
  decide +kernel

end Verif

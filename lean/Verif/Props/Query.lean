import Verif.Lemmas.Build
import Verif.Lemmas.Expect
import Verif.Props.Paths

/-!
# C37-C42, C50: queries
-/

namespace Verif
open Net Graph Macid

namespace Net

/-- nothing is removed when every node is connected to a queried node -/
theorem prune_all {net : Net} {K : List Node} (h : ∀ v ∈ net.g.nodes, v ∈ K)
    (he : ∀ e ∈ net.g.edges, e.1 ∈ net.g.nodes ∧ e.2 ∈ net.g.nodes) : net.prune K = net := by
  have h1 : net.g.nodes.filter (fun v => decide (v ∈ K)) = net.g.nodes :=
    List.filter_eq_self.2 (fun v hv => by simpa using h v hv)
  have h2 : net.g.edges.filter (fun e => decide (e.1 ∈ K ∧ e.2 ∈ K)) = net.g.edges :=
    List.filter_eq_self.2 (fun e hm => by simpa using ⟨h _ (he e hm).1, h _ (he e hm).2⟩)
  have h3 : net.rels.filter (fun p => decide (p.1 ∉ net.g.nodes ∨ p.1 ∈ K ∨ p.1 ∉ net.cpds.keys)) = net.rels :=
    List.filter_eq_self.2 (fun p _ => by
      simp only [decide_eq_true_eq]
      by_cases hp : p.1 ∈ net.g.nodes
      · exact Or.inr (Or.inl (h _ hp))
      · exact Or.inl hp)
  have h4 : net.cpds.filter (fun p => decide (p.1 ∉ net.g.nodes ∨ p.1 ∈ K)) = net.cpds :=
    List.filter_eq_self.2 (fun p _ => by
      simp only [decide_eq_true_eq]
      by_cases hp : p.1 ∈ net.g.nodes
      · exact Or.inr (h _ hp)
      · exact Or.inl hp)
  unfold prune
  rw [h1, h2, h3, h4]

end Net

/-! ## C37 -/

/-- **C37** A query with an intervention leaves the network as it is, whatever happens. -/
theorem C37_query_with_intervention (net : Net) (pick : Pick) (ord : List Node → List Node) (q : List Node)
    (ctx int : List (Node × Outcome)) (hi : int ≠ []) : (net.query pick ord q ctx int).1 = net := by
  obtain ⟨p, l, rfl⟩ := List.exists_cons_of_ne_nil hi
  unfold query
  split
  · rfl
  · split
    · rfl
    · unfold queryCbn
      split
      · rfl
      · simp only [queryCore]
        split
        · rfl
        · split <;> rfl

/-- **C37** A query that fails one of the checks leaves the network as it is. -/
theorem C37_query_rejected (net : Net) (pick : Pick) (ord : List Node → List Node) (q : List Node)
    (ctx : List (Node × Outcome)) (h : net.checkContext ctx ≠ .ok () ∨ net.policiesOk pick q ctx [] ≠ .ok ()) :
    (net.query pick ord q ctx []).1 = net := by
  unfold query
  split
  · rfl
  · split
    · rfl
    · rename_i h1 _ _ h2
      rcases h with h | h
      · exact absurd h1 h
      · exact absurd h2 h

/-- **C37** A query without intervention leaves the network as it is if every node is connected to
some queried node. -/
theorem C37_query_connected {net : Net} (hG : net.Good) (pick : Pick) (ord : List Node → List Node) (q : List Node)
    (ctx : List (Node × Outcome)) (hc : ∀ v ∈ net.g.nodes, ∃ x ∈ q, net.g.Connected x v) :
    (net.query pick ord q ctx []).1 = net := by
  have hp : net.prune (q.flatMap (component net.g)) = net := by
    apply prune_all
    · intro v hv
      obtain ⟨x, hx, h⟩ := hc v hv
      exact List.mem_flatMap.2 ⟨x, hx, (mem_component hG.wf).2 h⟩
    · intro e he
      exact hG.wf.edgeNodes e.1 e.2 he
  unfold query
  split
  · rfl
  · split
    · rfl
    · unfold queryCbn
      split
      · rfl
      · simp only [queryCore, queryOn, hp]
        split
        · rfl
        · split <;> rfl

/-- **C37** What really happens without intervention: the network is unchanged or all nodes that are
not connected to a queried node are removed with their edges and CPDs; what remains is sound. -/
theorem C37_query_effect {net : Net} (hG : net.Good) (pick : Pick) (ord : List Node → List Node) (q : List Node)
    (ctx : List (Node × Outcome)) :
    (net.query pick ord q ctx []).1 = net ∨
    (∃ net', (net.query pick ord q ctx []).1 = net' ∧ net'.Good ∧
      (∀ v, v ∈ net'.g.nodes ↔ v ∈ net.g.nodes ∧ ∃ x ∈ q, net.g.Connected x v) ∧
      (∀ u v, net'.g.Edge u v ↔ net.g.Edge u v ∧ v ∈ net'.g.nodes) ∧
      (∀ v ∈ net'.g.nodes, net'.cpds.get? v = net.cpds.get? v) ∧
      (∀ v, v ∉ net'.g.nodes → net'.cpds.get? v = none) ∧
      net'.m.decisions = net.m.decisions ∧ net'.m.utilities = net.m.utilities) := by
  have hK : Closed net.g (keepOf net q) := closed_keep hG.wf q
  have hres : (net.query pick ord q ctx []).1 = net ∨ (net.query pick ord q ctx []).1 = net.prune (keepOf net q) := by
    unfold query
    split
    · exact Or.inl rfl
    · split
      · exact Or.inl rfl
      · unfold queryCbn
        split
        · exact Or.inl rfl
        · simp only [queryCore, queryOn]
          split
          · exact Or.inl rfl
          · right
            split <;> rfl
  rcases hres with h | h
  · exact Or.inl h
  · right
    refine ⟨net.prune (keepOf net q), h, prune_good hG hK, ?_, ?_, ?_, ?_, rfl, rfl⟩
    · intro v
      rw [mem_prune, mem_keepOf hG.wf]
    · intro u v
      rw [prune_edge', mem_prune]
      constructor
      · rintro ⟨h1, h2, h3⟩
        exact ⟨h1, (hG.wf.edgeNodes u v h1).2, h3⟩
      · rintro ⟨h1, _, h3⟩
        exact ⟨h1, hK v u (Or.inr h1) h3, h3⟩
    · intro v hv
      rw [prune_cpds, if_pos (Or.inr (mem_prune.1 hv).2)]
    · intro v hv
      cases hc : (net.prune (keepOf net q)).cpds.get? v with
      | none => rfl
      | some c =>
        obtain ⟨_, h1, h2⟩ := prune_cpds_some hG hc
        exact absurd (mem_prune.2 ⟨h1, h2⟩) hv

/-- two unconnected diagrams D → U and E → V -/
def Ex.m2 : Macid := ⟨⟨["D", "U", "E", "V"], [("D", "U"), ("E", "V")]⟩, [(0, ["D"]), (1, ["E"])],
  [(0, ["U"]), (1, ["V"])], [("D", 0), ("E", 1)], [("U", 0), ("V", 1)]⟩

def Ex.rels2 : List (Node × Rel) :=
  [("U", .func (fun pv => .ok (.val ((pv "D").getD 0)))), ("V", .func (fun pv => .ok (.val ((pv "E").getD 0)))),
    ("D", .dist [(0, some (1 / 2)), (1, some (1 / 2))]), ("E", .seq [0, 1])]

def Ex.net2 : Net := ((⟨Ex.m2, [], [], [], Macid.new⟩ : Net).addCpds Ex.rels2).1

theorem Ex.m2_wf : Ex.m2.g.WF := wf_of_ofEdges (es := [("D", "U"), ("E", "V")]) (by decide +kernel)

theorem Ex.net2_good : Ex.net2.Good := by
  have he : (⟨Ex.m2, [], [], [], Macid.new⟩ : Net).addCpds Ex.rels2 = (Ex.net2, .ok ()) := by
    have : ((⟨Ex.m2, [], [], [], Macid.new⟩ : Net).addCpds Ex.rels2).2 = .ok () := by decide +kernel
    unfold Ex.net2
    rw [← this]
  refine good_of_runs (net := ⟨Ex.m2, [], [], [], Macid.new⟩) Ex.m2_wf ⟨rfl, rfl, rfl⟩ ?_ (addCpds_runs he)
    (by decide +kernel) ?_
  · intro op ho
    obtain ⟨p, hp, rfl⟩ := List.mem_map.1 ho
    simp only [Ex.rels2, List.mem_cons, List.not_mem_nil, or_false] at hp
    rcases hp with rfl | rfl | rfl | rfl
    · intro pv; simp
    · intro pv; simp
    · trivial
    · trivial
  · intro v c h
    exfalso
    rw [addCpds_rels (by decide +kernel) he v] at h
    cases hg : Dict.get? Ex.rels2 v with
    | none => rw [hg] at h; simp [Dict.get?] at h
    | some r =>
      rw [hg] at h
      simp only [Option.some.injEq] at h
      subst h
      have := Dict.mem_of_get? hg
      simp [Ex.rels2] at this

/-- FALSE in general: asking for the distribution of `U` in a diagram with an unconnected part E → V
removes that part for good. Asking again for `U`, or for `V`, raises NetworkXError: the network object
is broken by a read-only question. -/
theorem C37_counterexample : ∃ (net : Net) (pick : Pick) (ord : List Node → List Node), net.Good ∧
    (net.query pick ord ["U"] [] []).2.toOption.isSome = true ∧ "V" ∈ net.g.nodes ∧
    "V" ∉ (net.query pick ord ["U"] [] []).1.g.nodes ∧
    ((net.query pick ord ["U"] [] []).1.query pick ord ["U"] [] []).2 = .error .nx ∧
    ((net.query pick ord ["U"] [] []).1.query pick ord ["V"] [] []).2 = .error .nx := by
  refine ⟨Ex.net2, fun _ _ => 0, id, Ex.net2_good, by decide +kernel, by decide +kernel, by decide +kernel,
    by decide +kernel, by decide +kernel⟩

/-- the hypotheses of `C37_query_connected` are met by the example diagram -/
example : Ex.net.Good ∧ ∀ v ∈ Ex.net.g.nodes, ∃ x ∈ ["A"], Ex.net.g.Connected x v := by
  refine ⟨Ex.net_good, ?_⟩
  have h : ∀ v ∈ Ex.net.g.nodes, v ∈ component Ex.net.g "A" := by decide +kernel
  exact fun v hv => ⟨"A", by simp, (mem_component Ex.net_good.wf).1 (h v hv)⟩

/-! ## C38 -/

/-- **C38** Context outcomes outside the domain are rejected with ValueError before anything else
happens, provided the context variables are nodes whose CPDs are pycid's own. -/
theorem C38_context_outside_domain {net : Net} (hG : net.Good) (pick : Pick) (ord : List Node → List Node) (q : List Node)
    {ctx : List (Node × Outcome)} (int : List (Node × Outcome))
    (hn : ∀ p ∈ ctx, p.1 ∈ net.g.nodes ∧ ∀ c, net.cpds.get? p.1 = some c → c.kind ≠ .tabular)
    (hb : ∃ p ∈ ctx, p.2 ∉ net.dom p.1) : net.query pick ord q ctx int = (net, .error .value) := by
  unfold query
  rw [checkContext_bad hG hn hb]

/-- **C38** Whenever a query is answered, all context variables are nodes with a listed outcome, the
queried variables are nodes not in the context, and after cutting the edges into intervened variables
they all lie in one connected component. -/
theorem C38_answered_only_if_legal {net : Net} (hU : net.Usable) {pick : Pick} {ord : List Node → List Node}
    (hord : ∀ l, (ord l).Perm l) {q : List Node} {ctx int : List (Node × Outcome)} (hi : net.IntOk int) {f : Factor}
    (h : (net.query pick ord q ctx int).2 = .ok f) :
    (∀ p ∈ ctx, p.1 ∈ net.g.nodes ∧ p.2 ∈ net.dom p.1) ∧ q ≠ [] ∧ (∀ v ∈ q, v ∈ net.g.nodes) ∧
    (∀ v ∈ q, v ∉ ctx.map (·.1)) ∧ ∀ u ∈ q, ∀ v ∈ q, (CutGraph net.g (int.map (·.1))).Connected u v := by
  obtain ⟨h1, _, h3⟩ := query_ok hU.good h
  refine ⟨fun p hp => ⟨(h1 p hp).1, (h1 p hp).2.1⟩, ?_⟩
  cases int with
  | nil =>
    obtain ⟨k1, k2, k3, k4, _⟩ := queryOn_ok hU.good hU.normalised hord (fun p hp => (h1 p hp).1) h3
    refine ⟨k1, k2, k3, fun u hu v hv => ?_⟩
    have : CutGraph net.g (List.map (·.1) ([] : List (Node × Outcome))) = net.g := by
      unfold CutGraph
      simp
    rw [this]
    exact k4 u hu v hv
  | cons p l =>
    obtain ⟨c, c', e1, e2, e3, e4, e5, e6, e7, e8, e9⟩ := hU.act hi
    simp only [queryCore, e1, e2] at h3
    obtain ⟨k1, k2, k3, k4, _⟩ := queryOn_ok e3 e4 hord (fun p hp => by rw [e5]; exact (h1 p hp).1) h3
    refine ⟨k1, fun v hv => by rw [← e5]; exact k2 v hv, k3, fun u hu v hv => ?_⟩
    refine Relation.ReflTransGen.mono (fun a b h => ?_) _ _ (k4 u hu v hv)
    rcases h with h | h
    · exact Or.inl ((e6 _ _).1 h)
    · exact Or.inr ((e6 _ _).1 h)

/-- **C38** Queried nodes in different components: ValueError once the other checks are passed. -/
theorem C38_different_components {net : Net} (hU : net.Usable) {pick : Pick} {ord : List Node → List Node}
    (hord : ∀ l, (ord l).Perm l) {q : List Node} {ctx int : List (Node × Outcome)} (hi : net.IntOk int)
    (hctx : net.checkContext ctx = .ok ()) (hp : net.policiesOk pick q ctx int = .ok ())
    (hq : ∀ v ∈ q, v ∈ net.g.nodes)
    (hsep : ∃ u ∈ q, ∃ v ∈ q, ¬ (CutGraph net.g (int.map (·.1))).Connected u v) :
    (net.query pick ord q ctx int).2 = .error .value := by
  have hc := checkContext_ok hU.good hctx
  rw [query_pass hU.good hc hp]
  obtain ⟨u, hu, v, hv, hn⟩ := hsep
  have hne : q ≠ [] := List.ne_nil_of_mem hu
  cases int with
  | nil =>
    obtain ⟨_, _, k⟩ := queryOn_spec hU.good hU.normalised hord q (fun p hp => (hc p hp).1)
    refine (k hq hne).2.1 (fun hall => hn ?_)
    have : CutGraph net.g (List.map (·.1) ([] : List (Node × Outcome))) = net.g := by
      unfold CutGraph
      simp
    rw [this]
    exact hall u hu v hv
  | cons p l =>
    obtain ⟨c, c', e1, e2, e3, e4, e5, e6, _⟩ := hU.act hi
    simp only [queryCore, e1, e2]
    obtain ⟨_, _, k⟩ := queryOn_spec e3 e4 hord q (fun p hp => by rw [e5]; exact (hc p hp).1)
    refine (k (fun v hv => by rw [e5]; exact hq v hv) hne).2.1 (fun hall => hn ?_)
    refine Relation.ReflTransGen.mono (fun a b h => ?_) _ _ (hall u hu v hv)
    rcases h with h | h
    · exact Or.inl ((e6 _ _).1 h)
    · exact Or.inr ((e6 _ _).1 h)

/-- Limitation: if the first context variable has a plain pgmpy TabularCPD, `MACIDBase.query` raises
AttributeError even for a listed outcome. -/
theorem C38_table_in_context {net : Net} (pick : Pick) (ord : List Node → List Node) (q : List Node)
    {v : Node} {c : Cpd} (hv : v ∈ net.g.nodes) (hc : net.cpds.get? v = some c) (hk : c.kind = .tabular) (x : Outcome)
    (rest int : List (Node × Outcome)) :
    net.query pick ord q ((v, x) :: rest) int = (net, .error .attribute) := by
  unfold query checkContext
  rw [getCpd_node hv, hc]
  simp [hk]

/-- FALSE that impossible contexts are always noticed: context variables that are not connected to the
query are dropped, so P(U | V = 1, E = 0) is answered although V copies E; the context has probability 0. -/
theorem C38_impossible_context_ignored : ∃ (net : Net) (pick : Pick) (ord : List Node → List Node) (f : Factor),
    net.Good ∧ net.P (Ctx [("V", 1), ("E", 0)]) = 0 ∧ (net.query pick ord ["U"] [("V", 1), ("E", 0)] []).2 = .ok f ∧
    f.values = [some (1 / 2), some (1 / 2)] := by
  refine ⟨Ex.net2, fun _ _ => 0, id, ⟨["U"], [[0, 1]], [some (1 / 2), some (1 / 2)]⟩, Ex.net2_good, by decide +kernel,
    by decide +kernel, rfl⟩

/-! ## C39 -/

/-- **C39** Whenever a query is answered and the context is possible under the intervention, the answer
is P(query | context, do(intervention)): one entry per combination of outcomes of the queried variables,
each the conditional probability of that combination in the joint (truncated) distribution. -/
theorem C39_query_exact {net : Net} (hU : net.Usable) {pick : Pick} {ord : List Node → List Node}
    (hord : ∀ l, (ord l).Perm l) {q : List Node} {ctx int : List (Node × Outcome)} (hi : net.IntOk int) {f : Factor}
    (h : (net.query pick ord q ctx int).2 = .ok f) (hpos : net.PDo int (Ctx ctx) ≠ 0) :
    ∃ dom', (∀ v ∈ net.g.nodes, (dom' v).Perm (net.dom v)) ∧
      (∀ v ∈ net.g.nodes, v ∉ int.map (·.1) → dom' v = net.dom v) ∧
      f.vars = ord q ∧ IsConditional f q dom' (net.PDo int) (Ctx ctx) := by
  obtain ⟨h1, _, h3⟩ := query_ok hU.good h
  cases int with
  | nil =>
    obtain ⟨k1, k2, k3, k4, k5, k6⟩ := queryOn_ok hU.good hU.normalised hord (fun p hp => (h1 p hp).1) h3
    refine ⟨net.dom, fun _ _ => .refl _, fun _ _ _ => rfl, k6, ?_⟩
    rw [PDo_nil] at hpos
    have := conditional_full hU.good hU.normalised k2 (fun p hp => (h1 p hp).1) hpos k5
    have he : net.PDo [] = net.P := funext (PDo_nil net)
    rw [he]
    exact this
  | cons p l =>
    obtain ⟨c, c', e1, e2, e3, e4, e5, e6, e7, e8, e9⟩ := hU.act hi
    simp only [queryCore, e1, e2] at h3
    have hctx : ∀ p ∈ ctx, p.1 ∈ c'.g.nodes := fun p hp => by rw [e5]; exact (h1 p hp).1
    obtain ⟨k1, k2, k3, k4, k5, k6⟩ := queryOn_ok e3 e4 hord hctx h3
    refine ⟨c'.dom, e7, e8, k6, ?_⟩
    have he : net.PDo (p :: l) = c'.P := funext (fun E => (e9 E).symm)
    rw [he] at hpos ⊢
    exact conditional_full e3 e4 k2 hctx hpos k5

/-- **C39** When is a query answered: the context is legal, the policies needed are there, the queried
variables are different nodes outside the context and in one component of the cut graph. -/
theorem C39_query_answers {net : Net} (hU : net.Usable) {pick : Pick} {ord : List Node → List Node}
    (hord : ∀ l, (ord l).Perm l) {q : List Node} {ctx int : List (Node × Outcome)} (hi : net.IntOk int)
    (hctx : net.checkContext ctx = .ok ()) (hp : net.policiesOk pick q ctx int = .ok ()) (hne : q ≠ [])
    (hq : ∀ v ∈ q, v ∈ net.g.nodes) (hdis : ∀ v ∈ q, v ∉ ctx.map (·.1))
    (hcon : ∀ u ∈ q, ∀ v ∈ q, (CutGraph net.g (int.map (·.1))).Connected u v) :
    ∃ f, (net.query pick ord q ctx int).2 = .ok f := by
  have hc := checkContext_ok hU.good hctx
  rw [query_pass hU.good hc hp]
  cases int with
  | nil =>
    obtain ⟨_, _, k⟩ := queryOn_spec hU.good hU.normalised hord q (fun p hp => (hc p hp).1)
    have : CutGraph net.g (List.map (·.1) ([] : List (Node × Outcome))) = net.g := by
      unfold CutGraph
      simp
    rw [this] at hcon
    obtain ⟨f, hf, _⟩ := ((k hq hne).2.2 hcon).2 hdis
    exact ⟨f, hf⟩
  | cons p l =>
    obtain ⟨c, c', e1, e2, e3, e4, e5, e6, _⟩ := hU.act hi
    simp only [queryCore, e1, e2]
    obtain ⟨_, _, k⟩ := queryOn_spec e3 e4 hord q (fun p hp => by rw [e5]; exact (hc p hp).1)
    obtain ⟨f, hf, _⟩ := ((k (fun v hv => by rw [e5]; exact hq v hv) hne).2.2 (fun u hu v hv =>
      Relation.ReflTransGen.mono (fun a b h => h.imp (fun h => (e6 _ _).2 h) (fun h => (e6 _ _).2 h)) _ _
        (hcon u hu v hv))).2 hdis
    exact ⟨f, hf⟩

/-- **C39** The entries of an answer are non-negative and sum to 1. -/
theorem C39_query_distribution {net : Net} (hU : net.Usable) {pick : Pick} {ord : List Node → List Node}
    (hord : ∀ l, (ord l).Perm l) {q : List Node} {ctx int : List (Node × Outcome)} (hi : net.IntOk int) {f : Factor}
    (h : (net.query pick ord q ctx int).2 = .ok f) (hpos : net.PDo int (Ctx ctx) ≠ 0) :
    ∃ ps : List Rat, f.values = ps.map some ∧ (∀ p ∈ ps, 0 ≤ p) ∧ ps.sum = 1 := by
  obtain ⟨dom', d1, d2, _, hf1, hf2, hf3⟩ := C39_query_exact hU hord hi h hpos
  obtain ⟨_, _, hq, _⟩ := C38_answered_only_if_legal hU hord hi h
  have hin : ∀ p ∈ int, p.1 ∈ net.g.nodes := fun p hp => (hi.2 p hp).1
  have hB := doBN_prob hU.good hU.normalised hi.1 (fun p hp => (hi.2 p hp).2.1)
  have hpos' : 0 < net.PDo int (Ctx ctx) := by
    refine lt_of_le_of_ne ?_ (Ne.symm hpos)
    rw [PDo_eq_W hin]
    exact BN.W_nonneg hB (fun a _ => by split <;> norm_num)
  refine ⟨(product f.states).map (fun xs => net.PDo int (fun a => Has f.vars xs a && Ctx ctx a) / net.PDo int (Ctx ctx)), ?_, ?_, ?_⟩
  · rw [hf3, List.map_map]
    apply List.map_congr_left
    intro xs _
    simp [hpos]
  · intro p hp
    obtain ⟨xs, _, rfl⟩ := List.mem_map.1 hp
    apply div_nonneg _ hpos'.le
    rw [PDo_eq_W hin]
    exact BN.W_nonneg hB (fun a _ => by split <;> norm_num)
  · have := W_product (net.doBN int) dom' d1 (fun v hv => (dom_props hU.good hv).1) (vars := f.vars)
      (fun v hv => hq v (hf1.mem_iff.1 hv)) (fun a => if Ctx ctx a then 1 else 0) (fun _ => 1 / net.PDo int (Ctx ctx))
    rw [hf2]
    refine Eq.trans (congrArg List.sum (List.map_congr_left (fun xs _ => ?_))) (this.trans ?_)
    · rw [PDo_eq_W hin, div_eq_mul_inv, one_div, mul_comm]
      congr 2
      funext a
      unfold Has
      by_cases h1 : f.vars.map a = xs <;> simp [h1]
    · rw [BN.W_mul_const, ← PDo_eq_W hin]
      field_simp

/-- The hypotheses are met: P(U | A = 1, do(D = 1)) in the example diagram, where `D` has no policy. -/
theorem Ex.net_usable : Ex.net.Usable := by
  have hm : Ex.net.m = Ex.m := by decide +kernel
  refine ⟨Ex.net_good, ?_, hm ▸ Ex.m_consistent, Or.inl (by decide +kernel), ⟨?_, ?_⟩⟩
  · apply normalised_of_tables Ex.net_good
    intro v c hc
    have hv := cpds_node Ex.net_good hc
    have hn : Ex.net.g.nodes = ["A", "D", "U"] := by decide +kernel
    rw [hn] at hv
    have key : ∀ v ∈ ["A", "D", "U"], ((Ex.net.cpds.get? v).map Cpd.table).all (fun t => t.all (fun col =>
        col.all (fun y => decide (0 ≤ y)) && decide (col.sum = 1))) = true := by decide +kernel
    have := key v hv
    rw [hc] at this
    simp only [Option.map_some, Option.all_some, List.all_eq_true, Bool.and_eq_true, decide_eq_true_eq] at this
    exact this
  · rw [hm]
    exact fun a => Iff.rfl
  · rw [hm]
    intro a ha
    left
    have : a = 0 := by simpa [Ex.m, Dict.keys] using ha
    subst this
    exact ⟨⟨"D", rfl⟩, ⟨"U", rfl⟩⟩

theorem Ex.intOk : Ex.net.IntOk [("D", 1)] := by
  refine ⟨by decide, fun p hp => ?_⟩
  rw [List.mem_singleton] at hp
  subst hp
  exact ⟨by decide +kernel, by decide +kernel, Or.inl (by decide +kernel)⟩

example : Ex.net.Usable ∧ Ex.net.IntOk [("D", 1)] ∧ Ex.net.PDo [("D", 1)] (Ctx [("A", 1)]) ≠ 0 ∧
    (Ex.net.query (fun _ _ => 0) id ["U"] [("A", 1)] [("D", 1)]).2 = .ok ⟨["U"], [[0, 1]], [some 0, some 1]⟩ :=
  ⟨Ex.net_usable, Ex.intOk, by decide +kernel, by decide +kernel⟩

/-! ## C40 -/

/-- **C40** The joint distribution after `intervene` is the truncated factorisation: for every event the
probability is the sum over the assignments in the event that agree with the intervention of the product
of the CPD entries of the other nodes. -/
theorem C40_truncated_factorisation {net : Net} (hG : net.Good) {int : List (Node × Outcome)} (hi : net.IntOk int) :
    ∃ net', net.intervene int = (net', .ok ()) ∧ net'.Good ∧ ∀ E, net'.P E = net.PDo int E := by
  obtain ⟨net', h1, h2, h3, _⟩ := C36_intervene_exact hG hi.1 hi.2
  exact ⟨net', h1, h2, fun E => P_cut h3 (fun p hp => (hi.2 p hp).1) E⟩

/-- **C40** It is a probability distribution that is certain of the intervention. -/
theorem C40_intervention_certain {net : Net} (hU : net.Usable) {int : List (Node × Outcome)} (hi : net.IntOk int) :
    net.PDo int (fun _ => true) = 1 ∧ net.PDo int (Ctx int) = 1 := by
  have hin : ∀ p ∈ int, p.1 ∈ net.g.nodes := fun p hp => (hi.2 p hp).1
  have hB := doBN_prob hU.good hU.normalised hi.1 (fun p hp => (hi.2 p hp).2.1)
  have h1 : net.PDo int (fun _ => true) = 1 := by
    rw [PDo_eq_W hin]
    simpa using BN.W_one hB
  refine ⟨h1, ?_⟩
  rw [← h1]
  apply PDo_congr
  intro a _ ha
  simp only [Ctx, List.all_eq_true, decide_eq_true_eq]
  exact ha

example : Ex.net.Usable ∧ Ex.net.IntOk [("D", 1)] := ⟨Ex.net_usable, Ex.intOk⟩

/-! ## C41 -/

/-- **C41** If `is_dconnected(x, y, Z)` is False then in every parameterisation of the graph `x` and `y`
are independent given `Z`: P(x, y, z) · P(z) = P(x, z) · P(y, z) for all outcomes. -/
theorem C41_dsep_independent {net : Net} (hG : net.Good) (hN : net.Normalised) {pick : Pick} {x y : Node} {Z : List Node}
    (hx : x ∈ net.g.nodes) (hy : y ∈ net.g.nodes) (hZ : Z ⊆ net.g.nodes)
    (h : isDConnected pick net.g x y Z = .ok false) (vx vy : Outcome) (vz : Assign) :
    net.P (fun a => decide (a x = vx ∧ a y = vy ∧ ∀ z ∈ Z, a z = vz z)) * net.P (fun a => decide (∀ z ∈ Z, a z = vz z)) =
      net.P (fun a => decide (a x = vx ∧ ∀ z ∈ Z, a z = vz z)) * net.P (fun a => decide (a y = vy ∧ ∀ z ∈ Z, a z = vz z)) := by
  have hsep := not_reached_of_ok hG.wf hx hZ h
  have key := BN.ci (bn_prob hG hN) (Z := Z) (S := [x]) (T := [y]) (fun v hv => hZ hv)
    (fun t ht => by rw [List.mem_singleton] at ht; subst ht; exact hsep) vz
    (f := fun a => if a x = vx then 1 else 0) (h := fun a => if a y = vy then 1 else 0)
    (fun a b hab => by simp only [hab x (Or.inr ⟨by simp, hx⟩)])
    (fun a b hab => by simp only [hab y (Or.inr ⟨by simp, hy⟩)])
  rw [P_eq_W, P_eq_W, P_eq_W, P_eq_W]
  convert key using 2 <;> congr 1 <;> funext a <;> unfold BN.at_ <;>
    by_cases h1 : a x = vx <;> by_cases h2 : a y = vy <;> by_cases h3 : ∀ z ∈ Z, a z = vz z <;> simp [h1, h2, h3]

example : ∃ net : Net, net.Good ∧ net.Normalised ∧ isDConnected (fun _ _ => 0) net.g "D" "V" [] = .ok false ∧
    "D" ∈ net.g.nodes ∧ "V" ∈ net.g.nodes := by
  refine ⟨Ex.net2, Ex.net2_good, ?_, by decide +kernel, by decide +kernel, by decide +kernel⟩
  apply normalised_of_tables Ex.net2_good
  intro v c hc
  have hv := cpds_node Ex.net2_good hc
  have hn : Ex.net2.g.nodes = ["D", "U", "E", "V"] := by decide +kernel
  rw [hn] at hv
  have key : ∀ v ∈ ["D", "U", "E", "V"], ((Ex.net2.cpds.get? v).map Cpd.table).all (fun t => t.all (fun col =>
      col.all (fun y => decide (0 ≤ y)) && decide (col.sum = 1))) = true := by decide +kernel
  have := key v hv
  rw [hc] at this
  simp only [Option.map_some, Option.all_some, List.all_eq_true, Bool.and_eq_true, decide_eq_true_eq] at this
  exact this

/-! ## C42 -/

/-- **C42** The policy check is exact: in the graph with one extra parent `d ++ "mec"` per node and the
edges into intervened variables cut, a query passes it iff no decision without policy has an active trail
from its extra parent to a queried node given context and intervention; otherwise ValueError. -/
theorem C42_policy_check {net : Net} (hU : net.Usable) (hnames : NamesOk net.g) (pick : Pick) {q : List Node}
    {ctx int : List (Node × Outcome)} (hctx : ∀ p ∈ ctx, p.1 ∈ net.g.nodes) (hint : ∀ p ∈ int, p.1 ∈ net.g.nodes) :
    ∃ mg : Graph, mg.WF ∧ (∀ x, x ∈ mg.nodes ↔ x ∈ net.g.nodes ∨ ∃ v ∈ net.g.nodes, x = v ++ "mec") ∧
      (∀ u v, mg.Edge u v ↔ (net.g.Edge u v ∧ v ∉ int.map (·.1)) ∨ (v ∈ net.g.nodes ∧ u = v ++ "mec")) ∧
      ((∀ d ∈ net.m.decisions, net.undecided d = true → ∀ t ∈ q,
          ¬ mg.DConn (d ++ "mec") t (ctx.map (·.1) ++ int.map (·.1))) →
        net.policiesOk pick q ctx int = .ok ()) ∧
      (¬ (∀ d ∈ net.m.decisions, net.undecided d = true → ∀ t ∈ q,
          ¬ mg.DConn (d ++ "mec") t (ctx.map (·.1) ++ int.map (·.1))) →
        net.policiesOk pick q ctx int = .error .value) := by
  have hdec : ∀ d ∈ net.m.decisions, d ∈ net.g.nodes := fun d hd => hU.roles.nodes d (Or.inl hd)
  obtain ⟨mg, ⟨h1, h2, h3⟩, h4, h5⟩ := policiesOk_spec hU.good hdec hnames pick (q := q) hctx hint
  have hz : ctx.map (·.1) ++ int.map (·.1) ⊆ mg.nodes := by
    intro x hx
    rw [h2]
    left
    rcases List.mem_append.1 hx with h | h
    · obtain ⟨p, hp, rfl⟩ := List.mem_map.1 h; exact hctx p hp
    · obtain ⟨p, hp, rfl⟩ := List.mem_map.1 h; exact hint p hp
  have hiff : ∀ d ∈ net.m.decisions, ∀ t, Reached mg (ctx.map (·.1) ++ int.map (·.1)) [d ++ "mec"] t ↔
      mg.DConn (d ++ "mec") t (ctx.map (·.1) ++ int.map (·.1)) := by
    intro d hd t
    have hs : d ++ "mec" ∈ mg.nodes := (h2 _).2 (Or.inr ⟨d, hdec d hd, rfl⟩)
    obtain ⟨b, e1, e2⟩ := isDConnected_reached h1 pick (t := t) hs hz
    obtain ⟨b', e3, e4⟩ := C08_is_dconnected mg h1 pick _ t _ hs hz
    rw [e1] at e3
    cases e3
    rw [← e2, e4]
  refine ⟨mg, h1, h2, h3, fun h => h4 (fun d hd hu t ht => ?_), fun h => h5 (fun hn => h (fun d hd hu t ht => ?_))⟩
  · rw [hiff d hd]; exact h d hd hu t ht
  · rw [← hiff d hd]; exact hn d hd hu t ht

/-- `net'` is `net` with other decision rules for decisions that had none. -/
structure Net.Decided (net net' : Net) : Prop where
  m : net'.m = net.m
  dom : ∀ v ∈ net.g.nodes, net'.dom v = net.dom v
  kernel : ∀ v ∈ net.g.nodes, ¬ (v ∈ net.m.decisions ∧ net.undecided v = true) → ∀ a, net.InDom a →
    net'.kernel v a = net.kernel v a

/-- **C42** If a query is answered although some decisions have no policy, then giving those decisions any
rules whatsoever does not change the answer. (Contexts possible in both networks.) -/
theorem C42_answer_independent {net net' : Net} (hU : net.Usable) (hU' : net'.Usable) (hnames : NamesOk net.g)
    (hD : net.Decided net') {pick : Pick} {ord : List Node → List Node} (hord : ∀ l, (ord l).Perm l)
    {q : List Node} {ctx int : List (Node × Outcome)} (hi : net.IntOk int) (hi' : net'.IntOk int) {f : Factor}
    (h : (net.query pick ord q ctx int).2 = .ok f)
    (hpos : net.PDo int (Ctx ctx) ≠ 0) (hpos' : net'.PDo int (Ctx ctx) ≠ 0) (xs : List Outcome) :
    net'.PDo int (fun a => Has q xs a && Ctx ctx a) / net'.PDo int (Ctx ctx) =
      net.PDo int (fun a => Has q xs a && Ctx ctx a) / net.PDo int (Ctx ctx) := by
  have hg : net'.g = net.g := congrArg Macid.g hD.m
  obtain ⟨hc, hp, _⟩ := query_ok hU.good h
  obtain ⟨_, _, hq, hdis, _⟩ := C38_answered_only_if_legal hU hord hi h
  have hin : ∀ p ∈ int, p.1 ∈ net.g.nodes := fun p hp => (hi.2 p hp).1
  have hin' : ∀ p ∈ int, p.1 ∈ net'.g.nodes := fun p hp => by rw [hg]; exact hin p hp
  have hdec : ∀ d ∈ net.m.decisions, d ∈ net.g.nodes := fun d hd => hU.roles.nodes d (Or.inl hd)
  obtain ⟨mg, ⟨hm1, hm2, hm3⟩, _, hno⟩ := policiesOk_spec hU.good hdec hnames pick (q := q) (fun p hp => (hc p hp).1) hin
  have hsep : ∀ d ∈ net.m.decisions, net.undecided d = true → ∀ t ∈ q,
      ¬ Reached mg (ctx.map (·.1) ++ int.map (·.1)) [d ++ "mec"] t := by
    by_contra hn
    rw [hno hn] at hp
    simp at hp
  have hB := doBN_prob hU.good hU.normalised hi.1 (fun p hp => (hi.2 p hp).2.1)
  have hB' := doBN_prob hU'.good hU'.normalised hi'.1 (fun p hp => (hi'.2 p hp).2.1)
  -- an assignment that agrees with context and intervention
  obtain ⟨z, hz⟩ : ∃ z : Assign, (∀ p ∈ ctx, z p.1 = p.2) ∧ ∀ p ∈ int, z p.1 = p.2 := by
    by_contra hn
    push Not at hn
    apply hpos
    have : net.PDo int (Ctx ctx) = net.PDo int (fun _ => false) := by
      apply PDo_congr
      intro a _ ha
      by_contra hca
      simp only [Bool.not_eq_false] at hca
      obtain ⟨p, hp, hne⟩ := hn a (by simpa [Ctx] using hca)
      exact hne (ha p hp)
    rw [this]
    unfold PDo
    simp only [Bool.false_eq_true, false_and, if_false]
    exact sumOver_zero _ _
  let Z := ctx.map (·.1) ++ int.map (·.1)
  have hZ : ∀ v ∈ Z, v ∈ net.g.nodes := by
    intro v hv
    rcases List.mem_append.1 hv with h | h
    · obtain ⟨p, hp, rfl⟩ := List.mem_map.1 h; exact (hc p hp).1
    · obtain ⟨p, hp, rfl⟩ := List.mem_map.1 h; exact hin p hp
  have hagree : ∀ a : Assign, (∀ v ∈ Z, a v = z v) ↔ (Ctx ctx a = true ∧ ∀ p ∈ int, a p.1 = p.2) := by
    intro a
    simp only [Z, List.mem_append, List.mem_map, Ctx, List.all_eq_true, decide_eq_true_eq]
    constructor
    · intro h
      exact ⟨fun p hp => (h p.1 (Or.inl ⟨p, hp, rfl⟩)).trans (hz.1 p hp), fun p hp => (h p.1 (Or.inr ⟨p, hp, rfl⟩)).trans (hz.2 p hp)⟩
    · rintro ⟨h1, h2⟩ v (⟨p, hp, rfl⟩ | ⟨p, hp, rfl⟩)
      · rw [h1 p hp, hz.1 p hp]
      · rw [h2 p hp, hz.2 p hp]
  have hWP : ∀ (n : Net), (∀ p ∈ int, p.1 ∈ n.g.nodes) → ∀ E : Assign → Bool, n.PDo int (fun a => E a && Ctx ctx a) =
      (n.doBN int).W (BN.at_ Z z (fun a => if E a then 1 else 0)) := by
    intro n hn E
    rw [show n.PDo int (fun a => E a && Ctx ctx a) = n.PDo int (fun a => E a && Ctx ctx a && decide (∀ p ∈ int, a p.1 = p.2)) from
      PDo_congr (fun a _ ha => by rw [decide_eq_true ha]; simp), PDo_eq_W hn]
    congr 1
    funext a
    unfold BN.at_
    simp only [hagree a]
    simp only [Bool.and_eq_true, decide_eq_true_eq]
    split_ifs <;> first | rfl | (exfalso; tauto)
  have key := BN.irrelevant hB hB' (by show CutGraph net'.g _ = _; rw [hg]; rfl) (fun v hv => hD.dom v hv)
    (Ds := fun v => v ∈ net.m.decisions ∧ net.undecided v = true)
    (by
      intro v hv hnd a ha
      show (if v ∈ int.map (·.1) then _ else net'.kernel v a) = (if v ∈ int.map (·.1) then _ else net.kernel v a)
      split
      · rfl
      · rename_i hvi
        exact kernel_ext hU.good hU'.good hv (by rw [hg]; exact hv) (by rw [hg]; exact fun _ h => h)
          (hD.kernel v hv hnd) a (fun u hu => ha u (hu.imp id (fun h => mem_cutGraph.2 ⟨h, hvi⟩))))
    (G := mg) (Z := Z) (S := (net.m.decisions.filter (fun d => net.undecided d)).map (· ++ "mec")) (T := q)
    (fun u v huv => (hm3 u v).2 (Or.inl (mem_cutGraph.1 huv))) hZ
    (by
      rintro v hv ⟨h1, h2⟩
      refine ⟨v ++ "mec", List.mem_map.2 ⟨v, List.mem_filter.2 ⟨h1, h2⟩, rfl⟩, fun hmem => ?_, (hm3 _ _).2 (Or.inr ⟨hv, rfl⟩)⟩
      exact hnames.1 _ (hZ _ hmem) v hv rfl)
    (by
      intro t ht hr
      obtain ⟨s, hs, hr⟩ := reached_iff.1 hr
      obtain ⟨d, hd, rfl⟩ := List.mem_map.1 hs
      exact hsep d (List.mem_filter.1 hd).1 (List.mem_filter.1 hd).2 t ht hr) z
    (h := fun a => if Has q xs a then 1 else 0)
    (by
      intro a b hab
      show (if Has q xs a = true then (1 : Rat) else 0) = _
      rw [has_depends q xs a b (fun v hv => hab v (Or.inr ⟨hv, hq v hv⟩))])
  have e1 := hWP net hin (Has q xs)
  have e2 := hWP net' hin' (Has q xs)
  have e3 : net.PDo int (Ctx ctx) = _ := (PDo_congr (by simp)).trans (hWP net hin (fun _ => true))
  have e4 : net'.PDo int (Ctx ctx) = _ := (PDo_congr (by simp)).trans (hWP net' hin' (fun _ => true))
  simp only [if_true] at e3 e4
  rw [← e1, ← e2, ← e3, ← e4] at key
  rw [div_eq_div_iff hpos' hpos]
  linarith

/-- **C42** The same in terms of calls: the query is then answered in the network with rules as well, and
with exactly the same factor (queried variables not intervened upon). -/
theorem C42_same_answer {net net' : Net} (hU : net.Usable) (hU' : net'.Usable) (hnames : NamesOk net.g)
    (hD : net.Decided net') (hund : ∀ v ∈ net.g.nodes, net'.undecided v = true → net.undecided v = true)
    {pick pick' : Pick} {ord : List Node → List Node} (hord : ∀ l, (ord l).Perm l)
    {q : List Node} {ctx int : List (Node × Outcome)} (hi : net.IntOk int) (hi' : net'.IntOk int) {f : Factor}
    (h : (net.query pick ord q ctx int).2 = .ok f) (hck : net'.checkContext ctx = .ok ())
    (hqi : ∀ v ∈ q, v ∉ int.map (·.1))
    (hpos : net.PDo int (Ctx ctx) ≠ 0) (hpos' : net'.PDo int (Ctx ctx) ≠ 0) :
    (net'.query pick' ord q ctx int).2 = .ok f := by
  have hg : net'.g = net.g := congrArg Macid.g hD.m
  obtain ⟨hc, hp, _⟩ := query_ok hU.good h
  obtain ⟨_, hne, hq, hdis, hcon⟩ := C38_answered_only_if_legal hU hord hi h
  have hin : ∀ p ∈ int, p.1 ∈ net.g.nodes := fun p hp => (hi.2 p hp).1
  have hdec : ∀ d ∈ net.m.decisions, d ∈ net.g.nodes := fun d hd => hU.roles.nodes d (Or.inl hd)
  -- the policy check of the other network
  have hp' : net'.policiesOk pick' q ctx int = .ok () := by
    obtain ⟨mg, ⟨hm1, hm2, hm3⟩, _, hno⟩ := policiesOk_spec hU.good hdec hnames pick (q := q) (fun p hp => (hc p hp).1) hin
    obtain ⟨mg', ⟨hm1', hm2', hm3'⟩, hyes, _⟩ := policiesOk_spec hU'.good (by rw [hD.m, hg]; exact hdec) (by rw [hg]; exact hnames)
      pick' (q := q) (fun p hp => by rw [hg]; exact (hc p hp).1) (fun p hp => by rw [hg]; exact hin p hp)
    have hsep : ∀ d ∈ net.m.decisions, net.undecided d = true → ∀ t ∈ q,
        ¬ Reached mg (ctx.map (·.1) ++ int.map (·.1)) [d ++ "mec"] t := by
      by_contra hn
      rw [hno hn] at hp
      simp at hp
    apply hyes
    rw [hD.m]
    intro d hd hu t ht hr
    refine hsep d hd (hund d (hdec d hd) hu) t ht (hr.mono (fun u v huv => ?_))
    rw [hm3', hg] at huv
    exact (hm3 u v).2 huv
  obtain ⟨f', hf'⟩ := C39_query_answers hU' hord (pick := pick') hi' hck hp' hne (by rw [hg]; exact hq) hdis (by rw [hg]; exact hcon)
  obtain ⟨d1, _, d1s, v1, _, s1, w1⟩ := C39_query_exact hU hord hi h hpos
  obtain ⟨d2, _, d2s, v2, _, s2, w2⟩ := C39_query_exact hU' hord hi' hf' hpos'
  rw [hf']
  have hvars : f'.vars = f.vars := by rw [v1, v2]
  have hst : f'.states = f.states := by
    rw [s1, s2, hvars]
    apply List.map_congr_left
    intro v hv
    have hvq : v ∈ q := (hord q).mem_iff.1 (v1 ▸ hv)
    rw [d1s v (hq v hvq) (hqi v hvq), d2s v (by rw [hg]; exact hq v hvq) (hqi v hvq), hD.dom v (hq v hvq)]
  have hval : f'.values = f.values := by
    rw [w1, w2, hst]
    apply List.map_congr_left
    intro xs hxs
    rw [if_neg hpos, if_neg hpos', hvars]
    have := C42_answer_independent hU hU' hnames hD hord hi hi' h hpos hpos'
    congr 1
    -- from the order of the factor to the order of the question
    have hperm := v1 ▸ hord q
    obtain ⟨e, he⟩ : ∃ e : Assign, f.vars.map e = xs ∨ ∀ a : Assign, f.vars.map a ≠ xs := by
      by_cases hx : ∃ e : Assign, f.vars.map e = xs
      · exact ⟨hx.choose, Or.inl hx.choose_spec⟩
      · push Not at hx
        exact ⟨fun _ => 0, Or.inr hx⟩
    rcases he with he | he
    · have hiff : ∀ a : Assign, Has f.vars xs a = Has q (q.map e) a := by
        intro a
        unfold Has
        rw [← he, decide_eq_decide, List.map_inj_left, List.map_inj_left]
        exact forall_congr' (fun v => by rw [hperm.mem_iff])
      simp only [hiff]
      exact this (q.map e)
    · have h0 : ∀ a : Assign, Has f.vars xs a = false := fun a => by simp [Has, he a]
      simp only [h0, Bool.false_and]
      have hz : ∀ n : Net, n.PDo int (fun _ => false) = 0 := by
        intro n
        unfold PDo
        simp only [Bool.false_eq_true, false_and, if_false]
        exact sumOver_zero _ _
      rw [hz, hz, zero_div, zero_div]
  congr 1
  cases f; cases f'
  simp_all

/-- the example diagram with a mixed rule for D -/
def Ex.netD : Net := build Ex.m Macid.new
  [("U", .func Ex.utility), ("D", .dist [(0, some (1 / 3)), (1, some (2 / 3))]),
    ("A", .dist [(0, some (1 / 4)), (1, some (3 / 4))])]

theorem Ex.netD_usable : Ex.netD.Usable ∧ Ex.netD.m = Ex.m ∧ Ex.netD.base = Macid.new := by
  refine usable_build Ex.m_consistent (Or.inl rfl) (by decide +kernel) (by decide) ?_ (by decide) (by decide +kernel)
    (by decide +kernel) (by decide +kernel)
  intro p hp
  simp only [List.mem_cons, List.not_mem_nil, or_false] at hp
  rcases hp with rfl | rfl | rfl
  · intro pv; simp [Ex.utility]
  · trivial
  · trivial

/-- The hypotheses of C42 are met: P(A) is answered in the example diagram without policy; `netD` is the
diagram with a policy. -/
example : Ex.net.Usable ∧ Ex.netD.Usable ∧ NamesOk Ex.net.g ∧ Ex.net.Decided Ex.netD ∧
    Ex.net.undecided "D" = true ∧ Ex.netD.undecided "D" = false ∧ Ex.net.IntOk [] ∧ Ex.netD.IntOk [] ∧
    (Ex.net.query (fun _ _ => 0) id ["A"] [] []).2 = .ok ⟨["A"], [[0, 1]], [some (1 / 4), some (3 / 4)]⟩ ∧
    Ex.net.PDo [] (Ctx []) ≠ 0 ∧ Ex.netD.PDo [] (Ctx []) ≠ 0 := by
  refine ⟨Ex.net_usable, Ex.netD_usable.1, ⟨by decide +kernel, by decide +kernel⟩, ⟨by decide +kernel, by decide +kernel, ?_⟩,
    by decide +kernel, by decide +kernel, ⟨by simp, by simp⟩, ⟨by simp, by simp⟩, by decide +kernel, by decide +kernel,
    by decide +kernel⟩
  have h1 : ∀ v ∈ ["A", "U"], (Ex.netD.cpds.get? v).map (fun c => (c.table, c.domain, c.evidence)) =
    (Ex.net.cpds.get? v).map (fun c => (c.table, c.domain, c.evidence)) := by decide +kernel
  intro v hv hn a ha
  have hdm : Ex.netD.domain = Ex.net.domain := by decide +kernel
  have hnn : Ex.net.g.nodes = ["A", "D", "U"] := by decide +kernel
  rw [hnn] at hv
  have hu : Ex.net.undecided "D" = true ∧ "D" ∈ Ex.net.m.decisions := by decide +kernel
  simp only [List.mem_cons, List.not_mem_nil, or_false] at hv
  rcases hv with rfl | rfl | rfl
  · exact kernel_congr_cpd (h1 _ (by simp)) hdm a
  · exact absurd ⟨hu.2, hu.1⟩ hn
  · exact kernel_congr_cpd (h1 _ (by simp)) hdm a

/-! ## C50 -/

/-- **C50** FALSE that a question about no variables is harmless: it removes every node of the network and
raises NetworkXPointlessConcept (unless a check fails first). -/
theorem C50_empty_query {net : Net} (hU : net.Usable) (hnames : NamesOk net.g) (pick : Pick) (ord : List Node → List Node)
    (ctx : List (Node × Outcome)) (hctx : net.checkContext ctx = .ok ()) :
    (net.query pick ord [] ctx []).2 = .error .nx ∧ (net.query pick ord [] ctx []).1.g.nodes = [] := by
  have hc := checkContext_ok hU.good hctx
  have hdec : ∀ d ∈ net.m.decisions, d ∈ net.g.nodes := fun d hd => hU.roles.nodes d (Or.inl hd)
  obtain ⟨mg, _, hyes, _⟩ := policiesOk_spec hU.good hdec hnames pick (q := []) (int := []) (fun p hp => (hc p hp).1) (by simp)
  have hp := hyes (by simp)
  rw [query_pass hU.good hc hp]
  simp only [queryCore, queryOn, List.all_nil, Bool.true_eq_false, if_false, List.flatMap_nil]
  have hn : (net.prune []).g.nodes = [] := by
    rw [List.eq_nil_iff_forall_not_mem]
    intro v hv
    simpa using (mem_prune.1 hv).2
  unfold isConnected
  rw [hn]
  exact ⟨rfl, hn⟩

example : Ex.net.Usable ∧ NamesOk Ex.net.g ∧ Ex.net.checkContext [("A", 1)] = .ok () :=
  ⟨Ex.net_usable, ⟨by decide +kernel, by decide +kernel⟩, by decide +kernel⟩

end Verif

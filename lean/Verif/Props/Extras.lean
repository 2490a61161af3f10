import Verif.Props.Policies
import Verif.Props.PolicyRuns
import Verif.Model.Efg

/-!
# Small relatives of earlier properties: `optimal_pure_decision_rules` (C46), `joint_pure_policies` (C29),
`_get_path_edges` (C02)
-/

namespace Verif

open Graph Relation Macid Net

/-! ### C46: `optimal_pure_decision_rules` -/

private theorem product_one {α : Type} (l : List α) : product [l] = l.map (fun x => [x]) := by
  induction l with
  | nil => rfl
  | cons x l ih =>
    simp only [product, List.flatMap_cons, List.map_cons, List.map_nil, List.singleton_append, List.cons.injEq, true_and] at ih ⊢
    exact ih

private theorem mapPy_head {l : List (List Cpd)} {rules : List Cpd} (h : l.Sublist (rules.map (fun x => [x]))) :
    ∃ res, mapPy (fun p : List Cpd => match p.head? with | some c => .ok c | none => (.error .index : Py Cpd)) l = .ok res ∧
      res.Sublist rules ∧ l = res.map (fun x => [x]) := by
  rw [List.sublist_map_iff] at h
  obtain ⟨res, hs, rfl⟩ := h
  refine ⟨res, ?_, hs, rfl⟩
  clear hs
  induction res with
  | nil => rfl
  | cons c res ih => simp [mapPy, ih]

/-- **C46** for a single decision: `optimal_pure_decision_rules(d)` never fails where `optimal_pure_policies([d])` does not,
returns rules of `d` among the pure rules, each at most as often as it is enumerated, all the best ones among them, and
nothing that is not close to a returned maximum. -/
theorem C46_optimal_decision_rules {net : Net} (hU : net.Usable) (hnames : NamesOk net.g) {pick : Pick}
    {ord setOrd : List Node → List Node} (hord : ∀ l, (ord l).Perm l) (hset : ∀ l, (setOrd l).Perm l) {d : Node} {a : Agent}
    (hone : net.m.role d = .decision a) {pols : List (List Cpd)}
    (h : optimalPurePolicies pick ord setOrd (1 / 1000000000) net [d] = .ok pols) :
    ∃ res base rules, optimalPureRules pick ord setOrd net d = .ok res ∧ base.Usable ∧ Reference net [d] base ∧
      pureDecisionRules d (base.g.parents d) base.domain base.card = .ok rules ∧ res.Sublist rules ∧
      (∀ c ∈ rules, ∃ net', base.set d (.tab c) = (net', .ok ()) ∧ net'.Usable ∧ OnlyRules base [d] net') ∧
      (∀ c, IsBest (fun c => (base.set d (.tab c)).1.EU a) rules c → c ∈ res) ∧
      ∃ m, (∃ c ∈ res, (base.set d (.tab c)).1.EU a = m) ∧
        (∀ c ∈ res, Close (1 / 1000000000) ((base.set d (.tab c)).1.EU a) m) ∧
        ∀ c ∈ rules, (base.set d (.tab c)).1.EU a ≤ m ∨ Close (1 / 1000000000) ((base.set d (.tab c)).1.EU a) m := by
  obtain ⟨base, pl, q1, q2, q3, q4, q5, q6, m, q7, q8, q9⟩ := C46_optimal_pure_policies hU hnames hord hset
    (by norm_num) (by norm_num) (ds := [d]) (a := a) (by simp) (by simpa using hone) h
  have e1 : setOrd [d].dedup = [d] := by
    have := hset [d].dedup
    simpa using this
  rw [e1] at q3
  have hd : d ∈ base.g.nodes := by
    rw [q2.nodes]
    exact hU.roles.nodes d (.inl <| Dict.mem_keys.2 ⟨a, role_decision.1 hone⟩)
  obtain ⟨rules, r1, r2, r3, r4⟩ := pureRules_spec q1 hd
  have e2 : pl = rules.map (fun x => [x]) := by
    have : purePolicies (fun d => pureDecisionRules d (base.g.parents d) base.domain base.card) [d] = .ok (product [rules]) := by
      simp [purePolicies, mapPy, r2]
    rw [q3, product_one] at this
    exact Except.ok.inj this
  subst e2
  obtain ⟨res, m1, m2, rfl⟩ := mapPy_head q6
  have e3 : ∀ c ∈ rules, base.addPolicy [c] = base.set d (.tab c) := by
    intro c hc
    simp only [addPolicy, List.map_cons, List.map_nil, addCpds, (r4 c hc).1]
    match base.set d (.tab c) with
    | (n, .ok ()) => rfl
    | (n, .error e) => rfl
  have e4 : ∀ c ∈ res, base.addPolicy [c] = base.set d (.tab c) := fun c hc => e3 c (m2.subset hc)
  refine ⟨res, base, rules, ?_, q1, q2, r2, m2, ?_, ?_, m, ?_, ?_, ?_⟩
  · unfold optimalPureRules
    rw [h]
    exact m1
  · intro c hc
    rw [← e3 c hc]
    exact q4 [c] (List.mem_map_of_mem hc)
  · intro c hc
    have := q5 [c] ⟨List.mem_map_of_mem hc.1, ?_⟩
    · obtain ⟨c', h1, h2⟩ := List.mem_map.1 this
      simp only [List.cons.injEq, and_true] at h2
      exact h2 ▸ h1
    · intro q hq
      obtain ⟨c', h1, rfl⟩ := List.mem_map.1 hq
      simp only [e3 c' h1, e3 c hc.1]
      exact hc.2 c' h1
  · obtain ⟨pol, h1, h2⟩ := q7
    obtain ⟨c, h3, rfl⟩ := List.mem_map.1 h1
    exact ⟨c, h3, by rw [← e4 c h3]; exact h2⟩
  · intro c hc
    rw [← e4 c hc]
    exact q8 [c] (List.mem_map_of_mem hc)
  · intro c hc
    rw [← e3 c hc]
    exact q9 [c] (List.mem_map_of_mem hc)

/-- a decision with three outcomes, one of them best -/
example : Ex4.net.Usable ∧ (match optimalPureRules (fun _ => 0) id id Ex4.net "D" with
      | .ok l => some (l.map (fun c => c.table))
      | .error _ => none) = some [[[0, 1, 0]]] :=
  ⟨Ex4.usable.1, by decide +kernel⟩

/-! ### C29: `joint_pure_policies` -/

/-- **C29** `joint_pure_policies` on a usable network: it succeeds for every list of nodes and every joint pure strategy is
played by exactly one entry. -/
theorem C29_joint_pure_policies {net : Net} (hU : net.Usable) {decs : List Node} (hds : ∀ d ∈ decs, d ∈ net.g.nodes) :
    ∃ pols, net.jointPurePolicies decs = .ok pols ∧
      ∀ φ : Node → List Outcome → Outcome,
        (∀ d ∈ decs, ∀ vals, Instantiation (net.g.parents d) net.domain vals → φ d vals ∈ net.dom d) →
        ∃ (i : Nat) (pol : List Cpd), pols[i]? = some pol ∧
          List.Forall₂ (fun d c => c.var = d ∧ Plays c net.domain (φ d)) decs pol ∧
          ∀ (j : Nat) (pol' : List Cpd), pols[j]? = some pol' →
            List.Forall₂ (fun d c => Plays c net.domain (φ d)) decs pol' → j = i := by
  have hok : ∀ d ∈ decs, (net.g.parents d).Nodup ∧ (∃ domain, net.domain.get? d = some domain ∧ domain.Nodup ∧ domain ≠ []) ∧
      ∀ p ∈ net.g.parents d, ∃ l, net.domain.get? p = some l ∧ l.Nodup ∧ net.card p = .ok l.length := by
    intro d hd
    have key : ∀ v ∈ net.g.nodes, ∃ l, net.domain.get? v = some l ∧ l.Nodup ∧ l ≠ [] := by
      intro v hv
      obtain ⟨c, _, h2⟩ := hU.good.complete v hv
      exact ⟨c.domain, h2, by rw [← dom_eq h2]; exact dom_props hU.good hv⟩
    refine ⟨nodup_parents hU.good.wf.edgesNodup d, key d (hds d hd), ?_⟩
    intro p hp
    have hp' := (hU.good.wf.edgeNodes p d (mem_parents.1 hp)).1
    obtain ⟨l, h1, h2, _⟩ := key p hp'
    refine ⟨l, h1, h2, ?_⟩
    rw [card_eq_cardOf hU.good hp']
    simp [cardOf, h1]
  obtain ⟨pols, h1, h2⟩ := C29_joint_strategy_exactly_once (pa := net.g.parents) (dom := net.domain) (card := net.card) hok
  have e : net.jointPurePolicies decs = .ok pols := by
    rw [← h1]
    unfold jointPurePolicies purePolicies
    rw [mapPy_congr (f := net.pureRules) (f' := fun d => pureDecisionRules d (net.g.parents d) net.domain net.card) (fun d hd => by
      obtain ⟨r, h1, h2, _⟩ := pureRules_spec hU (hds d hd)
      rw [h1, h2])]
  refine ⟨pols, e, fun φ hφ => ?_⟩
  obtain ⟨i, pol, g1, g2, g3⟩ := h2 φ hφ
  refine ⟨i, pol, g1, ?_, g3⟩
  have hF := ((C29_pure_policies h1).1 pol).1 (List.mem_of_getElem? g1)
  have hv : List.Forall₂ (fun d c => c.var = d) decs pol := by
    refine (List.forall₂_and_left (p := fun d => d ∈ decs) _ _).2 ⟨fun x hx => hx, hF⟩ |>.imp ?_
    rintro d c ⟨hd, rs, e1, e2⟩
    obtain ⟨r, _, e3, _, e4⟩ := pureRules_spec hU (hds d hd)
    rw [e3] at e1
    cases e1
    exact (e4 c e2).1
  clear hF g1 g3 h1 h2 e hφ hok hds
  induction hv with
  | nil => exact .nil
  | cons h _ ih =>
    cases g2 with
    | cons k k' => exact .cons ⟨h, k⟩ (ih k')

example : Ex4.net.Usable ∧ (match Ex4.net.jointPurePolicies ["D"] with
      | .ok l => some (l.map (fun p => p.map (fun c => c.table)))
      | .error _ => none) = some [[[[1, 0, 0]]], [[[0, 1, 0]]], [[[0, 0, 1]]]] :=
  ⟨Ex4.usable.1, by decide +kernel⟩

/-! ### C02: `_get_path_edges` -/

/-- **C02** The edges of a path: for a path each step of which joins adjacent nodes, the `i`-th entry is the edge between the
`i`-th and the next node, in the direction it has in the graph, and there are no other entries. -/
theorem C02_path_edges {g : Graph} {p : List Node} (hp : p.IsChain g.Adj) :
    (getPathEdges g p).length = p.length - 1 ∧
    ∀ l a b r, p = l ++ a :: b :: r → ∃ e, (getPathEdges g p)[l.length]? = some e ∧ g.Edge e.1 e.2 ∧ (e = (a, b) ∨ e = (b, a)) := by
  induction p with
  | nil => simp [getPathEdges]
  | cons x p ih =>
    cases p with
    | nil =>
      refine ⟨by simp [getPathEdges], ?_⟩
      intro l a b r h
      have := congrArg List.length h
      simp only [List.length_cons, List.length_nil, List.length_append] at this
      omega
    | cons y p =>
      rw [List.isChain_cons_cons] at hp
      obtain ⟨h1, h2⟩ := ih hp.2
      have key : ∃ e, getPathEdges g (x :: y :: p) = e :: getPathEdges g (y :: p) ∧ g.Edge e.1 e.2 ∧ (e = (x, y) ∨ e = (y, x)) := by
        by_cases hxy : g.Edge x y
        · exact ⟨(x, y), by rw [getPathEdges, if_pos (mem_parents.2 hxy)], hxy, .inl rfl⟩
        · have hyx := hp.1.resolve_left hxy
          exact ⟨(y, x), by rw [getPathEdges, if_neg (fun h => hxy (mem_parents.1 h)), if_pos (mem_parents.2 hyx)], hyx, .inr rfl⟩
      obtain ⟨e, he, hE, hor⟩ := key
      rw [he]
      refine ⟨by simp [h1], ?_⟩
      intro l a b r hl
      cases l with
      | nil =>
        simp only [List.nil_append, List.cons.injEq] at hl
        obtain ⟨rfl, rfl, rfl⟩ := hl
        exact ⟨e, rfl, hE, hor⟩
      | cons z l =>
        simp only [List.cons_append, List.cons.injEq] at hl
        obtain ⟨e', k⟩ := h2 l a b r hl.2
        exact ⟨e', by simpa using k.1, k.2⟩

/-- the example of the docstring: a collider -/
example : getPathEdges ⟨["D1", "X", "D2"], [("D1", "X"), ("D2", "X")]⟩ ["D1", "X", "D2"] = [("D1", "X"), ("D2", "X")] := by
  decide +kernel

end Verif

import Verif.Props.Query
import Verif.Model.Effects

/-!
# C43–C45: expected values and effects
-/

namespace Verif

open Graph Net Macid BN

/-! ## C43 -/

/-- **C43** `expected_value` returns, for each variable in the order of the underlying factor, the sum of
its outcomes weighted by their conditional probability. -/
theorem C43_expected_value {net : Net} (hU : net.Usable) {pick : Pick} {ord : List Node → List Node}
    (hord : ∀ l, (ord l).Perm l) {q : List Node} {ctx int : List (Node × Outcome)} (hi : net.IntOk int) {f : Factor}
    (h : (net.query pick ord q ctx int).2 = .ok f) (hpos : net.PDo int (Ctx ctx) ≠ 0) :
    (net.expectedValue pick ord q ctx int).2 = .ok ((ord q).map (net.Mean int ctx)) := by
  obtain ⟨dom', d1, d2, d3, hf⟩ := C39_query_exact hU hord hi h hpos
  obtain ⟨_, _, hq, _⟩ := C38_answered_only_if_legal hU hord hi h
  unfold expectedValue
  generalize hx : net.query pick ord q ctx int = x at h
  obtain ⟨n, y⟩ := x
  simp only at h
  subst h
  simp only
  rw [evOf_conditional hU.good (fun p hp => (hi.2 p hp).1) hpos hq d1 hf, d3]

/-- **C43** A number is only returned when the query itself is answered. -/
theorem C43_value_needs_answer {net : Net} {pick : Pick} {ord : List Node → List Node} {q : List Node}
    {ctx int : List (Node × Outcome)} {l : List Rat} (h : (net.expectedValue pick ord q ctx int).2 = .ok l) :
    ∃ f, (net.query pick ord q ctx int).2 = .ok f ∧ ∀ y ∈ f.values, y ≠ none := by
  unfold expectedValue at h
  generalize hx : net.query pick ord q ctx int = x at h
  obtain ⟨n, y⟩ := x
  cases y with
  | error e => simp at h
  | ok f =>
    refine ⟨f, rfl, ?_⟩
    simp only [evOf] at h
    split at h
    · simp at h
    · rename_i hn
      intro y hy e
      subst e
      exact hn (List.any_eq_true.2 ⟨none, hy, rfl⟩)

/-- **C43** A context of probability zero (all of whose variables are connected to the query) gives
RuntimeError, not a number. -/
theorem C43_impossible_context {net : Net} (hU : net.Usable) {pick : Pick} {ord : List Node → List Node}
    (hord : ∀ l, (ord l).Perm l) {q : List Node} {ctx int : List (Node × Outcome)} (hi : net.IntOk int) {f : Factor}
    (h : (net.query pick ord q ctx int).2 = .ok f)
    (hcon : ∀ p ∈ ctx, ∃ v ∈ q, (CutGraph net.g (int.map (·.1))).Connected v p.1)
    (h0 : net.PDo int (Ctx ctx) = 0) :
    (net.expectedValue pick ord q ctx int).2 = .error .runtime := by
  have key : ∃ f : Factor, ∃ dom', (net.query pick ord q ctx int).2 = .ok f ∧ (∀ v ∈ net.g.nodes, (dom' v).Perm (net.dom v)) ∧
      IsConditional f q dom' (net.PDo int) (Ctx ctx) := by
    obtain ⟨h1, _, h3⟩ := query_ok hU.good h
    cases int with
    | nil =>
      obtain ⟨k1, k2, k3, k4, k5, k6⟩ := queryOn_ok hU.good hU.normalised hord (fun p hp => (h1 p hp).1) h3
      refine ⟨f, net.dom, h, fun _ _ => .refl _, ?_⟩
      have he : net.PDo [] = net.P := funext (PDo_nil net)
      have hcx : ctxOf net q ctx = ctx := by
        apply List.filter_eq_self.2
        intro p hp
        obtain ⟨v, hv, hvp⟩ := hcon p hp
        rw [decide_eq_true_eq, mem_keepOf hU.good.wf]
        refine ⟨v, hv, Relation.ReflTransGen.mono (fun a b h => ?_) _ _ hvp⟩
        exact h.imp (fun h => (mem_cutGraph.1 h).1) (fun h => (mem_cutGraph.1 h).1)
      rw [he]
      rw [hcx] at k5
      exact k5
    | cons p l =>
      obtain ⟨c, c', e1, e2, e3, e4, e5, e6, e7, e8, e9⟩ := hU.act hi
      simp only [queryCore, e1, e2] at h3
      have hctx : ∀ p ∈ ctx, p.1 ∈ c'.g.nodes := fun p hp => by rw [e5]; exact (h1 p hp).1
      obtain ⟨k1, k2, k3, k4, k5, k6⟩ := queryOn_ok e3 e4 hord hctx h3
      refine ⟨f, c'.dom, h, e7, ?_⟩
      have he : net.PDo (p :: l) = c'.P := funext (fun E => (e9 E).symm)
      have hcx : ctxOf c' q ctx = ctx := by
        apply List.filter_eq_self.2
        intro p hp
        obtain ⟨v, hv, hvp⟩ := hcon p hp
        rw [decide_eq_true_eq, mem_keepOf e3.wf]
        refine ⟨v, hv, Relation.ReflTransGen.mono (fun a b h => ?_) _ _ hvp⟩
        exact h.imp (fun h => (e6 _ _).2 h) (fun h => (e6 _ _).2 h)
      rw [he]
      rw [hcx] at k5
      exact k5
  obtain ⟨f', dom', h', hd, hf1, hf2, hf3⟩ := key
  obtain ⟨_, _, hq, _⟩ := C38_answered_only_if_legal hU hord hi h
  unfold expectedValue
  generalize hx : net.query pick ord q ctx int = x at h h'
  obtain ⟨n, y⟩ := x
  simp only at h h'
  subst h
  cases h'
  simp only [evOf]
  rw [if_pos]
  rw [List.any_eq_true]
  have hne : product f.states ≠ [] := by
    rw [hf2]
    have : ∀ l : List Node, (∀ v ∈ l, v ∈ net.g.nodes) → ∃ xs, xs ∈ product (l.map dom') := by
      intro l
      induction l with
      | nil => intro _; exact ⟨[], by simp [product]⟩
      | cons v l ih =>
        intro hl
        obtain ⟨xs, hxs⟩ := ih (fun w hw => hl w (by simp [hw]))
        have hv := hl v (by simp)
        obtain ⟨x, hx⟩ := List.exists_mem_of_ne_nil _ (dom_props hU.good hv).2
        exact ⟨x :: xs, by
          simp only [List.map_cons, product, List.mem_flatMap, List.mem_map]
          exact ⟨x, (hd v hv).mem_iff.2 hx, xs, hxs, rfl⟩⟩
    obtain ⟨xs, hxs⟩ := this f.vars (fun v hv => hq v (hf1.mem_iff.1 hv))
    exact List.ne_nil_of_mem hxs
  obtain ⟨xs, hxs⟩ := List.exists_mem_of_ne_nil _ hne
  refine ⟨none, ?_, rfl⟩
  rw [hf3]
  exact List.mem_map.2 ⟨xs, hxs, by simp [h0]⟩

/-- **C43** `expected_utility` is the sum of the expected values of the agent's utility nodes. -/
theorem C43_expected_utility {net : Net} (hU : net.Usable) {pick : Pick} {ord : List Node → List Node}
    (hord : ∀ l, (ord l).Perm l) {ctx int : List (Node × Outcome)} (hi : net.IntOk int) {agent : Agent} {r : Rat}
    (h : (net.expectedUtility pick ord ctx int agent).2 = .ok r) (hpos : net.PDo int (Ctx ctx) ≠ 0) :
    ∃ us, net.m.agentUtilities.get? agent = some us ∧ r = (us.map (net.Mean int ctx)).sum := by
  unfold expectedUtility at h
  cases h1 : net.m.agentUtilities.get agent with
  | error e => simp [h1] at h
  | ok us =>
    simp only [h1] at h
    refine ⟨us, Dict.get_ok.1 h1, ?_⟩
    generalize hx : net.expectedValue pick ord us ctx int = x at h
    obtain ⟨n, y⟩ := x
    cases y with
    | error e => simp at h
    | ok l =>
      simp only [Except.ok.injEq] at h
      have hl : (net.expectedValue pick ord us ctx int).2 = .ok l := by rw [hx]
      obtain ⟨f, hf, _⟩ := C43_value_needs_answer hl
      rw [C43_expected_value hU hord hi hf hpos] at hl
      cases hl
      rw [← h]
      exact ((hord us).map _).sum_eq

/-- **C43** Expected values lie within the range of the outcomes. -/
theorem C43_bounds {net : Net} (hU : net.Usable) {ctx int : List (Node × Outcome)} (hi : net.IntOk int)
    (hpos : net.PDo int (Ctx ctx) ≠ 0) {v : Node} (hv : v ∈ net.g.nodes) {lo hi' : Rat}
    (hlo : ∀ x ∈ net.dom v, lo ≤ x) (hhi : ∀ x ∈ net.dom v, x ≤ hi') :
    lo ≤ net.Mean int ctx v ∧ net.Mean int ctx v ≤ hi' := by
  have hin : ∀ p ∈ int, p.1 ∈ net.g.nodes := fun p hp => (hi.2 p hp).1
  rw [Mean_eq hU.good hin hv]
  refine ⟨?_, ?_⟩
  · rw [← EW_const hin hpos lo]
    exact EW_le hU.good hU.normalised hi (fun a ha _ => hlo _ (ha v hv))
  · rw [← EW_const hin hpos hi']
    exact EW_le hU.good hU.normalised hi (fun a ha _ => hhi _ (ha v hv))

/-- FALSE that the result is in the order in which the variables were given: it is in the order of the
factor, which the inference engine is free to choose. In the example diagram E[A] = 3/4 and E[U] = 7/12. -/
theorem C43_order_counterexample : ∃ (net : Net) (pick : Pick) (ord : List Node → List Node), net.Usable ∧
    (∀ l, (ord l).Perm l) ∧ net.Mean [] [] "A" = 3 / 4 ∧ net.Mean [] [] "U" = 7 / 12 ∧
    (net.expectedValue pick ord ["A", "U"] [] []).2 = .ok [7 / 12, 3 / 4] :=
  ⟨Ex.netD, fun _ _ => 0, List.reverse, Ex.netD_usable.1, fun l => List.reverse_perm l, by decide +kernel, by decide +kernel,
    by decide +kernel⟩

/-- The hypotheses are met. -/
example : (Ex.netD.expectedUtility (fun _ _ => 0) id [("A", 1)] [] 0).2 = .ok (2 / 3) ∧ Ex.netD.IntOk [] ∧
    Ex.netD.PDo [] (Ctx [("A", 1)]) ≠ 0 ∧
    (Ex.netD.expectedValue (fun _ _ => 0) id ["D"] [("A", 0), ("U", 1)] [("A", 1)]).2 = .error .runtime :=
  ⟨by decide +kernel, ⟨by simp, by simp⟩, by decide +kernel, by decide +kernel⟩

/-! ## C44 -/

namespace Net

theorem query_int_net (net : Net) (pick : Pick) (ord : List Node → List Node) (q : List Node) (ctx : List (Node × Outcome))
    (p : Node × Outcome) (l : List (Node × Outcome)) : (net.expectedValue pick ord q ctx (p :: l)).1 = net := by
  have := C37_query_with_intervention net pick ord q ctx (p :: l) (by simp)
  unfold expectedValue
  generalize net.query pick ord q ctx (p :: l) = x at this
  obtain ⟨n, y⟩ := x
  cases y <;> exact this

theorem evAt_net (net : Net) (pick : Pick) (ord : List Node → List Node) (a x : Node) (v : Outcome) :
    (net.evAt pick ord a x v).1 = net := by
  have := query_int_net net pick ord [x] [] (a, v) []
  unfold evAt
  generalize net.expectedValue pick ord [x] [] [(a, v)] = y at this
  obtain ⟨n, y⟩ := y
  cases y with
  | error e => exact this
  | ok l => cases l <;> exact this

theorem PDo_do_pos {net : Net} (hU : net.Usable) {int : List (Node × Outcome)} (hi : net.IntOk int) :
    net.PDo int (Ctx []) = 1 := by
  rw [← (C40_intervention_certain hU hi).1]
  apply PDo_congr
  intro a _ _
  simp [Ctx]

theorem evAt_ok {net : Net} (hU : net.Usable) {pick : Pick} {ord : List Node → List Node}
    (hord : ∀ l, (ord l).Perm l) {a x : Node} {v : Outcome} (hi : net.IntOk [(a, v)]) {r : Rat}
    (h : (net.evAt pick ord a x v).2 = .ok r) : r = net.Mean [(a, v)] [] x ∧ x ∈ net.g.nodes := by
  have hpos : net.PDo [(a, v)] (Ctx []) ≠ 0 := by rw [PDo_do_pos hU hi]; norm_num
  unfold evAt at h
  generalize hx : net.expectedValue pick ord [x] [] [(a, v)] = y at h
  obtain ⟨n, y⟩ := y
  cases y with
  | error e => simp at h
  | ok l =>
    have hl : (net.expectedValue pick ord [x] [] [(a, v)]).2 = .ok l := by rw [hx]
    obtain ⟨f, hf, _⟩ := C43_value_needs_answer hl
    obtain ⟨_, _, hq, _⟩ := C38_answered_only_if_legal hU hord hi hf
    rw [C43_expected_value hU hord hi hf hpos] at hl
    have ho : ord [x] = [x] := List.perm_singleton.1 (hord [x])
    rw [ho] at hl
    cases hl
    simp only [List.map_cons, List.map_nil, Except.ok.injEq] at h
    exact ⟨h.symm, hq x (by simp)⟩

end Net

/-- **C44** `total_effect` is E[x | do(a = a1)] − E[x | do(a = a0)]; the network is not modified. -/
theorem C44_total_effect_exact {net : Net} (hU : net.Usable) {pick : Pick} {ord : List Node → List Node}
    (hord : ∀ l, (ord l).Perm l) {a x : Node} {a0 a1 : Outcome} (h0 : net.IntOk [(a, a0)]) (h1 : net.IntOk [(a, a1)]) :
    (net.totalEffect pick ord a x a0 a1).1 = net ∧ ∀ r, (net.totalEffect pick ord a x a0 a1).2 = .ok r →
      r = net.Mean [(a, a1)] [] x - net.Mean [(a, a0)] [] x ∧ x ∈ net.g.nodes := by
  have n1 := evAt_net net pick ord a x a1
  have k1 := fun r => evAt_ok hU hord (pick := pick) h1 (x := x) (r := r)
  have n0 := evAt_net net pick ord a x a0
  have k0 := fun r => evAt_ok hU hord (pick := pick) h0 (x := x) (r := r)
  unfold totalEffect
  generalize net.evAt pick ord a x a1 = y at n1 k1
  obtain ⟨m, y⟩ := y
  simp only at n1
  subst n1
  cases y with
  | error e => simp
  | ok e1 =>
    simp only
    generalize m.evAt pick ord a x a0 = z at n0 k0
    obtain ⟨n, z⟩ := z
    simp only at n0
    subst n0
    cases z with
    | error e => simp
    | ok e0 =>
      refine ⟨rfl, fun r hr => ?_⟩
      simp only [Except.ok.injEq] at hr
      obtain ⟨i1, i2⟩ := k1 e1 rfl
      obtain ⟨i3, _⟩ := k0 e0 rfl
      rw [← hr, i1, i3]
      exact ⟨rfl, i2⟩

/-- **C44** An intervention has no effect on the expectation of nodes that are not its descendants. -/
theorem C44_nondescendant {net : Net} (hU : net.Usable) {a x : Node} {a0 a1 : Outcome} (h0 : net.IntOk [(a, a0)])
    (h1 : net.IntOk [(a, a1)]) (hx : x ∈ net.g.nodes) (hnd : ¬ net.g.DescEq a x) :
    net.Mean [(a, a1)] [] x = net.Mean [(a, a0)] [] x := by
  have key : ∀ v, net.IntOk [(a, v)] → net.Mean [(a, v)] [] x =
      sumOver net.dom (anc net.g (CutGraph net.g [a]) [x])
        (fun b => ((anc net.g (CutGraph net.g [a]) [x]).map (fun v => net.kernel v b)).prod * b x) (fun _ => 0) := by
    intro v hv
    rw [Mean_eq hU.good (fun p hp => (hv.2 p hp).1) hx]
    unfold EW
    rw [PDo_do_pos hU hv, div_one]
    have hU' : ∀ w, w ∈ anc net.g (CutGraph net.g [a]) [x] ↔ w ∈ net.g.nodes ∧ (CutGraph net.g [a]).DescEq w x := by
      intro w
      rw [mem_anc]
      simp
    rw [BN.W_ancestral (doBN_prob hU.good hU.normalised hv.1 (fun p hp => (hv.2 p hp).2.1))
      (U := anc net.g (CutGraph net.g [a]) [x]) (hU.good.wf.nodesNodup.filter _) (fun w hw => ((hU' w).1 hw).1) ?_ ?_ (fun _ => 0)]
    · apply sumOver_congr
      intro b _ _
      simp only [Ctx, List.all_nil, if_true, mul_one]
      congr 1
      unfold BN.prod
      congr 1
      apply List.map_congr_left
      intro w hw
      have : w ≠ a := by
        rintro rfl
        exact hnd (Relation.ReflTransGen.mono (fun a b h => (mem_cutGraph.1 h).1) _ _ ((hU' w).1 hw).2)
      show (if w ∈ [a] then _ else _) = _
      rw [if_neg (by simpa using this)]
    · intro u w huw hw
      rw [hU'] at hw ⊢
      exact ⟨(hU.good.wf.edgeNodes u w (mem_cutGraph.1 huw).1).1, .head huw hw.2⟩
    · intro b c hbc
      simp only [Ctx, List.all_nil, if_true, mul_one]
      exact hbc x ((hU' x).2 ⟨hx, .refl⟩)
  rw [key a1 h1, key a0 h0]

/-- **C44** The effect on the intervened variable itself. -/
theorem C44_self {net : Net} (hU : net.Usable) {a : Node} {v : Outcome} (h : net.IntOk [(a, v)]) :
    net.Mean [(a, v)] [] a = v := by
  have hin : ∀ p ∈ [(a, v)], p.1 ∈ net.g.nodes := fun p hp => (h.2 p hp).1
  have ha : a ∈ net.g.nodes := hin (a, v) (by simp)
  have hva : v ∈ net.dom a := (h.2 (a, v) (by simp)).2.1
  have hn := (dom_props hU.good ha).1
  unfold Mean
  rw [PDo_do_pos hU h]
  simp only [div_one]
  refine Eq.trans (congrArg List.sum (List.map_congr_left ?_)) (sum_indicator_mul hn hva (fun y => y))
  intro y hy
  by_cases e : y = v
  · subst e
    rw [if_pos rfl]
    have : net.PDo [(a, y)] (fun b => decide (b a = y) && Ctx [] b) = 1 := by
      rw [← (C40_intervention_certain hU h).2]
      apply PDo_congr
      intro b _ hb
      simp [Ctx]
    rw [this, mul_one]
  · rw [if_neg e]
    have : net.PDo [(a, v)] (fun b => decide (b a = y) && Ctx [] b) = net.PDo [(a, v)] (fun _ => false) := by
      apply PDo_congr
      intro b _ hb
      have := hb _ (List.mem_singleton.2 rfl)
      simp only at this
      simp [this, Ne.symm e]
    rw [this]
    have h0 : net.PDo [(a, v)] (fun _ => false) = 0 := by
      unfold PDo
      simp only [Bool.false_eq_true, false_and, if_false]
      exact sumOver_zero _ _
    rw [h0, mul_zero]

/-- **C44** `total_effect`: zero on non-descendants, `a1 - a0` on `a` itself, antisymmetric, additive. -/
theorem C44_total_effect {net : Net} (hU : net.Usable) {pick : Pick} {ord : List Node → List Node}
    (hord : ∀ l, (ord l).Perm l) {a x : Node} {a0 a1 a2 : Outcome} (h0 : net.IntOk [(a, a0)]) (h1 : net.IntOk [(a, a1)])
    (h2 : net.IntOk [(a, a2)]) {r01 : Rat} (hr : (net.totalEffect pick ord a x a0 a1).2 = .ok r01) :
    (¬ net.g.DescEq a x → r01 = 0) ∧ (x = a → r01 = a1 - a0) ∧
    (∀ r10, (net.totalEffect pick ord a x a1 a0).2 = .ok r10 → r10 = - r01) ∧
    (∀ r12 r02, (net.totalEffect pick ord a x a1 a2).2 = .ok r12 → (net.totalEffect pick ord a x a0 a2).2 = .ok r02 →
      r02 = r01 + r12) := by
  obtain ⟨e1, hx⟩ := (C44_total_effect_exact hU hord h0 h1).2 _ hr
  refine ⟨fun hnd => ?_, ?_, fun r10 h => ?_, fun r12 r02 k1 k2 => ?_⟩
  · rw [e1, C44_nondescendant hU h0 h1 hx hnd, sub_self]
  · rintro rfl
    rw [e1, C44_self hU h0, C44_self hU h1]
  · rw [((C44_total_effect_exact hU hord h1 h0).2 _ h).1, e1]
    ring
  · rw [((C44_total_effect_exact hU hord h1 h2).2 _ k1).1, ((C44_total_effect_exact hU hord h0 h2).2 _ k2).1, e1]
    ring

/-- The hypotheses are met: the effects of D and of A on U and on A. -/
example : Ex.netD.Usable ∧ Ex.netD.IntOk [("D", 0)] ∧ Ex.netD.IntOk [("D", 1)] ∧
    (Ex.netD.totalEffect (fun _ _ => 0) id "D" "U" 0 1).2 = .ok (1 / 2) ∧
    (Ex.netD.totalEffect (fun _ _ => 0) id "D" "A" 0 1).2 = .ok 0 ∧ ¬ Ex.netD.g.DescEq "D" "A" ∧
    (Ex.netD.totalEffect (fun _ _ => 0) id "D" "D" 0 1).2 = .ok 1 := by
  refine ⟨Ex.netD_usable.1, ⟨by decide, fun p hp => ?_⟩, ⟨by decide, fun p hp => ?_⟩, by decide +kernel, by decide +kernel,
    ?_, by decide +kernel⟩
  · rw [List.mem_singleton] at hp
    subst hp
    exact ⟨by decide +kernel, by decide +kernel, Or.inl (by decide +kernel)⟩
  · rw [List.mem_singleton] at hp
    subst hp
    exact ⟨by decide +kernel, by decide +kernel, Or.inl (by decide +kernel)⟩
  · intro h
    rcases Relation.ReflTransGen.cases_tail h with h | ⟨w, _, hw⟩
    · exact absurd h (by decide)
    · revert hw
      have : ∀ w, ¬ (w, "A") ∈ Ex.netD.g.edges := by
        have h : ∀ e ∈ Ex.netD.g.edges, e.2 ≠ "A" := by decide +kernel
        exact fun w hw => h _ hw rfl
      exact this w

/-! ## C45 -/

/-- **C45** `introduced_total_effect`: the difference of the total effects on `d` and on `y`, both with
the sign that makes the effect on `y` non-negative (if asked for). -/
theorem C45_introduced_total_effect {net : Net} (hU : net.Usable) {pick : Pick} {ord : List Node → List Node}
    (hord : ∀ l, (ord l).Perm l) {a d y : Node} {a0 a1 : Outcome} (h0 : net.IntOk [(a, a0)]) (h1 : net.IntOk [(a, a1)])
    {adapt : Bool} {r : Rat} (hr : (net.introducedTotalEffect pick ord a d y a0 a1 adapt).2 = .ok r) :
    ∃ ed ey, (net.totalEffect pick ord a d a0 a1).2 = .ok ed ∧ (net.totalEffect pick ord a y a0 a1).2 = .ok ey ∧
      (ey < 0 → adapt = true → r = -ed - |ey|) ∧ (0 ≤ ey ∨ adapt = false → r = ed - ey) ∧
      (ed = ey → r = 0) := by
  have n1 := (C44_total_effect_exact hU hord (pick := pick) h0 h1 (x := d)).1
  unfold introducedTotalEffect at hr
  generalize net.totalEffect pick ord a d a0 a1 = z at n1 hr
  obtain ⟨m, z⟩ := z
  simp only at n1
  subst n1
  cases z with
  | error e => simp at hr
  | ok ed =>
    simp only at hr
    generalize m.totalEffect pick ord a y a0 a1 = z at hr
    obtain ⟨n, z⟩ := z
    cases z with
    | error e => simp at hr
    | ok ey =>
      simp only at hr
      refine ⟨ed, ey, rfl, rfl, ?_, ?_, ?_⟩
      · intro k1 k2
        rw [if_pos ⟨k1, k2⟩] at hr
        cases hr
        rw [abs_of_neg k1]
      · intro k
        rw [if_neg] at hr
        · cases hr; rfl
        · rintro ⟨j1, j2⟩
          rcases k with k | k
          · exact absurd j1 (not_lt.2 k)
          · simp [k] at j2
      · rintro rfl
        split at hr <;> cases hr <;> ring

/-- **C45** With sign adaptation the order of the two interventions does not matter unless the effect on
`y` vanishes. -/
theorem C45_swap {net : Net} (hU : net.Usable) {pick : Pick} {ord : List Node → List Node}
    (hord : ∀ l, (ord l).Perm l) {a d y : Node} {a0 a1 : Outcome} (h0 : net.IntOk [(a, a0)]) (h1 : net.IntOk [(a, a1)])
    {r r' ey : Rat} (hr : (net.introducedTotalEffect pick ord a d y a0 a1 true).2 = .ok r)
    (hr' : (net.introducedTotalEffect pick ord a d y a1 a0 true).2 = .ok r')
    (hy : (net.totalEffect pick ord a y a0 a1).2 = .ok ey) (hne : ey ≠ 0) : r' = r := by
  obtain ⟨ed, ey1, k1, k2, k3, k4, _⟩ := C45_introduced_total_effect hU hord h0 h1 hr
  obtain ⟨ed', ey', j1, j2, j3, j4, _⟩ := C45_introduced_total_effect hU hord h1 h0 hr'
  rw [hy] at k2
  cases k2
  have e1 : ed' = -ed := (C44_total_effect hU hord h0 h1 h1 k1).2.2.1 _ j1
  have e2 : ey' = -ey := (C44_total_effect hU hord h0 h1 h1 hy).2.2.1 _ j2
  rcases lt_or_gt_of_ne hne with hlt | hgt
  · rw [k3 hlt rfl, j4 (Or.inl (by linarith)), e1, e2, abs_of_neg hlt]
  · rw [k4 (Or.inl hgt.le), j3 (by linarith) rfl, e1, e2, abs_neg, abs_of_pos hgt]
    ring

/-- The hypotheses are met, and the vanishing case is a real exception: if A has no effect on D's
counterpart the sign of the effect on D decides. -/
example : (Ex.netD.introducedTotalEffect (fun _ _ => 0) id "A" "A" "U" 0 1 true).2 = .ok (2 / 3) ∧
    (Ex.netD.introducedTotalEffect (fun _ _ => 0) id "A" "A" "U" 1 0 true).2 = .ok (2 / 3) ∧
    (Ex.netD.introducedTotalEffect (fun _ _ => 0) id "A" "A" "D" 0 1 true).2 = .ok 1 ∧
    (Ex.netD.introducedTotalEffect (fun _ _ => 0) id "A" "A" "D" 1 0 true).2 = .ok (-1) := by
  refine ⟨by decide +kernel, by decide +kernel, by decide +kernel, by decide +kernel⟩

end Verif

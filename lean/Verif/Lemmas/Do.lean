import Verif.Lemmas.Query

/-!
# Interventional distributions
-/

namespace Verif
open Relation Graph Macid
namespace Net

theorem mem_cutGraph {g : Graph} {xs : List Node} {u v : Node} : (CutGraph g xs).Edge u v ↔ g.Edge u v ∧ v ∉ xs := by
  simp [CutGraph, Graph.Edge, List.mem_filter]

theorem cutGraph_wf {g : Graph} (hw : g.WF) (xs : List Node) : (CutGraph g xs).WF := by
  refine wf_sub hw hw.nodesNodup (hw.edgesNodup.filter _) ?_ (fun u v h => (mem_cutGraph.1 h).1)
  intro u v h
  exact hw.edgeNodes u v (mem_cutGraph.1 h).1

/-- the factorised distribution after an intervention -/
def doBN (net : Net) (int : List (Node × Outcome)) : BN :=
  ⟨CutGraph net.g (int.map (·.1)), net.dom, fun v a => if v ∈ int.map (·.1) then
    (if ∀ p ∈ int, p.1 = v → a v = p.2 then 1 else 0) else net.kernel v a⟩

theorem doBN_prob {net : Net} (hG : Good net) (hN : net.Normalised) {int : List (Node × Outcome)}
    (hd : (int.map (·.1)).Nodup) (hi : ∀ p ∈ int, p.2 ∈ net.dom p.1) : (net.doBN int).Prob := by
  have hB := bn_prob hG hN
  refine ⟨⟨cutGraph_wf hG.wf _, fun v hv => (dom_props hG hv).1, fun v hv => ?_⟩, fun v hv a ha => ?_, fun v hv a ha => ?_⟩
  · intro a b hab
    show (if v ∈ int.map (·.1) then _ else _) = (if v ∈ int.map (·.1) then _ else _)
    split
    · rw [hab v (Or.inl rfl)]
    · rename_i hni
      exact kernel_depends hG hv a b (fun u hu => hab u (hu.imp id (fun h => mem_cutGraph.2 ⟨h, hni⟩)))
  · show ((net.dom v).map (fun x => if v ∈ int.map (·.1) then
      (if ∀ p ∈ int, p.1 = v → Assign.upd a v x v = p.2 then 1 else 0) else net.kernel v (Assign.upd a v x))).sum = 1
    by_cases hvi : v ∈ int.map (·.1)
    · obtain ⟨p, hp, rfl⟩ := List.mem_map.1 hvi
      simp only [hvi, if_true]
      have he : ∀ x : Outcome, (∀ p' ∈ int, p'.1 = p.1 → x = p'.2) ↔ x = p.2 := by
        intro x
        constructor
        · exact fun h => h p hp rfl
        · rintro rfl p' hp' e
          have : p' = p := by
            have := List.inj_on_of_nodup_map hd hp' hp e
            exact this
          rw [this]
      simp only [he]
      have hnd := (dom_props hG hv).1
      have := sum_indicator_mul hnd (hi p hp) (fun _ => (1 : Rat))
      simpa using this
    · simp only [hvi, if_false]
      exact hB.norm v hv a (fun p hp => ha p (mem_cutGraph.2 ⟨hp, hvi⟩))
  · show 0 ≤ (if v ∈ int.map (·.1) then (if ∀ p ∈ int, p.1 = v → a v = p.2 then 1 else 0) else net.kernel v a)
    split
    · split <;> norm_num
    · rename_i hni
      exact hB.nonneg v hv a (fun p hp => ha p (hp.imp id (fun h => mem_cutGraph.2 ⟨h, hni⟩)))

theorem PDo_eq_W {net : Net} {int : List (Node × Outcome)} (hi : ∀ p ∈ int, p.1 ∈ net.g.nodes) (E : Assign → Bool) :
    net.PDo int E = (net.doBN int).W (fun a => if E a then 1 else 0) := by
  unfold PDo BN.W BN.prod doBN
  apply sumOver_congr
  intro b _ _
  simp only
  by_cases hE : E b = true
  · simp only [hE, if_true, true_and, mul_one]
    by_cases ha : ∀ p ∈ int, b p.1 = p.2
    · rw [if_pos ha]
      show _ = (net.g.nodes.map _).prod
      rw [prod_indicator (l := net.g.nodes) (p := fun v => decide (v ∈ int.map (·.1))) (f := fun v =>
        if v ∈ int.map (·.1) then (if ∀ p ∈ int, p.1 = v → b v = p.2 then 1 else 0) else net.kernel v b)]
      · simp only [decide_not]
        congr 1
        apply List.map_congr_left
        intro v hv
        simp only [List.mem_filter, Bool.not_eq_true', decide_eq_false_iff_not] at hv
        rw [if_neg hv.2]
      · intro v hv hp
        simp only [decide_eq_true_eq] at hp
        rw [if_pos hp, if_pos]
        rintro p hpi rfl
        exact ha p hpi
    · rw [if_neg ha]
      push Not at ha
      obtain ⟨p, hp, hne⟩ := ha
      symm
      apply prod_zero_of_mem (hi p hp)
      rw [if_pos (List.mem_map_of_mem hp), if_neg]
      exact fun h => hne (h p hp rfl)
  · simp [hE]

theorem PDo_nil (net : Net) (E : Assign → Bool) : net.PDo [] E = net.P E := by
  simp [PDo, P]

theorem PDo_congr {net : Net} {int : List (Node × Outcome)} {E F : Assign → Bool}
    (h : ∀ a, net.InDom a → (∀ p ∈ int, a p.1 = p.2) → E a = F a) : net.PDo int E = net.PDo int F := by
  unfold PDo
  apply sumOver_congr
  intro b hb _
  by_cases hi : ∀ p ∈ int, b p.1 = p.2
  · rw [h b hb hi]
  · have : ∀ G : Assign → Bool, ¬ (G b = true ∧ ∀ p ∈ int, b p.1 = p.2) := fun G h => hi h.2
    rw [if_neg (this E), if_neg (this F)]

/-! ### copies and interventions preserve what queries need -/

theorem inDom_upd {net : Net} {a : Assign} (ha : net.InDom a) {v : Node} {x : Outcome} (hx : x ∈ net.dom v) :
    net.InDom (Assign.upd a v x) := by
  intro w hw
  by_cases h : w = v
  · subst h; simpa using hx
  · rw [Assign.upd_ne _ _ h]; exact ha w hw

theorem Equiv.dom {net net' : Net} (h : Equiv net net') {v : Node} (hv : v ∈ net.g.nodes) : net'.dom v = net.dom v := by
  unfold Net.dom
  rw [h.domain v hv]

theorem Equiv.inDom {net net' : Net} (h : Equiv net net') (a : Assign) : net'.InDom a ↔ net.InDom a := by
  unfold InDom
  rw [h.nodes]
  exact forall₂_congr (fun v hv => by rw [h.dom hv])

theorem Equiv.normalised {net net' : Net} (h : Equiv net net') (hN : net.Normalised) : net'.Normalised := by
  intro v hv a ha
  rw [h.nodes] at hv
  rw [h.inDom] at ha
  obtain ⟨h1, h2⟩ := hN v hv a ha
  refine ⟨by rw [h.kernel v hv a ha]; exact h1, ?_⟩
  rw [h.dom hv, ← h2]
  congr 1
  apply List.map_congr_left
  intro x hx
  exact h.kernel v hv _ (inDom_upd ha hx)

theorem Cut.normalised {net net' : Net} {int : List (Node × Outcome)} (h : Cut net int net') (hG : Good net) (hN : net.Normalised)
    (hi : ∀ p ∈ int, p.2 ∈ net.dom p.1) : net'.Normalised := by
  intro v hv a ha
  rw [h.nodes] at hv
  rw [h.inDom] at ha
  have hx : ∀ x ∈ net'.dom v, net.InDom (Assign.upd a v x) := fun x hx => inDom_upd ha ((h.domain v hv).mem_iff.1 hx)
  by_cases hvi : v ∈ int.map (·.1)
  · obtain ⟨p, hp, rfl⟩ := List.mem_map.1 hvi
    have hk := fun a ha => h.fixed p.1 p.2 hp a ha
    refine ⟨by rw [hk a ha]; split <;> norm_num, ?_⟩
    rw [List.map_congr_left (fun x hxd => hk _ (hx x hxd))]
    have hperm := h.domain p.1 hv
    have hnd := hperm.nodup_iff.2 (dom_props hG hv).1
    have := sum_indicator_mul hnd (hperm.mem_iff.2 (hi p hp)) (fun _ => (1 : Rat))
    simpa using this
  · have hk := fun a ha => h.others v hv hvi a ha
    obtain ⟨h1, h2⟩ := hN v hv a ha
    refine ⟨by rw [hk a ha]; exact h1, ?_⟩
    rw [List.map_congr_left (fun x hxd => hk _ (hx x hxd)), h.domainSame v hvi, h2]

/-- a copy of a usable network is usable -/
theorem Usable.copy {net : Net} (hU : net.Usable) : ∃ net', net.copy = .ok net' ∧ net'.Usable ∧ Equiv net net' ∧
    (∀ n, net'.m.role n = net.m.role n) ∧ net'.base = net.base ∧ ∀ x ∈ net.g.nodes, net.Tame x → net'.Tame x := by
  obtain ⟨net', h1, h2, h3, h4, h5, h6, h7, h8, _⟩ := copy_spec hU.good hU.roles hU.base hU.staffed.both
  refine ⟨net', h1, ⟨h2, h3.normalised hU.normalised, h5, h6 ▸ hU.base,
    C35_copy_of_copy hU.good hU.roles hU.base hU.staffed h1⟩, h3, h4, h6, fun x hx ht => ?_⟩
  rcases ht with h | h
  · left; rw [h3.dom hx]; exact h
  · right
    intro y c hxy hc
    obtain ⟨r, hr1, hr2⟩ := h8 y _ hc
    have hne := fun c => h y c ((h3.edges x y).1 hxy)
    cases r with
    | tab c' => exact hne c' hr1
    | func f => simp [copyRel] at hr2
    | dist d => simp [copyRel] at hr2
    | seq l => simp [copyRel] at hr2

theorem IntOk.equiv {net net' : Net} (h : Equiv net net') (ht : ∀ x ∈ net.g.nodes, net.Tame x → net'.Tame x)
    {int : List (Node × Outcome)} (hi : net.IntOk int) : net'.IntOk int := by
  refine ⟨hi.1, fun p hp => ?_⟩
  obtain ⟨h1, h2, h3⟩ := hi.2 p hp
  exact ⟨by rw [h.nodes]; exact h1, by rw [h.dom h1]; exact h2, ht _ h1 h3⟩

/-- what `query` works on when there is an intervention -/
theorem Usable.act {net : Net} (hU : net.Usable) {int : List (Node × Outcome)} (hi : net.IntOk int) :
    ∃ c c', net.copy = .ok c ∧ c.intervene int = (c', .ok ()) ∧ Good c' ∧ c'.Normalised ∧ c'.g.nodes = net.g.nodes ∧
      (∀ u w, c'.g.Edge u w ↔ (CutGraph net.g (int.map (·.1))).Edge u w) ∧
      (∀ v ∈ net.g.nodes, (c'.dom v).Perm (net.dom v)) ∧ (∀ v ∈ net.g.nodes, v ∉ int.map (·.1) → c'.dom v = net.dom v) ∧
      ∀ E, c'.P E = net.PDo int E := by
  obtain ⟨c, h1, h2, h3, h4, h5, h6⟩ := hU.copy
  have hi' := IntOk.equiv h3 h6 hi
  obtain ⟨c', k1, k2, k3, _⟩ := C36_intervene_exact h2.good hi'.1 hi'.2
  refine ⟨c, c', h1, k1, k2, k3.normalised h2.good h2.normalised (fun p hp => (hi'.2 p hp).2.1), by rw [k3.nodes, h3.nodes], ?_, ?_, ?_, ?_⟩
  · intro u w
    rw [k3.edges, h3.edges, mem_cutGraph]
  · intro v hv
    rw [← h3.dom hv]
    exact k3.domain v (by rw [h3.nodes]; exact hv)
  · intro v hv hvi
    rw [k3.domainSame v hvi, h3.dom hv]
  · intro E
    rw [P_cut k3 (fun p hp => (hi'.2 p hp).1), PDo_equiv h3.nodes (fun v hv => by rw [h3.dom hv]) h3.kernel]

/-! ### the policy check -/

theorem forPy_ok {α : Type} {f : α → Py Unit} {l : List α} : forPy f l = .ok () ↔ ∀ x ∈ l, f x = .ok () := by
  induction l with
  | nil => simp [forPy]
  | cons x l ih =>
    simp only [forPy, List.forall_mem_cons]
    cases h : f x with
    | error e => simp
    | ok u => simp [ih]

/-- a loop raises the exception of its first failing iteration -/
theorem forPy_err {α : Type} {f : α → Py Unit} {l : List α} {e : Err} (hf : ∀ x ∈ l, f x = .ok () ∨ f x = .error e)
    (h : ¬ ∀ x ∈ l, f x = .ok ()) : forPy f l = .error e := by
  induction l with
  | nil => simp at h
  | cons x l ih =>
    simp only [forPy]
    rcases hf x (by simp) with hx | hx
    · simp only [hx]
      exact ih (fun y hy => hf y (by simp [hy])) (fun hall => h (by
        intro y hy
        rcases List.mem_cons.1 hy with rfl | hy
        · exact hx
        · exact hall y hy))
    · simp [hx]

theorem cutMech_ok {net : Net} : ∀ {xs : List Node} {mg : Graph}, mg.WF → (∀ x ∈ xs, x ∈ net.g.nodes) →
    ∃ mg', net.cutMech mg xs = .ok mg' ∧ mg'.WF ∧ mg'.nodes = mg.nodes ∧
      ∀ u v, mg'.Edge u v ↔ mg.Edge u v ∧ ¬ (v ∈ xs ∧ net.g.Edge u v)
  | [], mg, hw, _ => ⟨mg, rfl, hw, rfl, by simp⟩
  | x :: xs, mg, hw, hx => by
    have he : ∀ u v, Graph.Edge { mg with edges := mg.edges.filter (fun e =>
        decide (¬ (e.2 = x ∧ e.1 ∈ net.g.parents x))) } u v ↔ mg.Edge u v ∧ ¬ (v = x ∧ net.g.Edge u v) := by
      intro u v
      simp only [Graph.Edge, List.mem_filter, decide_eq_true_eq]
      constructor
      · rintro ⟨h1, h2⟩
        exact ⟨h1, fun h => h2 ⟨h.1, mem_parents.2 (h.1 ▸ h.2)⟩⟩
      · rintro ⟨h1, h2⟩
        refine ⟨h1, fun h => h2 ⟨h.1, ?_⟩⟩
        have := mem_parents.1 h.2
        rw [← h.1] at this
        exact this
    obtain ⟨mg', k1, k2, k3, k4⟩ := cutMech_ok (net := net) (xs := xs) (mg := { mg with edges := mg.edges.filter (fun e =>
        decide (¬ (e.2 = x ∧ e.1 ∈ net.g.parents x))) }) (wf_sub hw hw.nodesNodup (hw.edgesNodup.filter _)
      (fun u v h => hw.edgeNodes u v ((he u v).1 h).1) (fun u v h => ((he u v).1 h).1)) (fun y hy => hx y (by simp [hy]))
    refine ⟨mg', ?_, k2, k3, ?_⟩
    · rw [cutMech, if_neg (by simpa using hx x (by simp))]
      exact k1
    · intro u v
      rw [k4, he]
      simp only [List.mem_cons]
      tauto

theorem getCpd_node {net : Net} {v : Node} (hv : v ∈ net.g.nodes) : net.getCpd v = .ok (net.cpds.get? v) := by
  simp [getCpd, hv]

theorem undecided_iff {net : Net} {v : Node} {c : Cpd} (hc : net.cpds.get? v = some c) :
    net.undecided v = true ↔ c.kind = .decision := by
  simp [undecided, hc]

/-- the graph the policy check works on -/
def IsMech (net : Net) (xs : List Node) (mg : Graph) : Prop :=
  mg.WF ∧ (∀ x, x ∈ mg.nodes ↔ x ∈ net.g.nodes ∨ ∃ v ∈ net.g.nodes, x = v ++ "mec") ∧
    ∀ u v, mg.Edge u v ↔ (net.g.Edge u v ∧ v ∉ xs) ∨ (v ∈ net.g.nodes ∧ u = v ++ "mec")

theorem policiesOk_spec {net : Net} (hG : Good net) (hdec : ∀ d ∈ net.m.decisions, d ∈ net.g.nodes)
    (hnames : NamesOk net.g) (pick : Pick) {q : List Node} {ctx int : List (Node × Outcome)}
    (hctx : ∀ p ∈ ctx, p.1 ∈ net.g.nodes) (hint : ∀ p ∈ int, p.1 ∈ net.g.nodes) :
    ∃ mg, net.IsMech (int.map (·.1)) mg ∧
      ((∀ d ∈ net.m.decisions, net.undecided d = true → ∀ t ∈ q,
          ¬ Reached mg (ctx.map (·.1) ++ int.map (·.1)) [d ++ "mec"] t) →
        net.policiesOk pick q ctx int = .ok ()) ∧
      (¬ (∀ d ∈ net.m.decisions, net.undecided d = true → ∀ t ∈ q,
          ¬ Reached mg (ctx.map (·.1) ++ int.map (·.1)) [d ++ "mec"] t) →
        net.policiesOk pick q ctx int = .error .value) := by
  obtain ⟨mg0, h1, h2, h3, h4⟩ := C17_mechanism_graph net.g hG.wf hnames
  obtain ⟨mg, k1, k2, k3, k4⟩ := cutMech_ok (net := net) (xs := int.map (·.1)) h2 (by
    intro x hx
    obtain ⟨p, hp, rfl⟩ := List.mem_map.1 hx
    exact hint p hp)
  have hM : net.IsMech (int.map (·.1)) mg := by
    refine ⟨k2, fun x => by rw [k3, h3], fun u v => ?_⟩
    rw [k4, h4]
    constructor
    · rintro ⟨h | h, hn⟩
      · exact Or.inl ⟨h, fun hv => hn ⟨hv, h⟩⟩
      · exact Or.inr h
    · rintro (h | h)
      · exact ⟨Or.inl h.1, fun hn => h.2 hn.1⟩
      · refine ⟨Or.inr h, fun hn => ?_⟩
        exact hnames.1 u (hG.wf.edgeNodes u v hn.2).1 v h.1 h.2
  have hz : ctx.map (·.1) ++ int.map (·.1) ⊆ mg.nodes := by
    intro x hx
    rw [hM.2.1]
    left
    rcases List.mem_append.1 hx with h | h
    · obtain ⟨p, hp, rfl⟩ := List.mem_map.1 h; exact hctx p hp
    · obtain ⟨p, hp, rfl⟩ := List.mem_map.1 h; exact hint p hp
  have hstep : ∀ d ∈ net.m.decisions, ∀ t,
      ((net.undecided d = true → ¬ Reached mg (ctx.map (·.1) ++ int.map (·.1)) [d ++ "mec"] t) →
        policyCheck pick net mg (ctx.map (·.1) ++ int.map (·.1)) d t = .ok ()) ∧
      (¬ (net.undecided d = true → ¬ Reached mg (ctx.map (·.1) ++ int.map (·.1)) [d ++ "mec"] t) →
        policyCheck pick net mg (ctx.map (·.1) ++ int.map (·.1)) d t = .error .value) := by
    intro d hd t
    have hdn := hdec d hd
    have hsm : Macid.mec d ∈ mg.nodes := (hM.2.1 _).2 (Or.inr ⟨d, hdn, rfl⟩)
    obtain ⟨b, e1, e2⟩ := isDConnected_reached k2 pick (t := t) hsm hz
    obtain ⟨c, hc, _⟩ := hG.complete d hdn
    unfold policyCheck
    rw [e1]
    change b = true ↔ Reached mg (ctx.map (·.1) ++ int.map (·.1)) [d ++ "mec"] t at e2
    cases b with
    | false =>
      refine ⟨fun _ => rfl, fun h => ?_⟩
      exact absurd (fun _ => fun hr => absurd (e2.2 hr) (by simp)) h
    | true =>
      simp only [getCpd_node hdn, hc]
      have hr := e2.1 rfl
      rw [undecided_iff hc]
      refine ⟨fun h => ?_, fun h => ?_⟩
      · rw [if_neg (fun hk => h hk hr)]
      · rw [if_pos (by by_contra hk; exact h (fun hk' => absurd hk' hk))]
  have hun : net.policiesOk pick q ctx int = forPy (fun d => forPy (fun qn =>
      policyCheck pick net mg (ctx.map (·.1) ++ int.map (·.1)) d qn) q) net.m.decisions := by
    unfold policiesOk
    rw [h1]
    simp only [k1]
  refine ⟨mg, hM, fun h => ?_, fun h => ?_⟩
  · rw [hun, forPy_ok]
    intro d hd
    rw [forPy_ok]
    intro t ht
    exact (hstep d hd t).1 (fun hu => h d hd hu t ht)
  · have hinner : ∀ d ∈ net.m.decisions,
        (forPy (fun qn => policyCheck pick net mg (ctx.map (·.1) ++ int.map (·.1)) d qn) q) = .ok () ∨
        (forPy (fun qn => policyCheck pick net mg (ctx.map (·.1) ++ int.map (·.1)) d qn) q) = .error .value := by
      intro d hd
      by_cases hall : ∀ t ∈ q, policyCheck pick net mg (ctx.map (·.1) ++ int.map (·.1)) d t = .ok ()
      · exact Or.inl (forPy_ok.2 hall)
      · right
        refine forPy_err (fun t _ => ?_) hall
        by_cases hc : net.undecided d = true → ¬ Reached mg (ctx.map (·.1) ++ int.map (·.1)) [d ++ "mec"] t
        · exact Or.inl ((hstep d hd t).1 hc)
        · exact Or.inr ((hstep d hd t).2 hc)
    rw [hun]
    refine forPy_err hinner (fun hall => h (fun d hd hu t ht hr => ?_))
    have h5 := forPy_ok.1 (hall d hd) t ht
    rw [(hstep d hd t).2 (fun hc => hc hu hr)] at h5
    simp at h5

/-! ### the context check -/

theorem checkContext_ok {net : Net} (hG : Good net) : ∀ {ctx : List (Node × Outcome)}, net.checkContext ctx = .ok () →
    ∀ p ∈ ctx, p.1 ∈ net.g.nodes ∧ p.2 ∈ net.dom p.1 ∧ ∀ c, net.cpds.get? p.1 = some c → c.kind ≠ .tabular
  | [], _ => by simp
  | (v, x) :: rest, h => by
    unfold checkContext at h
    by_cases hv : v ∈ net.g.nodes
    · obtain ⟨c, hc, hd⟩ := hG.complete v hv
      rw [getCpd_node hv, hc] at h
      simp only at h
      split at h
      · simp at h
      · rename_i hk
        split at h
        · rename_i hx
          intro p hp
          rcases List.mem_cons.1 hp with rfl | hp
          · refine ⟨hv, by rw [dom_eq hd]; exact hx, fun c' hc' => ?_⟩
            rw [hc] at hc'
            cases hc'
            exact hk
          · exact checkContext_ok hG h p hp
        · simp at h
    · simp [getCpd, hv] at h

theorem checkContext_pass {net : Net} (hG : Good net) : ∀ {ctx : List (Node × Outcome)},
    (∀ p ∈ ctx, p.1 ∈ net.g.nodes ∧ p.2 ∈ net.dom p.1 ∧ ∀ c, net.cpds.get? p.1 = some c → c.kind ≠ .tabular) →
    net.checkContext ctx = .ok ()
  | [], _ => rfl
  | (v, x) :: rest, h => by
    obtain ⟨h1, h2, h3⟩ := h (v, x) (by simp)
    obtain ⟨c, hc, hd⟩ := hG.complete v h1
    unfold checkContext
    rw [getCpd_node h1, hc]
    simp only
    rw [dom_eq hd] at h2
    rw [if_neg (h3 c hc), if_pos h2]
    exact checkContext_pass hG (fun p hp => h p (by simp [hp]))

theorem checkContext_bad {net : Net} (hG : Good net) : ∀ {ctx : List (Node × Outcome)},
    (∀ p ∈ ctx, p.1 ∈ net.g.nodes ∧ ∀ c, net.cpds.get? p.1 = some c → c.kind ≠ .tabular) →
    (∃ p ∈ ctx, p.2 ∉ net.dom p.1) → net.checkContext ctx = .error .value
  | [], _, h => by simp at h
  | (v, x) :: rest, h, hb => by
    obtain ⟨h1, h3⟩ := h (v, x) (by simp)
    obtain ⟨c, hc, hd⟩ := hG.complete v h1
    unfold checkContext
    rw [getCpd_node h1, hc]
    simp only
    rw [if_neg (h3 c hc)]
    split
    · rename_i hx
      apply checkContext_bad hG (fun p hp => h p (by simp [hp]))
      obtain ⟨p, hp, hpd⟩ := hb
      rcases List.mem_cons.1 hp with rfl | hp
      · exact absurd (by rw [dom_eq hd]; exact hx) hpd
      · exact ⟨p, hp, hpd⟩
    · rfl

theorem checkContextCbn_pass {net : Net} (hG : Good net) : ∀ {ctx : List (Node × Outcome)},
    (∀ p ∈ ctx, p.1 ∈ net.g.nodes ∧ p.2 ∈ net.dom p.1) → net.checkContextCbn ctx = .ok ()
  | [], _ => rfl
  | (v, x) :: rest, h => by
    obtain ⟨h1, h2⟩ := h (v, x) (by simp)
    obtain ⟨c, hc, hd⟩ := hG.complete v h1
    unfold checkContextCbn
    rw [hd]
    simp only
    rw [dom_eq hd] at h2
    rw [if_pos h2]
    exact checkContextCbn_pass hG (fun p hp => h p (by simp [hp]))

/-- an answered query passed all checks -/
theorem query_ok {net : Net} (hG : Good net) {pick : Pick} {ord : List Node → List Node} {q : List Node}
    {ctx int : List (Node × Outcome)} {f : Factor} (h : (net.query pick ord q ctx int).2 = .ok f) :
    (∀ p ∈ ctx, p.1 ∈ net.g.nodes ∧ p.2 ∈ net.dom p.1 ∧ ∀ c, net.cpds.get? p.1 = some c → c.kind ≠ .tabular) ∧
    net.policiesOk pick q ctx int = .ok () ∧ (net.queryCore ord q ctx int).2 = .ok f := by
  unfold query at h
  cases h1 : net.checkContext ctx with
  | error e => simp [h1] at h
  | ok u =>
    simp only [h1] at h
    cases h2 : net.policiesOk pick q ctx int with
    | error e => simp [h2] at h
    | ok u =>
      simp only [h2] at h
      have hc := checkContext_ok hG h1
      unfold queryCbn at h
      rw [checkContextCbn_pass hG (fun p hp => ⟨(hc p hp).1, (hc p hp).2.1⟩)] at h
      exact ⟨hc, rfl, h⟩

/-- a query that passes all checks goes through to the inference engine -/
theorem query_pass {net : Net} (hG : Good net) {pick : Pick} {ord : List Node → List Node} {q : List Node}
    {ctx int : List (Node × Outcome)}
    (hctx : ∀ p ∈ ctx, p.1 ∈ net.g.nodes ∧ p.2 ∈ net.dom p.1 ∧ ∀ c, net.cpds.get? p.1 = some c → c.kind ≠ .tabular)
    (hp : net.policiesOk pick q ctx int = .ok ()) : net.query pick ord q ctx int = net.queryCore ord q ctx int := by
  unfold query queryCbn
  rw [checkContext_pass hG hctx, hp, checkContextCbn_pass hG (fun p hp => ⟨(hctx p hp).1, (hctx p hp).2.1⟩)]

/-- an answered query is correct; first version, with the context it really uses -/
theorem queryOn_ok {net : Net} (hG : Good net) (hN : net.Normalised) {ord : List Node → List Node} (hord : ∀ l, (ord l).Perm l)
    {q : List Node} {ctx : List (Node × Outcome)} (hctx : ∀ p ∈ ctx, p.1 ∈ net.g.nodes) {f : Factor}
    (h : (net.queryOn ord q ctx).2 = .ok f) :
    q ≠ [] ∧ (∀ v ∈ q, v ∈ net.g.nodes) ∧ (∀ v ∈ q, v ∉ ctx.map (·.1)) ∧ (∀ u ∈ q, ∀ v ∈ q, net.g.Connected u v) ∧
    IsConditional f q net.dom net.P (Ctx (ctxOf net q ctx)) ∧ f.vars = ord q := by
  obtain ⟨h1, h2, h3⟩ := queryOn_spec hG hN hord q hctx
  have hq : ∀ v ∈ q, v ∈ net.g.nodes := by
    by_contra hn
    push Not at hn
    rw [h1 hn] at h
    simp at h
  have hne : q ≠ [] := by
    intro e
    rw [h2 e] at h
    simp at h
  obtain ⟨_, k1, k2⟩ := h3 hq hne
  have hcon : ∀ u ∈ q, ∀ v ∈ q, net.g.Connected u v := by
    by_contra hn
    rw [k1 hn] at h
    simp at h
  obtain ⟨j1, j2⟩ := k2 hcon
  have hdis : ∀ v ∈ q, v ∉ ctx.map (·.1) := by
    by_contra hn
    push Not at hn
    rw [j1 hn] at h
    simp at h
  obtain ⟨f', hf1, hf2⟩ := j2 hdis
  rw [h] at hf1
  cases hf1
  refine ⟨hne, hq, hdis, hcon, hf2, ?_⟩
  -- the variables are listed in the order of the inference engine
  unfold queryOn at h
  split at h
  · simp at h
  · dsimp only at h
    split at h
    · simp at h
    · simp at h
    · simp only [infer] at h
      split at h
      · simp at h
      · split at h
        · simp at h
        · simp only [Except.ok.injEq] at h
          rw [← h]

end Net
end Verif

namespace Verif
namespace Net

theorem sum_get?_zip : ∀ {d : List Outcome} {col : List Rat}, d.Nodup → col.length = d.length →
    (d.map (fun x => (Dict.get? (d.zip col) x).getD 0)).sum = col.sum
  | [], [], _, _ => rfl
  | [], _ :: _, _, h => by simp at h
  | _ :: _, [], _, h => by simp at h
  | x :: d, y :: col, hn, hl => by
    obtain ⟨h1, h2⟩ := List.nodup_cons.1 hn
    simp only [List.zip_cons_cons, List.map_cons, List.sum_cons, Dict.get?, if_true, Option.getD_some]
    congr 1
    refine Eq.trans (congrArg List.sum (List.map_congr_left (fun z hz => ?_))) (sum_get?_zip h2 (by simpa using hl))
    have : x ≠ z := fun e => h1 (e ▸ hz)
    simp [this]

theorem get?_zip_mem {α : Type} [DecidableEq α] {β : Type} : ∀ {l : List α} {t : List β} {x : α}, x ∈ l → t.length = l.length →
    ∃ y ∈ t, Dict.get? (l.zip t) x = some y
  | [], _, _, h, _ => by simp at h
  | _ :: _, [], _, _, h => by simp at h
  | a :: l, b :: t, x, hx, hl => by
    simp only [List.zip_cons_cons, Dict.get?]
    by_cases h : a = x
    · exact ⟨b, by simp, by simp [h]⟩
    · obtain ⟨y, hy, e⟩ := get?_zip_mem (l := l) (t := t) (x := x)
        (by rcases List.mem_cons.1 hx with e | h'; exacts [absurd e.symm h, h']) (by simpa using hl)
      exact ⟨y, by simp [hy], by simp [h, e]⟩

/-- tables with exact columns make a network normalised -/
theorem normalised_of_tables {net : Net} (hG : Good net)
    (h : ∀ v c, net.cpds.get? v = some c → ∀ col ∈ c.table, (∀ y ∈ col, 0 ≤ y) ∧ col.sum = 1) : net.Normalised := by
  intro v hv a ha
  obtain ⟨c, hc, hd⟩ := hG.complete v hv
  have hf := hG.fits v c hc
  have hw := hG.cpdOk v c hc
  have hcol : ∀ b : Assign, net.InDom b → ∃ col ∈ c.table,
      c.col (c.evidence.map (fun p => (net.domain.get? p).getD [])) (c.evidence.map b) = some col := by
    intro b hb
    unfold Cpd.col
    apply get?_zip_mem
    · rw [mem_product, List.forall₂_map_left_iff, List.forall₂_map_right_iff, List.forall₂_same]
      intro p hp
      exact hb p (hG.wf.edgeNodes p v ((hf.parents p).1 hp)).1
    · rw [hw.columns, hf.cards, Verif.length_product, List.map_map]
      rfl
  have hker : ∀ b : Assign, net.kernel v b = (c.prob net.domain (c.evidence.map b) (b v)).getD 0 := by
    intro b
    unfold kernel
    rw [hc]
  refine ⟨?_, ?_⟩
  · obtain ⟨col, hm, e⟩ := hcol a ha
    rw [hker]
    unfold Cpd.prob Cpd.entry
    rw [e]
    simp only [Option.bind_some]
    cases hg : Dict.get? (c.domain.zip col) (a v) with
    | none => simp
    | some y =>
      have := Dict.mem_of_get? hg
      exact (h v c hc col hm).1 y (List.of_mem_zip this).2
  · obtain ⟨col, hm, e⟩ := hcol a ha
    have hev : ∀ x, c.evidence.map (Assign.upd a v x) = c.evidence.map a := by
      intro x
      apply List.map_congr_left
      intro p hp
      have : p ≠ v := fun e => hG.wf.acyclic v (.single (e ▸ (hf.parents p).1 hp))
      exact Assign.upd_ne _ _ this
    simp only [hker, hev]
    unfold Cpd.prob Cpd.entry
    rw [e, dom_eq hd]
    simp only [Option.bind_some]
    have hself : ∀ x, Assign.upd a v x v = x := fun x => by simp
    simp only [hself]
    rw [sum_get?_zip hw.nodup (hw.column col hm)]
    exact (h v c hc col hm).2

end Net
end Verif

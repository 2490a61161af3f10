import Verif.Lemmas.Infer
import Mathlib.Tactic.FieldSimp

/-!
# Queries
-/

namespace Verif
open Relation Graph

theorem Graph.adj_symm {g : Graph} {u v : Node} (h : g.Adj u v) : g.Adj v u := h.symm

theorem Graph.Connected.symm {g : Graph} {u v : Node} (h : g.Connected u v) : g.Connected v u := by
  unfold Connected at *
  induction h with
  | refl => exact .refl
  | tail _ h ih => exact .head (adj_symm h) ih

theorem mem_nbrs {g : Graph} {u v : Node} : v ∈ Net.nbrs g u ↔ g.Adj u v := by
  simp [Net.nbrs, mem_children, mem_parents, Adj]

theorem mem_component {g : Graph} (hw : g.WF) {u v : Node} : v ∈ Net.component g u ↔ g.Connected u v := by
  unfold Net.component Connected
  constructor
  · intro h
    obtain ⟨y, hy, hr⟩ := closure_sound h
    rw [List.mem_singleton] at hy
    subst hy
    exact ReflTransGen.mono (fun a b hab => mem_nbrs.1 hab) _ _ hr
  · intro hr
    have hn : ∀ a b, g.Adj a b → a ∈ g.nodes ∧ b ∈ g.nodes := by
      rintro a b (h | h)
      · exact hw.edgeNodes a b h
      · exact (hw.edgeNodes b a h).symm
    obtain ⟨p, hp, hl, _, hlen⟩ := reach_bounded (nodes := g.nodes) (R := g.Adj) hn hr
    exact closure_complete (by simp) (hp.imp (fun a b hab => mem_nbrs.2 hab)) hl hlen

namespace Net

/-- a set of nodes no edge leaves or enters -/
def Closed (g : Graph) (K : List Node) : Prop := ∀ u v, g.Adj u v → u ∈ K → v ∈ K

theorem closed_keep {g : Graph} (hw : g.WF) (q : List Node) : Closed g (q.flatMap (component g)) := by
  intro u v huv hu
  obtain ⟨x, hx, h⟩ := List.mem_flatMap.1 hu
  exact List.mem_flatMap.2 ⟨x, hx, (mem_component hw).2 (((mem_component hw).1 h).tail huv)⟩

theorem mem_prune {net : Net} {K : List Node} {v : Node} : v ∈ (net.prune K).g.nodes ↔ v ∈ net.g.nodes ∧ v ∈ K := by
  simp [prune, Net.g, List.mem_filter]

theorem prune_edge {net : Net} {K : List Node} (hK : Closed net.g K) {u v : Node} (hv : u ∈ K ∨ v ∈ K) :
    (net.prune K).g.Edge u v ↔ net.g.Edge u v := by
  have : (net.prune K).g.Edge u v ↔ net.g.Edge u v ∧ u ∈ K ∧ v ∈ K := by
    simp [prune, Net.g, Graph.Edge, List.mem_filter]
  rw [this]
  refine ⟨fun h => h.1, fun h => ⟨h, ?_⟩⟩
  rcases hv with hv | hv
  · exact ⟨hv, hK u v (Or.inl h) hv⟩
  · exact ⟨hK v u (Or.inr h) hv, hv⟩

theorem prune_edge' {net : Net} {K : List Node} {u v : Node} :
    (net.prune K).g.Edge u v ↔ net.g.Edge u v ∧ u ∈ K ∧ v ∈ K := by
  simp [prune, Net.g, Graph.Edge, List.mem_filter]

theorem prune_parents {net : Net} {K : List Node} (hK : Closed net.g K) {v : Node} (hv : v ∈ K) :
    (net.prune K).g.parents v = net.g.parents v := by
  unfold Graph.parents
  show ((net.g.edges.filter (fun e => decide (e.1 ∈ K ∧ e.2 ∈ K))).filter _).map _ = _
  rw [List.filter_filter]
  congr 1
  apply List.filter_congr
  intro e he
  by_cases h : e.2 = v
  · have h1 : e.1 ∈ K := hK v e.1 (Or.inr (by rw [← h]; exact he)) hv
    have h2 : e.2 ∈ K := h ▸ hv
    simp [h, h1, hv]
  · simp [h]

theorem prune_wf {net : Net} (hw : net.g.WF) (K : List Node) : (net.prune K).g.WF := by
  refine wf_sub hw (hw.nodesNodup.filter _) (hw.edgesNodup.filter _) ?_ ?_
  · intro u v h
    obtain ⟨h1, h2, h3⟩ := prune_edge'.1 h
    exact ⟨mem_prune.2 ⟨(hw.edgeNodes u v h1).1, h2⟩, mem_prune.2 ⟨(hw.edgeNodes u v h1).2, h3⟩⟩
  · intro u v h
    exact (prune_edge'.1 h).1

theorem get?_filter {α : Type} (d : Dict Node α) (p : Node → Bool) (v : Node) :
    Dict.get? (d.filter (fun e => p e.1)) v = if p v then d.get? v else none := by
  induction d with
  | nil => simp [Dict.get?]
  | cons e d ih =>
    obtain ⟨k, x⟩ := e
    simp only [List.filter_cons]
    by_cases hp : p k
    · simp only [hp, if_true, Dict.get?]
      by_cases hk : k = v
      · subst hk; simp [hp]
      · simp only [hk, if_false]; exact ih
    · simp only [hp, Bool.false_eq_true, if_false, Dict.get?]
      by_cases hk : k = v
      · subst hk; rw [ih]; simp [hp]
      · simp only [hk, if_false]; exact ih

theorem prune_cpds {net : Net} (K : List Node) (v : Node) :
    (net.prune K).cpds.get? v = if v ∉ net.g.nodes ∨ v ∈ K then net.cpds.get? v else none := by
  show Dict.get? (net.cpds.filter _) v = _
  rw [get?_filter net.cpds (fun v => decide (v ∉ net.g.nodes ∨ v ∈ K)) v]
  simp only [decide_eq_true_eq]

theorem cpds_node {net : Net} (hG : Good net) {v : Node} {c : Cpd} (h : net.cpds.get? v = some c) : v ∈ net.g.nodes := by
  obtain ⟨_, r, hr, _⟩ := hG.reflects v c h
  exact hG.relNodes v (Dict.mem_keys.2 ⟨r, hr⟩)

theorem prune_cpds_some {net : Net} (hG : Good net) {K : List Node} {v : Node} {c : Cpd}
    (h : (net.prune K).cpds.get? v = some c) : net.cpds.get? v = some c ∧ v ∈ net.g.nodes ∧ v ∈ K := by
  rw [prune_cpds] at h
  split at h
  · rename_i hc
    have := cpds_node hG h
    exact ⟨h, this, by tauto⟩
  · simp at h

theorem prune_rels_some {net : Net} (hG : Good net) {K : List Node} {v : Node} :
    (net.prune K).rels.get? v = if v ∈ K then net.rels.get? v else none := by
  show Dict.get? (net.rels.filter _) v = _
  rw [get?_filter net.rels (fun v => decide (v ∉ net.g.nodes ∨ v ∈ K ∨ v ∉ net.cpds.keys)) v]
  simp only [decide_eq_true_eq]
  by_cases hk : v ∈ K
  · simp [hk]
  · by_cases hn : v ∈ net.g.nodes
    · obtain ⟨c, hc, _⟩ := hG.complete v hn
      have : v ∈ net.cpds.keys := Dict.mem_keys.2 ⟨c, hc⟩
      simp [hk, hn, this]
    · have : net.rels.get? v = none := by
        cases h : net.rels.get? v with
        | none => rfl
        | some r => exact absurd (hG.relNodes v (Dict.mem_keys.2 ⟨r, h⟩)) hn
      simp [this, hk]

theorem prune_dom (net : Net) (K : List Node) (v : Node) : (net.prune K).dom v = net.dom v := rfl

theorem prune_kernel {net : Net} {K : List Node} {v : Node} (hv : v ∈ K) (a : Assign) :
    (net.prune K).kernel v a = net.kernel v a := by
  unfold kernel
  rw [prune_cpds]
  simp only [hv, or_true, if_true]
  rfl

/-- what remains after removing whole components is sound -/
theorem prune_good {net : Net} (hG : Good net) {K : List Node} (hK : Closed net.g K) : Good (net.prune K) := by
  have hrel := fun v => prune_rels_some hG (K := K) (v := v)
  have hcomp : ∀ v ∈ K, ∀ r, computed (net.prune K).g (net.prune K).domain v r = computed net.g net.domain v r := by
    intro v hv r
    cases r <;> simp only [computed, prune_parents hK hv] <;> rfl
  refine ⟨prune_wf hG.wf K, ?_, ?_, ?_, ?_, ?_, ?_, ?_⟩
  · show (Dict.keys (net.rels.filter _)).Nodup
    exact hG.keys.sublist (List.Sublist.map _ List.filter_sublist)
  · intro v hv
    obtain ⟨r, hr⟩ := Dict.mem_keys.1 hv
    rw [hrel] at hr
    split at hr
    · rename_i hk
      exact mem_prune.2 ⟨hG.relNodes v (Dict.mem_keys.2 ⟨r, hr⟩), hk⟩
    · simp at hr
  · intro v c hc
    obtain ⟨h1, _, h3⟩ := prune_cpds_some hG hc
    obtain ⟨k1, r, k2, k3⟩ := hG.reflects v c h1
    exact ⟨k1, r, by rw [hrel, if_pos h3, k2], by rw [hcomp v h3, k3]⟩
  · intro v hv
    obtain ⟨h1, h2⟩ := mem_prune.1 hv
    obtain ⟨c, k1, k2⟩ := hG.complete v h1
    exact ⟨c, by rw [prune_cpds]; simp [h2, k1], k2⟩
  · intro v c hc
    obtain ⟨h1, _, h3⟩ := prune_cpds_some hG hc
    have hf := hG.fits v c h1
    exact ⟨hf.var, fun p => by rw [prune_edge hK (Or.inr h3)]; exact hf.parents p, hf.cards, hf.sums⟩
  · intro v c hc
    exact hG.cpdOk v c (prune_cpds_some hG hc).1
  · intro v c hc hk
    rw [hrel] at hc
    split at hc
    · rename_i hvK
      obtain ⟨c', k1, k2, k3⟩ := hG.tabs v c hc hk
      refine ⟨c', by rw [prune_parents hK hvK]; exact k1, k2, fun a ha x => ?_⟩
      have hvn := hG.relNodes v (Dict.mem_keys.2 ⟨_, hc⟩)
      obtain ⟨c2, hc2, _⟩ := hG.complete v hvn
      have hce : c2 = c := by
        obtain ⟨_, r', h2, h3⟩ := hG.reflects v c2 hc2
        rw [hc] at h2
        cases h2
        simpa [computed] using h3.symm
      subst hce
      have hev : ∀ p, p ∈ c2.evidence ↔ net.g.Edge p v := (hG.fits v c2 hc2).parents
      have hev' : c'.evidence = net.g.parents v := (mkCpd_fields k1).2.1
      obtain ⟨b, hb1, hb2⟩ := exists_inDom hG a (fun u => u ∈ K) (fun u hu hun => ha u (mem_prune.2 ⟨hun, hu⟩))
      have hpK : ∀ p, net.g.Edge p v → p ∈ K := fun p hp => hK v p (Or.inr hp) hvK
      have := k3 b hb1 x
      rw [List.map_congr_left (fun p hp => hb2 p (hpK p (Graph.mem_parents.1 (hev' ▸ hp)))),
        List.map_congr_left (fun p hp => hb2 p (hpK p ((hev p).1 hp)))] at this
      exact this
    · simp at hc

theorem prune_prob {net : Net} (hG : Good net) (hN : net.Normalised) {K : List Node} (hK : Closed net.g K) :
    (net.prune K).bn.Prob := by
  have hB := bn_prob hG hN
  refine ⟨bn_local (prune_good hG hK), fun v hv a ha => ?_, fun v hv a ha => ?_⟩
  · obtain ⟨h1, h2⟩ := mem_prune.1 hv
    rw [← hB.norm v h1 a (fun p hp => ha p ((prune_edge hK (Or.inr h2)).2 hp))]
    show ((net.dom v).map _).sum = ((net.dom v).map _).sum
    congr 1
    apply List.map_congr_left
    intro x _
    exact prune_kernel h2 _
  · obtain ⟨h1, h2⟩ := mem_prune.1 hv
    have := hB.nonneg v h1 a (fun p hp => ha p (hp.imp id (fun h => (prune_edge hK (Or.inr h2)).2 h)))
    show 0 ≤ (net.prune K).kernel v a
    rw [prune_kernel h2]
    exact this

/-- removing whole components does not change probabilities of what is left -/
theorem P_prune {net : Net} (hG : Good net) (hN : net.Normalised) {K : List Node} (hK : Closed net.g K)
    {E : Assign → Bool} (hE : DependsOn E (fun v => v ∈ net.g.nodes ∧ v ∈ K)) : (net.prune K).P E = net.P E := by
  have hU : ∀ v, v ∈ (net.prune K).g.nodes ↔ v ∈ net.g.nodes ∧ v ∈ K := fun v => mem_prune
  rw [P_eq_W, P_eq_W, BN.W_ancestral (bn_prob hG hN) (U := (net.prune K).g.nodes)
    (prune_wf hG.wf K).nodesNodup (fun v hv => ((hU v).1 hv).1)
    (fun u v huv hv => (hU u).2 ⟨(hG.wf.edgeNodes u v huv).1, hK v u (Or.inr huv) ((hU v).1 hv).2⟩)
    (f := fun a => if E a then 1 else 0)
    ((hE.mono (fun v hv => (hU v).2 hv)).comp (fun b : Bool => if b then (1 : Rat) else 0)) (fun _ => 0)]
  unfold BN.W
  apply sumOver_congr
  intro b _ _
  congr 1
  unfold BN.prod
  congr 1
  apply List.map_congr_left
  intro v hv
  exact prune_kernel ((hU v).1 hv).2 b

theorem ctx_depends (ctx : List (Node × Outcome)) : DependsOn (Ctx ctx) (· ∈ ctx.map (·.1)) := by
  intro a b hab
  unfold Ctx
  rw [Bool.eq_iff_iff, List.all_eq_true, List.all_eq_true]
  refine forall₂_congr (fun p hp => ?_)
  rw [hab p.1 (List.mem_map_of_mem hp)]

theorem has_depends (vars : List Node) (xs : List Outcome) : DependsOn (Has vars xs) (· ∈ vars) := by
  intro a b hab
  unfold Has
  rw [List.map_congr_left (fun v hv => hab v hv)]

/-! ### independence of components -/

theorem not_reached_closed {g : Graph} {K : List Node} (hK : Closed g K) {Z S : List Node} (hS : ∀ s ∈ S, s ∈ K) {t : Node}
    (ht : t ∉ K) : ¬ Reached g Z S t := by
  rintro ⟨_, d, h⟩
  have : ∀ v d, Ball g Z (fun w d => w ∈ S ∧ d = .up) v d → v ∈ K := by
    intro v d h
    induction h with
    | init h => exact hS _ h.1
    | upPar _ _ h ih => exact hK _ _ (Or.inr h) ih
    | upCh _ _ h ih => exact hK _ _ (Or.inl h) ih
    | downCh _ _ h ih => exact hK _ _ (Or.inl h) ih
    | downPar _ _ h ih => exact hK _ _ (Or.inr h) ih
  exact ht (this t d h)

/-- events about different components are independent -/
theorem P_indep {net : Net} (hG : Good net) (hN : net.Normalised) {K : List Node} (hK : Closed net.g K)
    {E F : Assign → Bool} (hE : DependsOn E (fun v => v ∈ net.g.nodes ∧ v ∈ K))
    (hF : DependsOn F (fun v => v ∈ net.g.nodes ∧ v ∉ K)) :
    net.P (fun a => E a && F a) = net.P E * net.P F := by
  have key := BN.ci (bn_prob hG hN) (Z := []) (S := net.g.nodes.filter (fun v => decide (v ∈ K)))
    (T := net.g.nodes.filter (fun v => decide (v ∉ K))) (by simp)
    (fun t ht => not_reached_closed hK (fun s hs => by simpa using (List.mem_filter.1 hs).2)
      (by simpa using (List.mem_filter.1 ht).2)) (fun _ => 0)
    (f := fun a => if E a then 1 else 0) (h := fun a => if F a then 1 else 0)
    ((hE.comp (fun b : Bool => if b then (1 : Rat) else 0)).mono (fun v hv => Or.inr ⟨by simp [hv.1, hv.2], hv.1⟩))
    ((hF.comp (fun b : Bool => if b then (1 : Rat) else 0)).mono (fun v hv => Or.inr ⟨by simp [hv.1, hv.2], hv.1⟩))
  have hat : ∀ f : Assign → Rat, BN.at_ [] (fun _ => 0) f = f := fun f => by funext a; simp [BN.at_]
  rw [hat, hat, hat, hat, BN.W_one (bn_prob hG hN), mul_one] at key
  rw [P_eq_W, P_eq_W, P_eq_W, ← key]
  congr 1
  funext a
  cases E a <;> cases F a <;> simp

/-! ### inference -/

theorem checkModel_good {net : Net} (hG : Good net) : net.checkModel = true := by
  unfold checkModel
  rw [List.all_eq_true]
  intro v hv
  obtain ⟨c, hc, _⟩ := hG.complete v hv
  have hf := hG.fits v c hc
  simp only [hc, Bool.and_eq_true, List.all_eq_true, decide_eq_true_eq, mem_parents]
  refine ⟨⟨⟨fun p hp => (hf.parents p).1 hp, fun p hp => (hf.parents p).2 hp⟩, List.all_eq_true.1 hf.sums⟩, ?_⟩
  rw [hf.cards]
  apply List.map_congr_left
  intro p hp
  obtain ⟨cp, hcp, hd⟩ := hG.complete p (hG.wf.edgeNodes p v ((hf.parents p).1 hp)).1
  simp [hcp, hd]

theorem length_product {α : Type} {ls : List (List α)} {xs : List α} (h : xs ∈ product ls) : xs.length = ls.length :=
  (mem_product.1 h).length_eq

/-- exact inference on a sound network -/
theorem infer_spec {net : Net} (hG : Good net) {ord : List Node → List Node} (hord : ∀ l, (ord l).Perm l)
    {q : List Node} {ctx : List (Node × Outcome)} (hdis : ∀ v ∈ q, v ∉ ctx.map (·.1)) :
    ∃ f, net.infer ord q ctx = .ok f ∧ IsConditional f q net.dom net.P (Ctx ctx) := by
  have hany : q.any (fun v => decide (v ∈ ctx.map (·.1))) = false := by
    rw [List.any_eq_false]
    intro v hv
    simpa using hdis v hv
  unfold infer
  rw [checkModel_good hG, hany]
  refine ⟨_, rfl, hord q, rfl, ?_⟩
  apply List.map_congr_left
  intro xs hxs
  have hl : (ord q).length = xs.length := by rw [length_product hxs, List.length_map]
  rw [mass_eq_P, mass_eq_P]
  have : Ctx ((ord q).zip xs ++ ctx) = fun a => Has (ord q) xs a && Ctx ctx a := by
    funext a
    rw [ctx_append, ctx_zip hl]
  rw [this]

theorem infer_ok {net : Net} {ord : List Node → List Node} {q : List Node} {ctx : List (Node × Outcome)} {f : Factor}
    (h : net.infer ord q ctx = .ok f) : ∀ v ∈ q, v ∉ ctx.map (·.1) := by
  unfold infer at h
  split at h
  · simp at h
  · split at h
    · simp at h
    · rename_i hany
      intro v hv hm
      exact hany (List.any_eq_true.2 ⟨v, hv, by simpa using hm⟩)

theorem connected_node {g : Graph} (hw : g.WF) {u v : Node} (hu : u ∈ g.nodes) (h : g.Connected u v) : v ∈ g.nodes := by
  unfold Connected at h
  induction h with
  | refl => exact hu
  | tail _ h _ =>
    rcases h with h | h
    · exact (hw.edgeNodes _ _ h).2
    · exact (hw.edgeNodes _ _ h).1

theorem connected_prune {net : Net} {K : List Node} (hK : Closed net.g K) {u v : Node} (hu : u ∈ K) :
    (net.prune K).g.Connected u v ↔ net.g.Connected u v := by
  unfold Connected
  constructor
  · exact fun h => ReflTransGen.mono (fun a b h => h.imp (fun h => (prune_edge'.1 h).1) (fun h => (prune_edge'.1 h).1)) _ _ h
  · intro h
    have : (ReflTransGen (net.prune K).g.Adj u v) ∧ v ∈ K := by
      induction h with
      | refl => exact ⟨.refl, hu⟩
      | tail _ h ih => exact ⟨ih.1.tail (h.imp (fun h => (prune_edge hK (Or.inl ih.2)).2 h)
          (fun h => (prune_edge hK (Or.inr ih.2)).2 h)), hK _ _ h ih.2⟩
    exact this.1

/-- the nodes query keeps -/
def keepOf (net : Net) (q : List Node) : List Node := q.flatMap (component net.g)

theorem mem_keepOf {net : Net} (hw : net.g.WF) {q : List Node} {v : Node} :
    v ∈ keepOf net q ↔ ∃ x ∈ q, net.g.Connected x v := by
  simp only [keepOf, List.mem_flatMap, mem_component hw]

theorem isConnected_keep {net : Net} (hw : net.g.WF) {q : List Node} (hq : ∀ v ∈ q, v ∈ net.g.nodes) (hne : q ≠ []) :
    ∃ b, isConnected (net.prune (keepOf net q)).g = .ok b ∧
      (b = true ↔ ∀ u ∈ q, ∀ v ∈ q, net.g.Connected u v) := by
  have hK : Closed net.g (keepOf net q) := closed_keep hw q
  have hw' := prune_wf hw (keepOf net q)
  unfold isConnected
  obtain ⟨x, q', rfl⟩ := List.exists_cons_of_ne_nil hne
  have hx : x ∈ (net.prune (keepOf net (x :: q'))).g.nodes :=
    mem_prune.2 ⟨hq x (by simp), (mem_keepOf hw).2 ⟨x, by simp, .refl⟩⟩
  cases hn : (net.prune (keepOf net (x :: q'))).g.nodes with
  | nil => rw [hn] at hx; simp at hx
  | cons y ys =>
    refine ⟨_, rfl, ?_⟩
    rw [← hn]
    have hy : y ∈ (net.prune (keepOf net (x :: q'))).g.nodes := by rw [hn]; simp
    have hyK : y ∈ keepOf net (x :: q') := (mem_prune.1 hy).2
    rw [List.all_eq_true]
    simp only [decide_eq_true_eq, mem_component hw', connected_prune hK hyK]
    constructor
    · intro h u hu v hv
      have hm : ∀ u ∈ x :: q', net.g.Connected y u := fun u hu =>
        h u (mem_prune.2 ⟨hq u hu, (mem_keepOf hw).2 ⟨u, hu, .refl⟩⟩)
      exact (hm u hu).symm.trans (hm v hv)
    · intro h w hw1
      obtain ⟨u, hu, huy⟩ := (mem_keepOf hw).1 hyK
      obtain ⟨v, hv, hvw⟩ := (mem_keepOf hw).1 (mem_prune.1 hw1).2
      exact huy.symm.trans ((h u hu v hv).trans hvw)

/-- the context `query` really uses -/
def ctxOf (net : Net) (q : List Node) (ctx : List (Node × Outcome)) : List (Node × Outcome) :=
  ctx.filter (fun p => decide (p.1 ∈ keepOf net q))

/-- `query` after the intervention, all cases -/
theorem queryOn_spec {net : Net} (hG : Good net) (hN : net.Normalised) {ord : List Node → List Node} (hord : ∀ l, (ord l).Perm l)
    (q : List Node) {ctx : List (Node × Outcome)} (hctx : ∀ p ∈ ctx, p.1 ∈ net.g.nodes) :
    ((∃ v ∈ q, v ∉ net.g.nodes) → net.queryOn ord q ctx = (net, .error .key)) ∧
    (q = [] → net.queryOn ord q ctx = (net.prune [], .error .nx)) ∧
    ((∀ v ∈ q, v ∈ net.g.nodes) → q ≠ [] → (net.queryOn ord q ctx).1 = net.prune (keepOf net q) ∧
      ((¬ ∀ u ∈ q, ∀ v ∈ q, net.g.Connected u v) → (net.queryOn ord q ctx).2 = .error .value) ∧
      ((∀ u ∈ q, ∀ v ∈ q, net.g.Connected u v) →
        ((∃ v ∈ q, v ∈ ctx.map (·.1)) → (net.queryOn ord q ctx).2 = .error .value) ∧
        ((∀ v ∈ q, v ∉ ctx.map (·.1)) → ∃ f, (net.queryOn ord q ctx).2 = .ok f ∧
          IsConditional f q net.dom net.P (Ctx (ctxOf net q ctx))))) := by
  refine ⟨?_, ?_, ?_⟩
  · rintro ⟨v, hv, hvn⟩
    unfold queryOn
    have : q.all net.g.hasNode = false := by
      rw [List.all_eq_false]
      exact ⟨v, hv, by simpa [Graph.hasNode] using hvn⟩
    rw [if_pos this]
  · rintro rfl
    have hp : (net.prune []).g.nodes = [] := by
      rw [List.eq_nil_iff_forall_not_mem]
      intro v hv
      simpa using (mem_prune.1 hv).2
    simp only [queryOn, List.all_nil, Bool.true_eq_false, if_false, List.flatMap_nil]
    unfold isConnected
    rw [hp]
  · intro hq hne
    have hall : ¬ (q.all net.g.hasNode = false) := by
      simp only [Bool.not_eq_false, List.all_eq_true]
      exact fun v hv => by simpa [Graph.hasNode] using hq v hv
    have hK : Closed net.g (keepOf net q) := closed_keep hG.wf q
    have hqK : ∀ v ∈ q, v ∈ keepOf net q := fun v hv => (mem_keepOf hG.wf).2 ⟨v, hv, .refl⟩
    obtain ⟨b, hb1, hb2⟩ := isConnected_keep hG.wf hq hne
    have hun : net.queryOn ord q ctx = match isConnected (net.prune (keepOf net q)).g with
      | .error e => (net.prune (keepOf net q), .error e)
      | .ok false => (net.prune (keepOf net q), .error .value)
      | .ok true => (net.prune (keepOf net q), infer ord (net.prune (keepOf net q)) q (ctxOf net q ctx)) := by
      unfold queryOn
      rw [if_neg hall]
      rfl
    rw [hun, hb1]
    cases b with
    | false =>
      refine ⟨rfl, fun _ => rfl, fun h => absurd (hb2.2 h) (by simp)⟩
    | true =>
      refine ⟨rfl, fun h => absurd (hb2.1 rfl) h, fun _ => ⟨?_, ?_⟩⟩
      · rintro ⟨v, hv, hvc⟩
        obtain ⟨p, hp, rfl⟩ := List.mem_map.1 hvc
        have hG' := prune_good hG hK
        show infer ord (net.prune (keepOf net q)) q (ctxOf net q ctx) = _
        unfold infer
        rw [show (net.prune (keepOf net q)).checkModel = true from checkModel_good hG',
          if_neg (by simp), if_pos]
        rw [List.any_eq_true]
        refine ⟨p.1, hv, ?_⟩
        simp only [decide_eq_true_eq]
        exact List.mem_map_of_mem (List.mem_filter.2 ⟨hp, by simpa using hqK _ hv⟩)
      · intro hdis
        obtain ⟨f, hf1, hf2, hf3, hf4⟩ := infer_spec (prune_good hG hK) hord (q := q) (ctx := ctxOf net q ctx)
          (fun v hv hm => hdis v hv (by
            obtain ⟨p, hp, e⟩ := List.mem_map.1 hm
            exact List.mem_map.2 ⟨p, (List.mem_filter.1 hp).1, e⟩))
        have hdc : DependsOn (Ctx (ctxOf net q ctx)) (fun v => v ∈ net.g.nodes ∧ v ∈ keepOf net q) :=
          (ctx_depends _).mono (fun v hv => by
            obtain ⟨p, hp, rfl⟩ := List.mem_map.1 hv
            exact ⟨hctx p (List.mem_filter.1 hp).1, by simpa using (List.mem_filter.1 hp).2⟩)
        have hdh : ∀ xs, DependsOn (Has f.vars xs) (fun v => v ∈ net.g.nodes ∧ v ∈ keepOf net q) := fun xs =>
          (has_depends _ _).mono (fun v hv => ⟨hq v (hf2.mem_iff.1 hv), hqK v (hf2.mem_iff.1 hv)⟩)
        refine ⟨f, hf1, hf2, hf3, ?_⟩
        rw [hf4]
        apply List.map_congr_left
        intro xs _
        rw [show (net.prune (keepOf net q)).P (Ctx (ctxOf net q ctx)) = net.P (Ctx (ctxOf net q ctx)) from
          P_prune hG hN hK hdc]
        rw [show (net.prune (keepOf net q)).P (fun a => Has f.vars xs a && Ctx (ctxOf net q ctx) a) =
          net.P (fun a => Has f.vars xs a && Ctx (ctxOf net q ctx) a) from P_prune hG hN hK (by
            intro a b hab
            show (Has f.vars xs a && Ctx (ctxOf net q ctx) a) = _
            rw [hdh xs a b hab, hdc a b hab])]

/-- if the whole context is possible, leaving out its unconnected part changes nothing -/
theorem conditional_full {net : Net} (hG : Good net) (hN : net.Normalised) {q : List Node} (hq : ∀ v ∈ q, v ∈ net.g.nodes)
    {ctx : List (Node × Outcome)} (hctx : ∀ p ∈ ctx, p.1 ∈ net.g.nodes) (hpos : net.P (Ctx ctx) ≠ 0) {f : Factor}
    (hf : IsConditional f q net.dom net.P (Ctx (ctxOf net q ctx))) : IsConditional f q net.dom net.P (Ctx ctx) := by
  have hK : Closed net.g (keepOf net q) := closed_keep hG.wf q
  have hqK : ∀ v ∈ q, v ∈ keepOf net q := fun v hv => (mem_keepOf hG.wf).2 ⟨v, hv, .refl⟩
  obtain ⟨hf2, hf3, hf4⟩ := hf
  refine ⟨hf2, hf3, ?_⟩
  rw [hf4]
  let rest := ctx.filter (fun p => decide (p.1 ∉ keepOf net q))
  have hsplit : ∀ a, Ctx ctx a = (Ctx (ctxOf net q ctx) a && Ctx rest a) := by
    intro a
    simp only [Ctx, ctxOf, rest]
    rw [Bool.eq_iff_iff]
    simp only [Bool.and_eq_true, List.all_eq_true, List.mem_filter, decide_eq_true_eq]
    constructor
    · exact fun h => ⟨fun p hp => h p hp.1, fun p hp => h p hp.1⟩
    · intro h p hp
      by_cases hk : p.1 ∈ keepOf net q
      · exact h.1 p ⟨hp, hk⟩
      · exact h.2 p ⟨hp, hk⟩
  have hdc : DependsOn (Ctx (ctxOf net q ctx)) (fun v => v ∈ net.g.nodes ∧ v ∈ keepOf net q) :=
    (ctx_depends _).mono (fun v hv => by
      obtain ⟨p, hp, rfl⟩ := List.mem_map.1 hv
      exact ⟨hctx p (List.mem_filter.1 hp).1, by simpa using (List.mem_filter.1 hp).2⟩)
  have hdr : DependsOn (Ctx rest) (fun v => v ∈ net.g.nodes ∧ v ∉ keepOf net q) :=
    (ctx_depends _).mono (fun v hv => by
      obtain ⟨p, hp, rfl⟩ := List.mem_map.1 hv
      exact ⟨hctx p (List.mem_filter.1 hp).1, by simpa using (List.mem_filter.1 hp).2⟩)
  have hP1 : net.P (Ctx ctx) = net.P (Ctx (ctxOf net q ctx)) * net.P (Ctx rest) := by
    rw [← P_indep hG hN hK hdc hdr]
    exact P_congr (fun a _ => hsplit a)
  have hr0 : net.P (Ctx rest) ≠ 0 := fun h => hpos (by rw [hP1, h, mul_zero])
  have hc0 : net.P (Ctx (ctxOf net q ctx)) ≠ 0 := fun h => hpos (by rw [hP1, h, zero_mul])
  apply List.map_congr_left
  intro xs _
  rw [if_neg hpos, if_neg hc0]
  have hP2 : net.P (fun a => Has f.vars xs a && Ctx ctx a) =
      net.P (fun a => Has f.vars xs a && Ctx (ctxOf net q ctx) a) * net.P (Ctx rest) := by
    rw [← P_indep hG hN hK (E := fun a => Has f.vars xs a && Ctx (ctxOf net q ctx) a) ?_ hdr]
    · exact P_congr (fun a _ => by rw [hsplit a, Bool.and_assoc])
    · intro a b hab
      show (Has f.vars xs a && Ctx (ctxOf net q ctx) a) = _
      rw [hdc a b hab, has_depends f.vars xs a b (fun v hv => hab v ⟨hq v (hf2.mem_iff.1 hv), hqK v (hf2.mem_iff.1 hv)⟩)]
  rw [hP1, hP2]
  congr 1
  field_simp

end Net
end Verif

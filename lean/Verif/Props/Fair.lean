import Verif.Props.CondExp
import Verif.Props.Backdoor
import Verif.Props.Refusal
import Verif.Lemmas.Examples

/-!
# Predictions that see the attribute introduce no effect of it, C119
-/

namespace Verif

open Graph Relation Macid Net

namespace Net

/-- The tower property, under an intervention: averaging the conditional expectations of `y` gives the expectation of `y`. -/
theorem W_tower {net : Net} (hG : net.Good) (hN : net.Normalised) {int : List (Node × Outcome)} (hd : (int.map (·.1)).Nodup)
    (hi : ∀ p ∈ int, p.1 ∈ net.g.nodes ∧ p.2 ∈ net.dom p.1) {ps : List Node} (hn : ps.Nodup) (hps : ∀ p ∈ ps, p ∈ net.g.nodes) {y : Node}
    (hy : y ∈ net.g.nodes) {h : Assign → Rat} (hh : DependsOn h (· ∈ ps))
    (hm : ∀ a : Assign, (∀ p ∈ ps, a p ∈ net.dom p) → net.PDo int (Ctx (ps.map (fun p => (p, a p)))) ≠ 0 →
      h a = net.Mean int (ps.map (fun p => (p, a p))) y) :
    (net.doBN int).W h = (net.doBN int).W (fun a => a y) := by
  classical
  have hin : ∀ p ∈ int, p.1 ∈ net.g.nodes := fun p hp => (hi p hp).1
  have hD : (net.doBN int).Prob := doBN_prob hG hN hd (fun p hp => (hi p hp).2)
  have e := fun F : Assign → Rat => W_product (net.doBN int) net.dom (fun _ _ => .refl _) (fun v hv => (dom_props hG hv).1) (vars := ps)
    hps F (fun _ => 1)
  simp only [one_mul] at e
  rw [← e h, ← e (fun a => a y)]
  refine congrArg List.sum (List.map_congr_left (fun xs hxs => ?_))
  have hlen : xs.length = ps.length := by
    have := (mem_product.1 hxs).length_eq
    simpa using this
  let z : Assign := fun v => (Dict.get? (ps.zip xs) v).getD 0
  have hzx : ps.map z = xs := by
    apply List.ext_getElem
    · simpa using hlen.symm
    · intro i h1 h2
      simp only [List.getElem_map, z]
      rw [get?_zip hn (by simpa using h1) h2]
      rfl
  have hctx : ∀ a, (Ctx (ps.map (fun p => (p, z p))) a = true) ↔ ps.map a = xs := by
    intro a
    rw [← zip_map_self, ctx_zip (by simp), hzx]
    simp [Has]
  have hzd : ∀ p ∈ ps, z p ∈ net.dom p := by
    have := mem_product.1 hxs
    rw [← hzx, List.forall₂_map_left_iff, List.forall₂_map_right_iff, List.forall₂_same] at this
    exact this
  have ez : ∀ a : Assign, ps.map a = xs → h a = h z := fun a ha => hh a z (fun p hp => by
    rw [← hzx] at ha
    exact List.map_inj_left.1 ha p hp)
  by_cases hP : net.PDo int (Ctx (ps.map (fun p => (p, z p)))) = 0
  · rw [PDo_eq_W hin] at hP
    have k : ∀ F : Assign → Rat, (net.doBN int).W (fun a => if ps.map a = xs then F a else 0) = 0 := fun F =>
      BN.W_zero hD (fun a _ => by split <;> norm_num) hP (fun a _ q => by
        rw [if_neg]
        intro e
        rw [if_pos ((hctx a).2 e)] at q
        exact one_ne_zero q)
    rw [k h, k]
  · have e1 : (net.doBN int).W (fun a => if ps.map a = xs then h a else 0) = h z * net.PDo int (Ctx (ps.map (fun p => (p, z p)))) := by
      rw [PDo_eq_W hin, ← BN.W_mul_const]
      refine BN.W_congr (fun a _ => ?_)
      by_cases ha : ps.map a = xs
      · rw [if_pos ha, if_pos ((hctx a).2 ha), ez a ha, mul_one]
      · rw [if_neg ha, if_neg (fun q => ha ((hctx a).1 q)), mul_zero]
    rw [e1, hm z hzd hP, Mean_eq hG hin hy]
    unfold EW
    rw [div_mul_cancel₀ _ hP]
    refine BN.W_congr (fun a _ => ?_)
    by_cases ha : ps.map a = xs
    · rw [if_pos ha, if_pos ((hctx a).2 ha), mul_one]
    · rw [if_neg ha, if_neg (fun q => ha ((hctx a).1 q)), mul_zero]

/-- Two networks that agree on everything that is not a descendant of `d` give the same expectations to what depends on these variables. -/
theorem doBN_frame {net net' : Net} (hG : net.Good) (hN : net.Normalised) (hG' : net'.Good) (hN' : net'.Normalised) (hg : net'.g = net.g)
    {d : Node} (hfr : ∀ w, ¬ net.g.DescEq d w → net'.dom w = net.dom w ∧ ∀ a, net.InDom a → net'.kernel w a = net.kernel w a)
    {int : List (Node × Outcome)} (hd : (int.map (·.1)).Nodup) (hi : ∀ p ∈ int, p.2 ∈ net.dom p.1) (hi' : ∀ p ∈ int, p.2 ∈ net'.dom p.1)
    {f : Assign → Rat} (hf : DependsOn f (· ∈ BN.nondesc net.g d)) : (net'.doBN int).W f = (net.doBN int).W f := by
  have hUn : (BN.nondesc net.g d).Nodup := by unfold BN.nondesc; exact hG.wf.nodesNodup.filter _
  have hsub : ∀ v ∈ BN.nondesc net.g d, v ∈ net.g.nodes := fun v hv => (BN.mem_nondesc.1 hv).1
  have hanc : ∀ u v, net.g.Edge u v → v ∈ BN.nondesc net.g d → u ∈ BN.nondesc net.g d := by
    intro u v huv hv
    exact BN.mem_nondesc.2 ⟨(hG.wf.edgeNodes u v huv).1, fun h => (BN.mem_nondesc.1 hv).2 (h.tail huv)⟩
  rw [BN.W_ancestral (doBN_prob hG hN hd hi) hUn hsub (fun u v huv hv => hanc u v (mem_cutGraph.1 huv).1 hv) hf (fun _ => 0),
    BN.W_ancestral (doBN_prob hG' hN' hd hi') (U := BN.nondesc net.g d) hUn
    (fun v hv => by show v ∈ net'.g.nodes; rw [hg]; exact hsub v hv)
    (fun u v huv hv => hanc u v (by have : net'.g.Edge u v := (mem_cutGraph.1 huv).1; rwa [hg] at this) hv) hf (fun _ => 0)]
  show sumOver net'.dom _ _ _ = sumOver net.dom _ _ _
  rw [sumOver_dom_perm (dom := net'.dom) (dom' := net.dom) (fun v hv => by rw [(hfr v (BN.mem_nondesc.1 hv).2).1])]
  apply sumOver_congr
  intro b hb _
  congr 1
  unfold BN.prod
  congr 1
  apply List.map_congr_left
  intro v hv
  obtain ⟨b', hb1, hb2⟩ := exists_inDom hG b (· ∈ BN.nondesc net.g d) (fun u hu _ => hb u hu)
  have hv' := BN.mem_nondesc.1 hv
  have q1 := kernel_depends hG hv'.1 b' b (fun u hu => hb2 u (by
    rcases hu with rfl | hu
    · exact hv
    · exact hanc u v hu hv))
  have q2 := kernel_depends hG' (v := v) (by rw [hg]; exact hv'.1) b' b (fun u hu => hb2 u (by
    rcases hu with rfl | hu
    · exact hv
    · rw [hg] at hu; exact hanc u v hu hv))
  show (if v ∈ int.map (·.1) then _ else net'.kernel v b) = (if v ∈ int.map (·.1) then _ else net.kernel v b)
  rw [← q1, ← q2, (hfr v hv'.2).2 b' hb1]

end Net

/-- **C119** The decision `d` was imputed with `impute_conditional_expectation_decision(d, y)`, observes `s`, and its other observations leave
no active back-door trail from `s` to `y`.  Then setting `s` to a value moves the expected prediction exactly as the expectation of `y`. -/
theorem C119_prediction {net net' : Net} (hU : net.Usable) {pick : Pick} {ord : List Node → List Node} (hord : ∀ l, (ord l).Perm l)
    {d y s : Node} (hc : net.g.Connected y d) (hyd : ¬ net.g.DescEq d y) (h : net.imputeCondExp pick ord d y = (net', .ok ()))
    (hU' : net'.Usable) (hs : s ∈ net.g.parents d) {so : SetOrder} (ho : so.Valid)
    (hb : y ∉ net.g.parents d → isActiveBackdoorTrail so net.g s y ((net.g.parents d).erase s) = .ok false)
    {v : Outcome} (hi : net'.IntOk [(s, v)]) : net'.Mean [(s, v)] [] d = net'.Mean [(s, v)] [] y := by
  classical
  obtain ⟨hd, hy, hm, _, hfr, hdm, hpos, hk⟩ := C88_imputed hU hord hc h
  have hG := hU.good
  have hN := hU.normalised
  have hG' := hU'.good
  have hN' := hU'.normalised
  have hg : net'.g = net.g := by show net'.m.g = net.m.g; rw [hm]
  have hpar : ∀ p ∈ net.g.parents d, ¬ net.g.DescEq d p := fun p hp q =>
    hG.wf.acyclic d (TransGen.tail' q (Graph.mem_parents.1 hp))
  have hps : ∀ p ∈ net.g.parents d, p ∈ net.g.nodes := fun p hp => (hG.wf.edgeNodes p d (Graph.mem_parents.1 hp)).1
  have hn : (net.g.parents d).Nodup := Graph.nodup_parents hG.wf.edgesNodup d
  have hds : d ≠ s := fun e => hpar s hs (e ▸ .refl)
  have hin' : ∀ p ∈ [(s, v)], p.1 ∈ net'.g.nodes := fun p hp => (hi.2 p hp).1
  have hv' : v ∈ net'.dom s := (hi.2 (s, v) (by simp)).2.1
  have hv : v ∈ net.dom s := by rw [← (hfr s (hpar s hs)).1]; exact hv'
  have hin : ∀ p ∈ [(s, v)], p.1 ∈ net.g.nodes := by simpa using hps s hs
  have hB' : (net'.doBN [(s, v)]).Prob := doBN_prob hG' hN' (by simp) (by simpa using hv')
  have hmean : ∀ x ∈ net.g.nodes, net'.Mean [(s, v)] [] x = (net'.doBN [(s, v)]).W (fun a => a x) := by
    intro x hx
    rw [Mean_eq hG' hin' (by rw [hg]; exact hx)]
    unfold EW
    rw [PDo_do_pos hU' hi, div_one]
    refine BN.W_congr (fun a _ => ?_)
    simp [Ctx]
  rw [hmean d hd, hmean y hy]
  have e1 : (net'.doBN [(s, v)]).W (fun a => a d) = (net'.doBN [(s, v)]).W (net.guess d y) := by
    refine BN.W_possible hB' (fun a ha => ?_)
    have hia : ∀ w ∈ net.g.nodes, a w ∈ net'.dom w := fun w hw => ha.1 w (by show w ∈ net'.g.nodes; rw [hg]; exact hw)
    have hkd : 0 < (if d ∈ ([(s, v)] : List (Node × Outcome)).map (·.1) then
        (if ∀ p ∈ ([(s, v)] : List (Node × Outcome)), p.1 = d → a d = p.2 then (1 : Rat) else 0) else net'.kernel d a) :=
      ha.2 d (by show d ∈ net'.g.nodes; rw [hg]; exact hd)
    rw [if_neg (by simpa using hds), hk a (fun p hp => by rw [← (hfr p (hpar p hp)).1]; exact hia p (hps p hp)) (hia d hd)] at hkd
    by_cases q : a d = net.guess d y a
    · exact q
    · simp [q] at hkd
  have hfr' := fun f hf => doBN_frame hG hN hG' hN' hg hfr (int := [(s, v)]) (by simp) (by simpa using hv) (by simpa using hv') (f := f) hf
  rw [e1, hfr' _ (fun a b hab => guess_depends net d y a b (fun p hp => hab p (BN.mem_nondesc.2 ⟨hps p hp, hpar p hp⟩))),
    hfr' (fun a => a y) (fun a b hab => hab y (BN.mem_nondesc.2 ⟨hy, hyd⟩))]
  by_cases hyp : y ∈ net.g.parents d
  · congr 1
    funext a
    simp [guess, hyp]
  refine W_tower hG hN (by simp) (by simpa using ⟨hps s hs, hv⟩) hn hps hy (guess_depends net d y) (fun a ha hP => ?_)
  rw [guess, if_neg hyp]
  have has : a s = v := by
    obtain ⟨z, h1, h2⟩ := PDo_witness hP
    have k1 : z s = a s := h1 (s, a s) (List.mem_map.2 ⟨s, hs, rfl⟩)
    have k2 : z s = v := h2 (s, v) (by simp)
    rw [← k1, k2]
  have hctx : ∀ b, Ctx ((net.g.parents d).map (fun p => (p, a p))) b =
      Ctx ((s, v) :: ((net.g.parents d).erase s).map (fun p => (p, a p))) b := by
    intro b
    rw [Bool.eq_iff_iff]
    simp only [Ctx, List.all_cons, List.all_eq_true, List.mem_map, decide_eq_true_eq, Bool.and_eq_true]
    constructor
    · intro k
      refine ⟨by rw [← has]; exact k (s, a s) ⟨s, hs, rfl⟩, ?_⟩
      rintro p ⟨q, hq, rfl⟩
      exact k (q, a q) ⟨q, List.mem_of_mem_erase hq, rfl⟩
    · rintro ⟨k1, k2⟩ p ⟨q, hq, rfl⟩
      by_cases e : q = s
      · subst e
        exact k1.trans has.symm
      · exact k2 (q, a q) ⟨q, (List.mem_erase_of_ne e).2 hq, rfl⟩
  have hpos' : net.P (Ctx ((s, v) :: ((net.g.parents d).erase s).map (fun p => (p, a p)))) ≠ 0 := by
    obtain ⟨b, hb1, hb2⟩ := exists_inDom hG a (· ∈ net.g.parents d) (fun u hu _ => ha u hu)
    have := hpos b hb1 hyp
    rw [List.map_congr_left (fun p hp => by rw [hb2 p hp])] at this
    rwa [show Ctx ((net.g.parents d).map (fun p => (p, a p))) = _ from funext hctx] at this
  have hsy : y ≠ s := fun e => hyp (e ▸ hs)
  obtain ⟨-, key⟩ := observe_do_div hU ho (hps s hs) hv (ctx := ((net.g.parents d).erase s).map (fun p => (p, a p)))
    (by
      intro p hp
      obtain ⟨q, hq, rfl⟩ := List.mem_map.1 hp
      exact hps q (List.mem_of_mem_erase hq))
    (by
      rw [List.map_map]
      simp only [Function.comp_def, List.map_id']
      exact fun q => (hn.mem_erase_iff.1 q).1 rfl) (ys := [y])
    (fun t ht => by
      rw [List.mem_singleton.1 ht]
      refine ⟨hy, hsy, ?_⟩
      rw [List.map_map]
      simp only [Function.comp_def, List.map_id']
      exact hb hyp) hpos'
  unfold Mean
  refine congrArg List.sum (List.map_congr_left (fun x _ => ?_))
  have k := key (fun a => decide (a y = x)) (fun a b hab => by rw [hab y (by simp)])
  have c : ∀ E : Assign → Bool, net.PDo [(s, v)] (fun b => E b && Ctx ((net.g.parents d).map (fun p => (p, a p))) b) =
      net.PDo [(s, v)] (fun b => E b && Ctx (((net.g.parents d).erase s).map (fun p => (p, a p))) b) := fun E =>
    PDo_congr (fun b _ hb => by
      rw [hctx b]
      have : b s = v := hb (s, v) (by simp)
      simp [Ctx, this])
  have c0 := c (fun _ => true)
  simp only [Bool.true_and] at c0
  rw [c0, c, ← k, PDo_nil, PDo_nil]
  rw [show Ctx ((net.g.parents d).map (fun p => (p, a p))) = _ from funext hctx]

/-- **C119** Hence `introduced_total_effect(s, d, y, a0, a1)` is 0, with or without adaptation of the sign. -/
theorem C119_no_introduced_effect {net net' : Net} (hU : net.Usable) {pick pick' : Pick} {ord ord' : List Node → List Node}
    (hord : ∀ l, (ord l).Perm l) (hord' : ∀ l, (ord' l).Perm l)
    {d y s : Node} (hc : net.g.Connected y d) (hyd : ¬ net.g.DescEq d y) (h : net.imputeCondExp pick ord d y = (net', .ok ()))
    (hU' : net'.Usable) (hs : s ∈ net.g.parents d) {so : SetOrder} (ho : so.Valid)
    (hb : y ∉ net.g.parents d → isActiveBackdoorTrail so net.g s y ((net.g.parents d).erase s) = .ok false)
    {a0 a1 : Outcome} (h0 : net'.IntOk [(s, a0)]) (h1 : net'.IntOk [(s, a1)]) {adapt : Bool} {r : Rat}
    (hr : (net'.introducedTotalEffect pick' ord' s d y a0 a1 adapt).2 = .ok r) : r = 0 := by
  obtain ⟨ed, ey, k1, k2, _, _, k3⟩ := C45_introduced_total_effect hU' hord' h0 h1 hr
  apply k3
  rw [((C44_total_effect_exact hU' hord' h0 h1).2 _ k1).1, ((C44_total_effect_exact hU' hord' h0 h1).2 _ k2).1,
    C119_prediction hU hord hc hyd h hU' hs ho hb h0, C119_prediction hU hord hc hyd h hU' hs ho hb h1]

/-- **C119** In particular if `s` has no parents: a predictor that sees a sensitive attribute nobody influences introduces no effect of it. -/
theorem C119_root {net net' : Net} (hU : net.Usable) {pick pick' : Pick} {ord ord' : List Node → List Node}
    (hord : ∀ l, (ord l).Perm l) (hord' : ∀ l, (ord' l).Perm l)
    {d y s : Node} (hc : net.g.Connected y d) (hyd : ¬ net.g.DescEq d y) (h : net.imputeCondExp pick ord d y = (net', .ok ()))
    (hU' : net'.Usable) (hs : s ∈ net.g.parents d) (hr0 : net.g.parents s = [])
    {a0 a1 : Outcome} (h0 : net'.IntOk [(s, a0)]) (h1 : net'.IntOk [(s, a1)]) {adapt : Bool} {r : Rat}
    (hr : (net'.introducedTotalEffect pick' ord' s d y a0 a1 adapt).2 = .ok r) : r = 0 := by
  have hps : ∀ p ∈ net.g.parents d, p ∈ net.g.nodes := fun p hp => (hU.good.wf.edgeNodes p d (Graph.mem_parents.1 hp)).1
  obtain ⟨_, hy, _⟩ := C88_imputed hU hord hc h
  refine C119_no_introduced_effect hU hord hord' hc hyd h hU' hs ordId_valid (fun _ => ?_) h0 h1 hr
  obtain ⟨v, e1, e2⟩ := (C11_is_active_backdoor_trail net.g hU.good.wf SetOrder.id ordId_valid s y ((net.g.parents d).erase s)).1 (by
    intro n hn
    simp only [List.mem_append, List.mem_cons, List.not_mem_nil, or_false] at hn
    rcases hn with hn | rfl | rfl
    · exact hps n (List.mem_of_mem_erase hn)
    · exact hps _ hs
    · exact hy)
  rw [e1]
  cases v with
  | false => rfl
  | true =>
    obtain ⟨n, r, _, q, _⟩ := e2.1 rfl
    have := Graph.mem_parents.2 q
    rw [hr0] at this
    simp at this

theorem Net.addCpds_add : ∀ {l l' : List (Node × Rel)} {net n1 : Net}, net.addCpds l = (n1, .ok ()) → net.addCpds (l ++ l') = n1.addCpds l'
  | [], _, net, n1, h => by
    simp only [Net.addCpds, Prod.mk.injEq, and_true] at h
    rw [h]
    rfl
  | (v, r) :: l, l', net, n1, h => by
    simp only [Net.addCpds, List.cons_append] at h ⊢
    generalize net.set v r = x at h
    obtain ⟨n, x⟩ := x
    cases x with
    | error e => simp at h
    | ok u => exact addCpds_add h

/-- what remains to be checked, by computation, if relations were replaced -/
def rebuildCheck (ad au : Dict Agent (List Node)) (m : Macid) (net : Net) : Bool :=
  decide (ad.keys.Nodup) && decide (au.keys.Nodup) && decide ((ad.flatMap (·.2) ++ au.flatMap (·.2)).Nodup) &&
  (ad.flatMap (·.2) ++ au.flatMap (·.2)).all (fun n => decide (n ∈ m.g.nodes)) &&
  m.g.nodes.all (fun n => decide (n ∈ net.rels.keys)) &&
  net.rels.all (fun r => match r.2 with | .tab _ => false | _ => true) &&
  m.g.nodes.all (fun v => ((net.cpds.get? v).map Cpd.table).all (fun t => t.all (fun col =>
        col.all (fun y => decide (0 ≤ y)) && decide (col.sum = 1)))) &&
  m.agentUtilities.keys.all (fun a => decide (a ∈ m.agentDecisions.keys)) &&
  m.agentDecisions.keys.all (fun a => decide (a ∈ m.agentUtilities.keys)) &&
  m.agentUtilities.keys.all (fun a => m.g.nodes.any (fun n => decide (m.role n = .decision a)) &&
    m.g.nodes.any (fun n => decide (m.role n = .utility a)))

/-- networks built by the constructor and `add_cpds`, with relations replaced, are usable -/
theorem usable_of_rebuild {edges : List (Node × Node)} {ad au : Dict Agent (List Node)} {m base : Macid} {rels : List (Node × Rel)} {net : Net}
    (hbase : base = Macid.new ∨ base = Macid.newCid) (hi : Macid.init edges ad au = .ok m)
    (ha : (Net.mk m [] [] [] base).addCpds rels = (net, .ok ()))
    (hh : ∀ p ∈ rels, Honest p.2) (hc : rebuildCheck ad au m net = true) :
    net.Usable ∧ net.m = m := by
  unfold rebuildCheck at hc
  simp only [Bool.and_eq_true, decide_eq_true_eq, List.all_eq_true, List.any_eq_true] at hc
  obtain ⟨⟨⟨⟨⟨⟨⟨⟨⟨c1, c2⟩, c3⟩, c4⟩, c5⟩, c7⟩, c8⟩, c9⟩, c10⟩, c11⟩ := hc
  have hcons := C15_constructor_consistent edges ad au m hi c1 c2 c3 c4
  have hruns := addCpds_runs ha
  have hm : net.m = m := (runs_m hruns).1
  have hb : net.base = base := (runs_m hruns).2
  have hG : net.Good := by
    refine good_of_runs (net := ⟨m, [], [], [], base⟩) hcons.wf ⟨rfl, rfl, rfl⟩ ?_ hruns ?_ ?_
    · intro op ho
      obtain ⟨p, hp, rfl⟩ := List.mem_map.1 ho
      exact hh p hp
    · exact fun v hv => c5 v hv
    · intro v c h
      exfalso
      have := c7 _ (Dict.mem_of_get? h)
      simp at this
  refine ⟨⟨hG, ?_, hm ▸ hcons, by rw [hb]; exact hbase, ⟨?_, ?_⟩⟩, hm⟩
  · apply normalised_of_tables hG
    intro v c hcv
    have hv := cpds_node hG hcv
    have := c8 v (by rw [← hm]; exact hv)
    rw [hcv] at this
    simp only [Option.map_some, Option.all_some, List.all_eq_true, Bool.and_eq_true, decide_eq_true_eq] at this
    exact this
  · rw [hm]
    exact fun a => ⟨c9 a, c10 a⟩
  · rw [hm]
    intro a haa
    obtain ⟨⟨x, _, hx⟩, y, _, hy⟩ := c11 a haa
    exact Or.inl ⟨⟨x, hx⟩, y, hy⟩

/-! ### examples -/

namespace ExFair

/-- The attribute `S` influences the label `Y`, of which `X` is a noisy sign; `D` predicts `Y` from `X` and, if `sees`, from `S`. -/
def edges (sees : Bool) : List (Node × Node) :=
  [("S", "Y"), ("Y", "X"), ("X", "D")] ++ (if sees then [("S", "D")] else []) ++ [("D", "U"), ("Y", "U")]
def m (sees : Bool) : Macid := ⟨⟨["S", "Y", "X", "D", "U"], edges sees⟩, [(0, ["D"])], [(0, ["U"])], [("D", 0)], [("U", 0)]⟩
def noisy (p : Node) : Func := fun pv =>
  .ok (.dist (if pv p = some 1 then [(0, some (1 / 4)), (1, some (3 / 4))] else [(0, some (3 / 4)), (1, some (1 / 4))]))
def loss : Func := fun pv => .ok (.val (-(((pv "Y").getD 0 - (pv "D").getD 0) ^ 2)))
def rels : List (Node × Rel) := [("S", .dist [(0, some (1 / 2)), (1, some (1 / 2))]), ("Y", .func (noisy "S")), ("X", .func (noisy "Y")),
  ("D", .seq [0, 1]), ("U", .func loss)]
def net (sees : Bool) : Net := ((Net.mk (m sees) [] [] [] Macid.new).addCpds rels).1
def out (sees : Bool) : Net := ((net sees).imputeCondExp (fun _ => 0) id "D" "Y").1

theorem honest : ∀ p ∈ rels, Honest p.2 := by
  intro p hp
  simp only [rels, List.mem_cons, List.not_mem_nil, or_false] at hp
  rcases hp with rfl | rfl | rfl | rfl | rfl
  · trivial
  · intro pv; simp [noisy]
  · intro pv; simp [noisy]
  · trivial
  · intro pv; simp [loss]

theorem usable (sees : Bool) : (net sees).Usable ∧ (net sees).m = m sees := by
  refine usable_of_build (edges := edges sees) (ad := [(0, ["D"])]) (au := [(0, ["U"])]) (rels := rels) ?_ ?_ honest ?_
  · cases sees <;> decide +kernel
  · rw [← show ((Net.mk (m sees) [] [] [] Macid.new).addCpds rels).2 = .ok () by cases sees <;> decide +kernel]; rfl
  · cases sees <;> decide +kernel

/-- the relation `impute_conditional_expectation_decision` assigns to `D` -/
def pred (sees : Bool) : Rel :=
  match (net sees).copy with
  | .error _ => .seq []
  | .ok c =>
    match parentDoms ((net sees).g.parents "D") (net sees).domain with
    | .error _ => .func (condFunc (fun _ => 0) id "Y" ((net sees).g.parents "D") c [])
    | .ok ds =>
      match condTable (fun _ => 0) id "Y" ((net sees).g.parents "D") c (product ds) with
      | (c, t) => .func (condFunc (fun _ => 0) id "Y" ((net sees).g.parents "D") c t)

theorem imputed (sees : Bool) : (net sees).imputeCondExp (fun _ => 0) id "D" "Y" = (out sees, .ok ()) := by
  rw [← show ((net sees).imputeCondExp (fun _ => 0) id "D" "Y").2 = .ok () by cases sees <;> decide +kernel]
  rfl

theorem out_eq (sees : Bool) : (net sees).set "D" (pred sees) = (out sees, .ok ()) := by
  rw [← imputed sees]
  unfold imputeCondExp pred
  obtain ⟨c, hc, _⟩ := (usable sees).1.copy
  rw [hc]
  simp only
  cases parentDoms ((net sees).g.parents "D") (net sees).domain <;> rfl

theorem built (sees : Bool) : (Net.mk (m sees) [] [] [] Macid.new).addCpds (rels ++ [("D", pred sees)]) = (out sees, .ok ()) := by
  have h0 : (Net.mk (m sees) [] [] [] Macid.new).addCpds rels = (net sees, .ok ()) := by
    rw [← show ((Net.mk (m sees) [] [] [] Macid.new).addCpds rels).2 = .ok () by cases sees <;> decide +kernel]; rfl
  rw [addCpds_add h0]
  simp only [addCpds, out_eq sees]

theorem out_usable (sees : Bool) : (out sees).Usable := by
  refine (usable_of_rebuild (edges := edges sees) (ad := [(0, ["D"])]) (au := [(0, ["U"])]) (rels := rels ++ [("D", pred sees)]) (.inl rfl) ?_
    (built sees) ?_ ?_).1
  · cases sees <;> decide +kernel
  · intro p hp
    rcases List.mem_append.1 hp with hp | hp
    · exact honest p hp
    · rw [List.mem_singleton.1 hp]
      unfold pred
      obtain ⟨c, hc, _⟩ := (usable sees).1.copy
      rw [hc]
      simp only
      split
      · exact condFunc_honest _ _ _ _ _ _
      · exact condFunc_honest _ _ _ _ _ _
  · cases sees <;> decide +kernel

end ExFair

/-- Seen: the effect of the attribute on prediction and label is 1/2 each.  Hidden: the predictor, which does as well as it can, introduces an
effect of -3/8. -/
theorem C119_example : (ExFair.net true).Usable ∧ (ExFair.net true).g.Connected "Y" "D" ∧ ¬ (ExFair.net true).g.DescEq "D" "Y" ∧
    (ExFair.net true).imputeCondExp (fun _ => 0) id "D" "Y" = (ExFair.out true, .ok ()) ∧ (ExFair.out true).Usable ∧
    "S" ∈ (ExFair.net true).g.parents "D" ∧ (ExFair.net true).g.parents "S" = [] ∧
    (ExFair.out true).IntOk [("S", 0)] ∧ (ExFair.out true).IntOk [("S", 1)] ∧
    ((ExFair.out true).totalEffect (fun _ => 0) id "S" "D" 0 1).2 = .ok (1 / 2) ∧
    ((ExFair.out true).introducedTotalEffect (fun _ => 0) id "S" "D" "Y" 0 1 true).2 = .ok 0 ∧
    (ExFair.net false).imputeCondExp (fun _ => 0) id "D" "Y" = (ExFair.out false, .ok ()) ∧
    ((ExFair.out false).introducedTotalEffect (fun _ => 0) id "S" "D" "Y" 0 1 true).2 = .ok (-3 / 8) := by
  have hg : (ExFair.net true).g = (ExFair.m true).g := by show (ExFair.net true).m.g = _; rw [(ExFair.usable true).2]
  have hint : ∀ v ∈ [(0 : Rat), 1], (ExFair.out true).IntOk [("S", v)] := by
    intro v hv
    refine ⟨by simp, fun p hp => ?_⟩
    rw [List.mem_singleton.1 hp]
    refine ⟨(by decide +kernel : "S" ∈ (ExFair.out true).g.nodes), ?_, Or.inl ?_⟩
    · show v ∈ (ExFair.out true).dom "S"
      have : (ExFair.out true).dom "S" = [0, 1] := by decide +kernel
      rw [this]
      exact hv
    · have : (ExFair.out true).dom "S" = [0, 1] := by decide +kernel
      show ((ExFair.out true).dom "S").Pairwise (· ≤ ·)
      rw [this]
      decide
  refine ⟨(ExFair.usable true).1, ?_, ?_, ExFair.imputed true, ExFair.out_usable true, ?_, ?_, hint 0 (by simp), hint 1 (by simp),
    by decide +kernel, by decide +kernel, ExFair.imputed false, by decide +kernel⟩
  · rw [hg]
    exact .tail (.single (b := "X") (Or.inl (by decide))) (Or.inl (by decide))
  · rw [hg]
    intro q
    rcases ReflTransGen.cases_tail q with q | ⟨w, q1, q⟩
    · simp at q
    · have : ∀ w ∈ (ExFair.m true).g.nodes, (w, "Y") ∈ (ExFair.m true).g.edges → w = "S" := by decide
      have hw := this w (hg ▸ ((ExFair.usable true).1.good.wf.edgeNodes w "Y" (by rw [hg]; exact q)).1) q
      subst hw
      rcases ReflTransGen.cases_tail q1 with q1 | ⟨w, _, q1⟩
      · simp at q1
      · have : ∀ w ∈ (ExFair.m true).g.nodes, (w, "S") ∉ (ExFair.m true).g.edges := by decide
        exact absurd q1 (this w (hg ▸ ((ExFair.usable true).1.good.wf.edgeNodes w "S" (by rw [hg]; exact q1)).1))
  · rw [hg]; decide
  · rw [hg]; decide

end Verif

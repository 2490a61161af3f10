import Verif.Lemmas.CondExp
import Verif.Lemmas.Support
import Verif.Props.Witness

/-!
# Imputing a conditional expectation, C88
-/

namespace Verif

open Graph Relation Macid Net

namespace Net

/-- what is known about `y` from the parents of `d`: its value if it is among them, else its expectation given their values in `a` -/
def guess (net : Net) (d y : Node) (a : Assign) : Rat :=
  if y ∈ net.g.parents d then a y else net.Mean [] ((net.g.parents d).map (fun p => (p, a p))) y

/-- the mean squared error of `f` as an estimate of `y` -/
def sqErr (net : Net) (y : Node) (f : Assign → Rat) : Rat :=
  sumOver net.dom net.g.nodes (fun a => (net.g.nodes.map (fun v => net.kernel v a)).prod * (a y - f a) ^ 2) (fun _ => 0)

theorem sqErr_eq (net : Net) (y : Node) (f : Assign → Rat) : net.sqErr y f = net.bn.W (fun a => (a y - f a) ^ 2) := rfl

theorem zip_map_self (l : List Node) (a : Assign) : l.zip (l.map a) = l.map (fun p => (p, a p)) := by
  induction l with
  | nil => rfl
  | cons x l ih => simp [ih]

theorem guess_depends (net : Net) (d y : Node) : DependsOn (net.guess d y) (· ∈ net.g.parents d) := by
  intro a b hab
  unfold guess
  split
  · exact hab y ‹_›
  · rw [List.map_congr_left (fun p hp => by rw [hab p hp])]

theorem cross_zero {net : Net} (hG : net.Good) (hN : net.Normalised) {d y : Node} (hy : y ∈ net.g.nodes) {f : Assign → Rat}
    (hf : DependsOn f (· ∈ net.g.parents d)) : net.bn.W (fun a => f a * (a y - net.guess d y a)) = 0 := by
  classical
  by_cases hyp : y ∈ net.g.parents d
  · have : (fun a => f a * (a y - net.guess d y a)) = fun _ : Assign => (0 : Rat) * 1 := by
      funext a
      simp [guess, hyp]
    rw [this, BN.W_mul_const, zero_mul]
  let ps := net.g.parents d
  have hn : ps.Nodup := Graph.nodup_parents hG.wf.edgesNodup d
  have hps : ∀ p ∈ ps, p ∈ net.g.nodes := fun p hp => (hG.wf.edgeNodes p d (Graph.mem_parents.1 hp)).1
  let z : List Outcome → Assign := fun xs v => (Dict.get? (ps.zip xs) v).getD 0
  have hz : ∀ a : Assign, ∀ p ∈ ps, z (ps.map a) p = a p := fun a p hp => by
    simp only [z]
    rw [get?_zip_map hp]
    rfl
  have key := W_product net.bn net.dom (fun _ _ => .refl _) (fun v hv => (dom_props hG hv).1) hps
    (fun a => a y - net.guess d y a) (fun xs => f (z xs))
  have e1 : net.bn.W (fun a => f (z (ps.map a)) * (a y - net.guess d y a)) = net.bn.W (fun a => f a * (a y - net.guess d y a)) :=
    BN.W_congr (fun a _ => by rw [hf (z (ps.map a)) a (hz a)])
  rw [← e1, ← key]
  apply List.sum_eq_zero
  intro q hq
  obtain ⟨xs, hxs, rfl⟩ := List.mem_map.1 hq
  have hlen : xs.length = ps.length := by
    have := (mem_product.1 hxs).length_eq
    simpa using this
  -- the values of the parents
  have hzx : ps.map (z xs) = xs := by
    apply List.ext_getElem
    · simpa using hlen.symm
    · intro i h1 h2
      simp only [List.getElem_map, z]
      rw [get?_zip hn (by simpa using h1) h2]
      rfl
  have hctx : ∀ a, (Ctx (ps.map (fun p => (p, z xs p))) a = true) ↔ ps.map a = xs := by
    intro a
    rw [← zip_map_self, ctx_zip (by simp), hzx]
    simp [Has]
  have hg : ∀ a : Assign, ps.map a = xs → net.guess d y a = net.guess d y (z xs) := by
    intro a ha
    refine guess_depends net d y _ _ (fun p hp => ?_)
    rw [← ha]
    exact (hz a p hp).symm
  suffices h : net.bn.W (fun a => if ps.map a = xs then a y - net.guess d y a else 0) = 0 by
    have h' : net.bn.W (fun a => if (net.g.parents d).map a = xs then a y - net.guess d y a else 0) = 0 := h
    rw [h', mul_zero]
  have e2 : net.bn.W (fun a => if ps.map a = xs then a y - net.guess d y a else 0) =
      net.bn.W (fun a => a y * if Ctx (ps.map (fun p => (p, z xs p))) a = true then 1 else 0) -
        net.guess d y (z xs) * net.P (Ctx (ps.map (fun p => (p, z xs p)))) := by
    rw [P_eq_W, sub_eq_add_neg, ← neg_mul, ← BN.W_mul_const, ← BN.W_add]
    refine BN.W_congr (fun a _ => ?_)
    by_cases ha : ps.map a = xs
    · rw [if_pos ha, if_pos ((hctx a).2 ha), hg a ha]
      ring
    · rw [if_neg ha, if_neg (fun h => ha ((hctx a).1 h))]
      ring
  rw [e2]
  by_cases hP : net.P (Ctx (ps.map (fun p => (p, z xs p)))) = 0
  · rw [hP, mul_zero, sub_zero]
    refine BN.W_impossible (bn_prob hG hN) (fun a ha => ?_)
    by_cases hc : Ctx (ps.map (fun p => (p, z xs p))) a = true
    · exfalso
      rw [P_eq_W] at hP
      refine absurd hP (ne_of_gt (BN.W_pos (bn_prob hG hN) (fun a _ => by split <;> norm_num) ?_ ha (by simp [hc])))
      intro b c hbc
      have : ps.map b = ps.map c := List.map_congr_left (fun p hp => hbc p (hps p hp))
      simp only [hctx, this]
    · simp [hc]
  · have : net.guess d y (z xs) = net.bn.W (fun a => a y * if Ctx (ps.map (fun p => (p, z xs p))) a = true then 1 else 0) /
        net.P (Ctx (ps.map (fun p => (p, z xs p)))) := by
      rw [guess, if_neg hyp, Mean_eq hG (by simp) hy]
      unfold EW
      rw [doBN_nil, PDo_nil]
    rw [this, div_mul_cancel₀ _ hP, sub_self]

end Net

/-- **C88** the estimate is the best one: every other function of the parents of `d` has a larger mean squared error, by the mean
squared distance. -/
theorem C88_least_squares {net : Net} (hG : net.Good) (hN : net.Normalised) {d y : Node} (hy : y ∈ net.g.nodes) {f : Assign → Rat}
    (hf : DependsOn f (· ∈ net.g.parents d)) : net.sqErr y (net.guess d y) ≤ net.sqErr y f := by
  have h := cross_zero hG hN (d := d) hy (f := fun a => net.guess d y a - f a)
    (fun a b hab => by simp only [guess_depends net d y a b hab, hf a b hab])
  have e : net.sqErr y f = net.sqErr y (net.guess d y) + net.bn.W (fun a => (net.guess d y a - f a) ^ 2) := by
    rw [sqErr_eq, sqErr_eq]
    have h2 : net.bn.W (fun a => 2 * ((net.guess d y a - f a) * (a y - net.guess d y a))) = 0 := by
      rw [BN.W_mul_const, h, mul_zero]
    rw [← BN.W_add, ← add_zero (net.bn.W (fun a => (a y - net.guess d y a) ^ 2 + _)), ← h2, ← BN.W_add]
    refine BN.W_congr (fun a _ => ?_)
    ring
  rw [e]
  have := BN.W_nonneg (bn_prob hG hN) (f := fun a => (net.guess d y a - f a) ^ 2) (fun a _ => by positivity)
  linarith

/-- **C88** when `impute_conditional_expectation_decision(d, y)` succeeds and `y` is connected to `d`: every context of `d` has positive
probability (unless `y` is observed), the new rule of `d` chooses `guess` with certainty, the new domain of `d` consists of exactly
these values, and nothing changes but `d` and what is computed from it. -/
theorem C88_imputed {net net' : Net} (hU : net.Usable) {pick : Pick} {ord : List Node → List Node} (hord : ∀ l, (ord l).Perm l)
    {d y : Node} (hc : net.g.Connected y d) (h : net.imputeCondExp pick ord d y = (net', .ok ())) :
    d ∈ net.g.nodes ∧ y ∈ net.g.nodes ∧ net'.m = net.m ∧
    (∀ w, w ≠ d → net'.rels.get? w = net.rels.get? w) ∧
    (∀ w, ¬ net.g.DescEq d w → net'.dom w = net.dom w ∧ ∀ a, net.InDom a → net'.kernel w a = net.kernel w a) ∧
    (∀ x, x ∈ net'.dom d ↔ ∃ a, net.InDom a ∧ x = net.guess d y a) ∧
    (∀ a, net.InDom a → y ∉ net.g.parents d → net.P (Ctx ((net.g.parents d).map (fun p => (p, a p)))) ≠ 0) ∧
    (∀ a, (∀ p ∈ net.g.parents d, a p ∈ net.dom p) → a d ∈ net'.dom d →
      net'.kernel d a = if a d = net.guess d y a then 1 else 0) := by
  obtain ⟨c, hcopy, hcU, hEq, _, _, _⟩ := hU.copy
  have hG := hU.good
  -- the function
  obtain ⟨cs, hset⟩ : ∃ cs, net.set d (.func (condFunc pick ord y (net.g.parents d)
      (condTable pick ord y (net.g.parents d) c cs).1 (condTable pick ord y (net.g.parents d) c cs).2)) = (net', .ok ()) := by
    unfold imputeCondExp at h
    rw [hcopy] at h
    simp only at h
    generalize parentDoms (net.g.parents d) net.domain = r at h
    cases r with
    | error e => exact ⟨[], h⟩
    | ok ds => exact ⟨product ds, h⟩
  generalize hf : condFunc pick ord y (net.g.parents d)
      (condTable pick ord y (net.g.parents d) c cs).1 (condTable pick ord y (net.g.parents d) c cs).2 = f at hset
  have hhon : Honest (.func f) := by rw [← hf]; exact condFunc_honest _ _ _ _ _ _
  have hready : (stage net d (.func f)).toCpd d (.func f) ≠ .error .parentsNotReady := by
    intro hn
    obtain ⟨_, p, hp, hpd⟩ := toCpd_notReady hhon hn
    obtain ⟨pc, _, h2⟩ := hG.complete p (hG.wf.edgeNodes p d hp).1
    have h2' : (stage net d (.func f)).domain.get? p = some pc.domain := h2
    rw [h2'] at hpd
    simp at hpd
  obtain ⟨cpd, h1, hvar, hcp, hdm⟩ := setItem_own hG.wf hset hready
  have hd : d ∈ net.g.nodes := by
    by_contra hn
    have : (stage net d (.func f)).toCpd d (.func f) = .error .nx := by
      simp only [toCpd]
      rw [if_neg]
      exact hn
    rw [this] at h1
    simp at h1
  have hmk : mkCpd .stochastic d f none (net.g.parents d) net.domain (stage net d (.func f)).card = .ok cpd := by
    simp only [toCpd] at h1
    rw [if_pos (show d ∈ (stage net d (.func f)).g.nodes from hd)] at h1
    exact h1
  have hps : ∀ p ∈ net.g.parents d, p ∈ net.g.nodes := fun p hp => (hG.wf.edgeNodes p d (Graph.mem_parents.1 hp)).1
  have hpn : (net.g.parents d).Nodup := Graph.nodup_parents hG.wf.edgesNodup d
  have hframe : ∀ w, ¬ net.g.DescEq d w → SameAt net net' w := fun w hw => setItem_frame _ rfl hset w hw
  have hy : y ∈ net.g.nodes := by
    rcases Relation.ReflTransGen.cases_head hc with rfl | ⟨w, hw, _⟩
    · exact hd
    · rcases hw with hw | hw
      · exact (hG.wf.edgeNodes _ _ hw).1
      · exact (hG.wf.edgeNodes _ _ hw).2
  have hconn : ∀ u v, net.g.Connected u v → c.g.Connected u v := by
    intro u v huv
    refine Relation.ReflTransGen.mono (fun a b hab => ?_) _ _ huv
    rcases hab with hab | hab
    · exact Or.inl ((hEq.edges _ _).2 hab)
    · exact Or.inr ((hEq.edges _ _).2 hab)
  have hkeep : ∀ p ∈ net.g.parents d, p ∈ keepOf c [y] := by
    intro p hp
    refine (mem_keepOf hcU.good.wf).2 ⟨y, by simp, hconn _ _ (hc.tail (Or.inr (Graph.mem_parents.1 hp)))⟩
  have hP : ∀ E, c.P E = net.P E := P_equiv hEq.nodes (fun v hv => by rw [hEq.dom hv]) hEq.kernel
  -- what the function returns
  have hret : ∀ a : Assign, ∀ ret, f (pvOf (net.g.parents d) ((net.g.parents d).map a)) = .ok ret → ret = .val (net.guess d y a) ∧
      (y ∉ net.g.parents d → net.P (Ctx ((net.g.parents d).map (fun p => (p, a p)))) ≠ 0) := by
    intro a ret hr
    rw [← hf] at hr
    obtain ⟨x, rfl, k1, k2⟩ := condFunc_spec hcU.good hcU.normalised hord hpn hkeep cs (by simp) hr
    by_cases hyp : y ∈ net.g.parents d
    · refine ⟨?_, fun h => absurd hyp h⟩
      rw [k1 hyp, guess, if_pos hyp]
      unfold pvOf
      rw [get?_zip_map hyp]
      rfl
    · obtain ⟨_, q2, q3⟩ := k2 hyp
      rw [zip_map_self] at q2 q3
      rw [hP] at q2
      refine ⟨?_, fun _ => q2⟩
      rw [q3, guess, if_neg hyp, mean_equiv hEq _ hy]
  have hdict : DictOk f := by
    intro pv dd hdd
    rw [← hf] at hdd
    unfold condFunc at hdd
    simp only at hdd
    split at hdd
    · simp at hdd
    · split at hdd <;> simp at hdd
  have hval : ∀ a : Assign, Instantiation (net.g.parents d) net.domain ((net.g.parents d).map a) →
      ∃ dd, Returns f (pvOf (net.g.parents d) ((net.g.parents d).map a)) dd ∧ dd = [(net.guess d y a, some 1)] ∧
        (y ∉ net.g.parents d → net.P (Ctx ((net.g.parents d).map (fun p => (p, a p)))) ≠ 0) := by
    intro a ha
    obtain ⟨dd, hr, _, _⟩ := mkCpd_entry hmk hdict ha
    refine ⟨dd, hr, ?_⟩
    rcases hr with hr | ⟨o, hr, e⟩
    · exact absurd (hret a _ hr).1 (by simp)
    · obtain ⟨e1, e2⟩ := hret a _ hr
      cases e1
      exact ⟨e, e2⟩
  have hdom : net'.dom d = cpd.domain := dom_eq hdm
  have hinD : ∀ a : Assign, (∀ p ∈ net.g.parents d, a p ∈ net.dom p) →
      Instantiation (net.g.parents d) net.domain ((net.g.parents d).map a) := by
    intro a ha
    refine inst_of_inDoms (fun p hp => ?_)
    obtain ⟨pc, _, h2⟩ := hG.complete p (hps p hp)
    exact ⟨pc.domain, h2, by rw [← dom_eq h2]; exact ha p hp⟩
  refine ⟨hd, hy, ?_, ?_, ?_, ?_, ?_, ?_⟩
  · have := (set_m net d (.func f)).1
    rw [hset] at this
    exact this
  · intro w hw
    have := set_rels net d (.func f) w
    rw [hset, if_neg hw] at this
    exact this
  · intro w hw
    obtain ⟨s1, s2⟩ := hframe w hw
    refine ⟨by unfold Net.dom; rw [s2], fun a _ => ?_⟩
    unfold kernel
    rw [s1]
    cases hcw : net.cpds.get? w with
    | none => rfl
    | some cw =>
      simp only
      unfold Cpd.prob
      rw [List.map_congr_left (fun p hp => ?_)]
      have := (hframe p (fun q => hw (q.tail (((hG.fits w cw hcw).parents p).1 hp)))).2
      rw [this]
  · intro x
    rw [hdom, (C25_inferred_domain hmk (Or.inl rfl)).2 x]
    constructor
    · rintro ⟨vals, dd, hi, hr, hx⟩
      obtain ⟨a, rfl, ha⟩ := exists_assign hpn hi
      obtain ⟨b, hb1, hb2⟩ := exists_inDom hG a (· ∈ net.g.parents d) (fun u hu _ => by
        obtain ⟨du, h1, h2⟩ := ha u hu
        rw [dom_eq h1]
        exact h2)
      refine ⟨b, hb1, ?_⟩
      obtain ⟨dd', hr', e, _⟩ := hval a hi
      rw [hr.unique hr', e] at hx
      rw [guess_depends net d y b a hb2]
      simpa [Dict.keys] using hx
    · rintro ⟨a, ha, rfl⟩
      have hi := hinD a (fun p hp => ha p (hps p hp))
      obtain ⟨dd, hr, e, _⟩ := hval a hi
      exact ⟨_, dd, hi, hr, by simp [e, Dict.keys]⟩
  · intro a ha
    obtain ⟨_, _, _, e⟩ := hval a (hinD a (fun p hp => ha p (hps p hp)))
    exact e
  · intro a ha hx
    have hi := hinD a ha
    obtain ⟨dd, hr, e, _⟩ := hval a hi
    rw [hdom] at hx
    have hdomP : ∀ p ∈ net.g.parents d, net'.domain.get? p = net.domain.get? p := fun p hp =>
      (hframe p (fun q => hG.wf.acyclic d (TransGen.tail' q (Graph.mem_parents.1 hp)))).2
    have hk : net'.kernel d a = (cpd.prob net.domain ((net.g.parents d).map a) (a d)).getD 0 := by
      unfold kernel
      rw [hcp]
      simp only
      rw [(mkCpd_fields hmk).2.1]
      unfold Cpd.prob
      rw [List.map_congr_left (fun p hp => by rw [hdomP p (by rw [(mkCpd_fields hmk).2.1] at hp; exact hp)])]
    rw [hk]
    obtain ⟨m1, m2⟩ := C24_missing_mass_even hmk hdict hi hr
    subst e
    by_cases hxa : a d = net.guess d y a
    · rw [if_pos hxa, m1 _ hx 1 (by simp [given, Dict.get?, hxa])]
      rfl
    · rw [if_neg hxa, m2 _ hx (by simp [given, Dict.get?, Ne.symm hxa])]
      simp [givenMass]

/-- **C88** if `y` does not depend on `d`, the mean squared difference between `y` and the imputed decision is the least one any function of
the observations achieves. -/
theorem C88_decision_error {net net' : Net} (hU : net.Usable) {pick : Pick} {ord : List Node → List Node} (hord : ∀ l, (ord l).Perm l)
    {d y : Node} (hc : net.g.Connected y d) (hyd : ¬ net.g.DescEq d y) (h : net.imputeCondExp pick ord d y = (net', .ok ()))
    (hG' : net'.Good) (hN' : net'.Normalised) :
    net'.sqErr y (fun a => a d) = net.sqErr y (net.guess d y) ∧
    ∀ f, DependsOn f (· ∈ net.g.parents d) → net'.sqErr y (fun a => a d) ≤ net.sqErr y f := by
  obtain ⟨hd, hy, hm, _, hfr, hdm, _, hk⟩ := C88_imputed hU hord hc h
  have hG := hU.good
  have hg : net'.g = net.g := by show net'.m.g = net.m.g; rw [hm]
  suffices e : net'.sqErr y (fun a => a d) = net.sqErr y (net.guess d y) from
    ⟨e, fun f hf => e ▸ C88_least_squares hG hU.normalised hy hf⟩
  have hpar : ∀ p ∈ net.g.parents d, ¬ net.g.DescEq d p := fun p hp q =>
    hG.wf.acyclic d (TransGen.tail' q (Graph.mem_parents.1 hp))
  have hps : ∀ p ∈ net.g.parents d, p ∈ net.g.nodes := fun p hp => (hG.wf.edgeNodes p d (Graph.mem_parents.1 hp)).1
  have hB' := bn_prob hG' hN'
  have hB := bn_prob hG hU.normalised
  have e1 : net'.sqErr y (fun a => a d) = net'.bn.W (fun a => (a y - net.guess d y a) ^ 2) := by
    rw [sqErr_eq]
    refine BN.W_possible hB' (fun a ha => ?_)
    have hin : ∀ v ∈ net.g.nodes, a v ∈ net'.dom v := fun v hv => ha.1 v (by show v ∈ net'.g.nodes; rw [hg]; exact hv)
    have hkd : 0 < net'.kernel d a := ha.2 d (by show d ∈ net'.g.nodes; rw [hg]; exact hd)
    rw [hk a (fun p hp => by rw [← (hfr p (hpar p hp)).1]; exact hin p (hps p hp)) (hin d hd)] at hkd
    by_cases q : a d = net.guess d y a
    · rw [q]
    · simp [q] at hkd
  rw [e1, sqErr_eq]
  have hdep : DependsOn (fun a => (a y - net.guess d y a) ^ 2) (· ∈ BN.nondesc net.g d) := by
    intro a b hab
    simp only
    rw [hab y (BN.mem_nondesc.2 ⟨hy, hyd⟩), guess_depends net d y a b (fun p hp => hab p (BN.mem_nondesc.2 ⟨hps p hp, hpar p hp⟩))]
  have hUn : (BN.nondesc net.g d).Nodup := by unfold BN.nondesc; exact hG.wf.nodesNodup.filter _
  have hsub : ∀ v ∈ BN.nondesc net.g d, v ∈ net.g.nodes := fun v hv => (BN.mem_nondesc.1 hv).1
  have hanc : ∀ u v, net.g.Edge u v → v ∈ BN.nondesc net.g d → u ∈ BN.nondesc net.g d := by
    intro u v huv hv
    exact BN.mem_nondesc.2 ⟨(hG.wf.edgeNodes u v huv).1, fun h => (BN.mem_nondesc.1 hv).2 (h.tail huv)⟩
  rw [BN.W_ancestral hB hUn hsub hanc hdep (fun _ => 0), BN.W_ancestral hB' (U := BN.nondesc net.g d) hUn
    (fun v hv => by show v ∈ net'.g.nodes; rw [hg]; exact hsub v hv)
    (fun u v huv hv => hanc u v (by have : net'.g.Edge u v := huv; rwa [hg] at this) hv) hdep (fun _ => 0)]
  show sumOver net'.dom _ _ _ = sumOver net.dom _ _ _
  rw [sumOver_dom_perm (dom := net'.dom) (dom' := net.dom) (fun v hv => by rw [(hfr v (BN.mem_nondesc.1 hv).2).1])]
  apply sumOver_congr
  intro b hb _
  congr 1
  unfold BN.prod
  congr 1
  apply List.map_congr_left
  intro v hv
  obtain ⟨b', hb1, hb2⟩ := exists_inDom hG b (· ∈ BN.nondesc net.g d) (fun u hu _ => hb u hu)
  have hv' := BN.mem_nondesc.1 hv
  have q1 := kernel_depends hG hv'.1 b' b (fun u hu => hb2 u (by
    rcases hu with rfl | hu
    · exact hv
    · exact hanc u v hu hv))
  have q2 := kernel_depends hG' (v := v) (by rw [hg]; exact hv'.1) b' b (fun u hu => hb2 u (by
    rcases hu with rfl | hu
    · exact hv
    · rw [hg] at hu; exact hanc u v hu hv))
  show net'.kernel v b = net.kernel v b
  rw [← q1, ← q2]
  exact (hfr v hv'.2).2 b' hb1

/-! ### examples -/

namespace ExE

/-- `X` is hidden behind `S`, `D` observes `S`; `Z` is on its own -/
def edges : List (Node × Node) := [("X", "S"), ("S", "D"), ("D", "U"), ("X", "U"), ("Z", "V")]
def m : Macid := ⟨⟨["X", "S", "D", "U", "Z", "V"], edges⟩, [(0, ["D"])], [(0, ["U"])], [("D", 0)], [("U", 0)]⟩
def noisy : Func := fun pv => .ok (.dist (if pv "X" = some 1 then [(0, some (1 / 4)), (1, some (3 / 4))] else [(0, some (3 / 4)), (1, some (1 / 4))]))
def loss : Func := fun pv => .ok (.val (-(((pv "X").getD 0 - (pv "D").getD 0) ^ 2)))
def rels : List (Node × Rel) := [("X", .dist [(0, some (1 / 2)), (1, some (1 / 2))]), ("S", .func noisy), ("D", .seq [0, 1]), ("U", .func loss),
  ("Z", .dist [(0, some (1 / 2)), (1, some (1 / 2))]), ("V", .dist [(0, some 1)])]
def net : Net := ((Net.mk m [] [] [] Macid.new).addCpds rels).1

theorem usable : net.Usable ∧ net.m = m :=
  usable_of_build (edges := edges) (ad := [(0, ["D"])]) (au := [(0, ["U"])]) (rels := rels) (by decide +kernel)
    (by rw [← show ((Net.mk m [] [] [] Macid.new).addCpds rels).2 = .ok () by decide +kernel]; rfl) (by
      intro p hp
      simp only [rels, List.mem_cons, List.not_mem_nil, or_false] at hp
      rcases hp with rfl | rfl | rfl | rfl | rfl | rfl
      · trivial
      · intro pv; simp [noisy]
      · trivial
      · intro pv; simp [loss]
      · trivial
      · trivial) (by decide +kernel)

end ExE

/-- the expectation of `X` is 1/4 or 3/4, depending on what is observed -/
theorem C88_example : ExE.net.Usable ∧ ExE.net.g.Connected "X" "D" ∧ ¬ ExE.net.g.DescEq "D" "X" ∧
    ∃ net', ExE.net.imputeCondExp (fun _ => 0) id "D" "X" = (net', .ok ()) ∧ net'.dom "D" = [1 / 4, 3 / 4] := by
  have hg : ExE.net.g = ExE.m.g := by show ExE.net.m.g = _; rw [ExE.usable.2]
  refine ⟨ExE.usable.1, ?_, ?_, (ExE.net.imputeCondExp (fun _ => 0) id "D" "X").1, ?_, by decide +kernel⟩
  · rw [hg]
    exact .tail (.single (b := "S") (Or.inl (by decide))) (Or.inl (by decide))
  · rw [hg]
    intro q
    rcases ReflTransGen.cases_tail q with q | ⟨w, _, q⟩
    · simp at q
    · have : ∀ w ∈ ExE.m.g.nodes, (w, "X") ∉ ExE.m.g.edges := by decide
      exact absurd q (this w (hg ▸ (ExE.usable.1.good.wf.edgeNodes w "X" (by rw [hg]; exact q)).1))
  · rw [← show (ExE.net.imputeCondExp (fun _ => 0) id "D" "X").2 = .ok () by decide +kernel]

/-- **C88** the assumption on `y` is needed: the expectation of a variable in another component is asked of a copy from which `D`'s
observations were removed by the first question, so the second one raises ValueError - although the expectation exists. -/
theorem C88_unconnected_raises : ExE.net.Usable ∧ "Z" ∈ ExE.net.g.nodes ∧ ExE.net.Mean [] [("S", 1)] "Z" = 1 / 2 ∧
    (ExE.net.imputeCondExp (fun _ => 0) id "D" "Z").2 = .error .value :=
  ⟨ExE.usable.1, by decide +kernel, by decide +kernel, by decide +kernel⟩

end Verif

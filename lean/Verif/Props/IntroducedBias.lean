import Verif.Props.SimpleCids
import Verif.Props.Fair

/-!
# C128: the example of introduced bias
-/

namespace Verif
open Net Graph Relation Macid

/-- the diagram -/
def biasM : Macid :=
  match Macid.init biasEdges [(0, ["D"])] [(0, ["U"])] with
  | .ok m => m
  | .error _ => ⟨Graph.empty, [], [], [], []⟩

theorem biasM_init : Macid.init biasEdges [(0, ["D"])] [(0, ["U"])] = .ok biasM := by decide +kernel

/-- the nodes with their parents -/
def biasP : List (Node × List Node) := [("A", []), ("Z", []), ("X", ["A", "Z"]), ("D", ["X"]), ("Y", ["Z", "X"]), ("U", ["D", "Y"])]

theorem biasM_facts : biasM.Consistent ∧ staffedB biasM = true ∧ (∀ r ∈ biasP, r.1 ∈ biasM.g.nodes ∧ biasM.g.parents r.1 = r.2) ∧
    biasM.decisions = ["D"] ∧ biasM.agentUtilities.get? 0 = some ["U"] := by
  refine ⟨C15_constructor_consistent _ _ _ _ biasM_init (by decide +kernel) (by decide +kernel) (by decide +kernel) (by decide +kernel), ?_⟩
  decide +kernel

/-- the network is the example, whatever the decision does -/
structure Biased (net : Net) : Prop where
  usable : net.Usable
  m : net.m = biasM
  dom : ∀ d ∈ ["A", "Z", "X"], net.dom d = [0, 1]
  coin : ∀ v ∈ ["A", "Z"], ∀ a, net.InDom a → net.kernel v a = 1 / 2
  prod : ∀ a, net.InDom a → net.kernel "X" a = if a "X" = a "A" * a "Z" then 1 else 0
  sum : ∀ a, net.InDom a → net.kernel "Y" a = if a "Y" = a "X" + a "Z" then 1 else 0

/-- the value the decision takes on average after observing `x` -/
def Net.predicted (net : Net) (x : Outcome) : Rat := ((net.dom "D").map (fun e => net.answers "X" "D" x e * e)).sum

namespace Biased

variable {net : Net}

theorem parents (h : Biased net) : ∀ r ∈ biasP, r.1 ∈ net.g.nodes ∧ ∀ u, net.g.Edge u r.1 ↔ u ∈ r.2 := by
  intro r hr
  obtain ⟨a, b⟩ := biasM_facts.2.2.1 r hr
  unfold Net.g
  rw [h.m]
  exact ⟨a, fun u => by rw [← Graph.mem_parents, b]⟩

theorem rule (h : Biased net) (a : Assign) : net.kernel "D" a = net.answers "X" "D" (a "X") (a "D") := by
  obtain ⟨h1, h2⟩ := h.parents ("D", ["X"]) (by simp [biasP])
  unfold answers
  refine kernel_depends h.usable.good h1 _ _ (fun u hu => ?_)
  rcases hu with rfl | e
  · simp
  · have := (h2 u).1 e
    simp only [List.mem_singleton] at this
    subst this
    rw [Assign.upd_ne _ _ (by decide), Assign.upd_same]

theorem total (h : Biased net) {x : Outcome} (hx : x ∈ [(0 : Outcome), 1]) : ((net.dom "D").map (net.answers "X" "D" x)).sum = 1 := by
  have hp := Net.bn_prob h.usable.good h.usable.normalised
  obtain ⟨h1, h2⟩ := h.parents ("D", ["X"]) (by simp [biasP])
  exact hp.norm "D" h1 (Assign.upd (fun _ => 0) "X" x) (fun u e => by
    show _ ∈ net.dom u
    have := (h2 u).1 e
    simp only [List.mem_singleton] at this
    subst this
    rw [Assign.upd_same, h.dom _ (by simp)]
    exact hx)

theorem nonneg (h : Biased net) {x e : Outcome} (hx : x ∈ [(0 : Outcome), 1]) (he : e ∈ net.dom "D") : 0 ≤ net.answers "X" "D" x e := by
  have hp := Net.bn_prob h.usable.good h.usable.normalised
  obtain ⟨h1, h2⟩ := h.parents ("D", ["X"]) (by simp [biasP])
  refine hp.nonneg "D" h1 _ (fun u hu => ?_)
  show _ ∈ net.dom u
  rcases hu with rfl | e
  · rw [Assign.upd_same]; exact he
  · have := (h2 u).1 e
    simp only [List.mem_singleton] at this
    subst this
    rw [Assign.upd_ne _ _ (by decide), Assign.upd_same, h.dom _ (by simp)]
    exact hx

/-- means of quantities that depend on `Z`, `X` and `D`, with `A` distributed in some way -/
theorem mean (h : Biased net) {B : BN} (hB : B.Prob) (hn : B.g.nodes = net.g.nodes) (he : ∀ u v, B.g.Edge u v → net.g.Edge u v) (hd : B.dom = net.dom)
    {kA : Outcome → Rat} (hA : ∀ b : Assign, b "A" ∈ net.dom "A" → B.k "A" b = kA (b "A")) (hk : ∀ v b, v ≠ "A" → B.k v b = net.kernel v b)
    (f : Outcome → Outcome → Outcome → Rat) :
    B.W (fun a => f (a "Z") (a "X") (a "D")) = (([0, 1] : List Outcome).map (fun s => (([0, 1] : List Outcome).map (fun z =>
      kA s * (1 / 2) * ((net.dom "D").map (fun e => net.answers "X" "D" (s * z) e * f z (s * z) e)).sum)).sum)).sum := by
  have hP := h.parents
  simp only [biasP, List.forall_mem_cons, List.not_mem_nil, false_implies, implies_true, and_true] at hP
  obtain ⟨⟨s1, e1⟩, ⟨s2, e2⟩, ⟨s3, e3⟩, ⟨s4, e4⟩, -, -⟩ := hP
  rw [BN.W_ancestral hB (U := ["A", "Z", "X", "D"]) (by decide) (by
      rw [hn]
      simp only [List.forall_mem_cons, List.not_mem_nil, false_implies, implies_true, and_true]
      exact ⟨s1, s2, s3, s4⟩)
    (fun u v e hv => ?_) (f := fun a => f (a "Z") (a "X") (a "D")) (fun a b hab => by
      simp only [hab "Z" (by simp), hab "X" (by simp), hab "D" (by simp)]) (fun _ => 0)]
  · rw [sumOver_congr (h := fun b => kA (b "A") * (1 / 2) * (if b "X" = b "A" * b "Z" then 1 else 0) *
      (net.answers "X" "D" (b "X") (b "D") * f (b "Z") (b "X") (b "D")))]
    · have d1 := h.dom "A" (by simp)
      have d2 := h.dom "Z" (by simp)
      have d3 := h.dom "X" (by simp)
      simp only [sumOver, hd, d1, d2, d3, List.map_cons, List.map_nil, List.sum_cons, List.sum_nil]
      simp [Assign.upd, List.sum_map_mul_left]
    · intro b hb _
      rw [hd] at hb
      simp only [List.forall_mem_cons, List.not_mem_nil, false_implies, implies_true, and_true] at hb
      obtain ⟨b1, b2, b3, b4⟩ := hb
      unfold BN.prod
      simp only [List.map_cons, List.map_nil, List.prod_cons, List.prod_nil]
      rw [hA b b1, hk _ _ (by decide), hk _ _ (by decide), hk _ _ (by decide), h.rule,
        kernel_local h.usable.good s2 (h.coin "Z" (by simp)) (fun _ _ _ => rfl) (fun u hu => by
          rcases hu with rfl | e
          · exact b2
          · exact absurd ((e2 u).1 e) (by simp)),
        kernel_local h.usable.good s3 h.prod (fun x y hxy => by
          simp only [hxy "X" (.inl rfl), hxy "A" (.inr ((e3 _).2 (by simp))), hxy "Z" (.inr ((e3 _).2 (by simp)))]) (fun u hu => by
          rcases hu with rfl | e
          · exact b3
          · have := (e3 u).1 e
            simp only [List.mem_cons, List.not_mem_nil, or_false] at this
            rcases this with rfl | rfl
            · exact b1
            · exact b2)]
      ring
  · have e := he u v e
    simp only [List.mem_cons, List.not_mem_nil, or_false] at hv
    rcases hv with rfl | rfl | rfl | rfl
    · exact absurd ((e1 u).1 e) (by simp)
    · exact absurd ((e2 u).1 e) (by simp)
    · have := (e3 u).1 e; simp at this; rcases this with q | q <;> simp [q]
    · have := (e4 u).1 e; simp at this; simp [this]

theorem meanSeen (h : Biased net) (f : Outcome → Outcome → Outcome → Rat) :
    net.bn.W (fun a => f (a "Z") (a "X") (a "D")) = (([0, 1] : List Outcome).map (fun s => (([0, 1] : List Outcome).map (fun z =>
      1 / 2 * (1 / 2) * ((net.dom "D").map (fun e => net.answers "X" "D" (s * z) e * f z (s * z) e)).sum)).sum)).sum := by
  obtain ⟨s1, e1⟩ := h.parents ("A", []) (by simp [biasP])
  refine h.mean (B := net.bn) (kA := fun _ => 1 / 2) (Net.bn_prob h.usable.good h.usable.normalised) rfl (fun _ _ e => e) rfl (fun b hb => ?_) (fun _ _ _ => rfl) f
  exact kernel_local h.usable.good s1 (h.coin "A" (by simp)) (fun _ _ _ => rfl) (fun u hu => by
    rcases hu with rfl | e
    · exact hb
    · exact absurd ((e1 u).1 e) (by simp))

theorem intOk (h : Biased net) {v : Outcome} (hv : v ∈ [(0 : Outcome), 1]) : net.IntOk [("A", v)] := by
  refine ⟨by simp, fun p hp => ?_⟩
  simp only [List.mem_singleton] at hp
  subst hp
  refine ⟨(h.parents ("A", []) (by simp [biasP])).1, by rw [h.dom _ (by simp)]; exact hv, .inl ?_⟩
  rw [h.dom _ (by simp)]
  decide +kernel

theorem meanDo (h : Biased net) {v : Outcome} (hv : v ∈ [(0 : Outcome), 1]) (f : Outcome → Outcome → Outcome → Rat) :
    (net.doBN [("A", v)]).W (fun a => f (a "Z") (a "X") (a "D")) = (([0, 1] : List Outcome).map (fun z =>
      1 / 2 * ((net.dom "D").map (fun e => net.answers "X" "D" (v * z) e * f z (v * z) e)).sum)).sum := by
  have hi := h.intOk hv
  rw [h.mean (B := net.doBN [("A", v)]) (kA := fun x => if x = v then 1 else 0) (doBN_prob h.usable.good h.usable.normalised hi.1 (fun p hp => (hi.2 p hp).2.1))
    rfl (fun u w e => ?_) rfl (fun b _ => ?_) (fun w b hw => ?_) f]
  · simp only [List.mem_cons, List.not_mem_nil, or_false] at hv
    rcases hv with rfl | rfl <;> simp
  · exact (List.mem_filter.1 e).1
  · simp [doBN]
  · simp [doBN, hw]

/-- what happens after an intervention -/
theorem doMean (h : Biased net) {v : Outcome} (hv : v ∈ [(0 : Outcome), 1]) :
    net.Mean [("A", v)] [] "X" = v / 2 ∧ net.Mean [("A", v)] [] "Y" = (v + 1) / 2 ∧
    net.Mean [("A", v)] [] "D" = (net.predicted 0 + net.predicted v) / 2 := by
  have hi := h.intOk hv
  have hp := doBN_prob h.usable.good h.usable.normalised hi.1 (fun p hp => (hi.2 p hp).2.1)
  have hM : ∀ w ∈ net.g.nodes, net.Mean [("A", v)] [] w = (net.doBN [("A", v)]).W (fun a => a w) := by
    intro w hw
    rw [Mean_eq h.usable.good (fun p hp => (hi.2 p hp).1) hw]
    unfold EW
    rw [PDo_do_pos h.usable hi]
    simp [Ctx]
  have t0 := h.total (x := 0) (by simp)
  have t1 := h.total (x := 1) (by simp)
  have tv := h.total hv
  have tsum : ∀ (c : Rat) (x : Outcome), x ∈ [(0 : Outcome), 1] → ((net.dom "D").map (fun e => net.answers "X" "D" x e * c)).sum = c := by
    intro c x hx
    rw [List.sum_map_mul_right, h.total hx, one_mul]
  refine ⟨?_, ?_, ?_⟩
  · rw [hM _ (h.parents ("X", ["A", "Z"]) (by simp [biasP])).1, h.meanDo hv (fun _ x _ => x)]
    simp only [List.map_cons, List.map_nil, List.sum_cons, List.sum_nil, mul_zero, mul_one]
    rw [tsum v v hv]
    simp
    ring
  · rw [hM _ (h.parents ("Y", ["Z", "X"]) (by simp [biasP])).1, BN.W_possible hp (h := fun a => a "X" + a "Z") (fun a ha => ?_),
      h.meanDo hv (fun z x _ => x + z)]
    · simp only [List.map_cons, List.map_nil, List.sum_cons, List.sum_nil, mul_zero, mul_one]
      rw [tsum _ 0 (by simp), tsum _ v hv]
      ring
    · have := ha.2 "Y" (h.parents ("Y", ["Z", "X"]) (by simp [biasP])).1
      rw [show (net.doBN [("A", v)]).k "Y" a = net.kernel "Y" a by simp [doBN], h.sum a ha.1] at this
      by_contra hc
      rw [if_neg hc] at this
      simp at this
  · rw [hM _ (h.parents ("D", ["X"]) (by simp [biasP])).1, h.meanDo hv (fun _ _ e => e)]
    simp only [List.map_cons, List.map_nil, List.sum_cons, List.sum_nil, mul_zero, mul_one]
    unfold Net.predicted
    ring

/-- the effects that `total_effect` and `introduced_total_effect` report -/
theorem effects (h : Biased net) {pick : Pick} {ord : List Node → List Node} (hord : ∀ l, (ord l).Perm l) :
    (∀ r, (net.totalEffect pick ord "A" "X" 0 1).2 = .ok r → r = 1 / 2) ∧ (∀ r, (net.totalEffect pick ord "A" "Y" 0 1).2 = .ok r → r = 1 / 2) ∧
    (∀ r, (net.totalEffect pick ord "A" "D" 0 1).2 = .ok r → r = (net.predicted 1 - net.predicted 0) / 2) ∧
    ∀ adapt r, (net.introducedTotalEffect pick ord "A" "D" "Y" 0 1 adapt).2 = .ok r → r = (net.predicted 1 - net.predicted 0 - 1) / 2 := by
  have i0 := h.intOk (v := 0) (by simp)
  have i1 := h.intOk (v := 1) (by simp)
  obtain ⟨x0, y0, d0⟩ := h.doMean (v := 0) (by simp)
  obtain ⟨x1, y1, d1⟩ := h.doMean (v := 1) (by simp)
  have kY : ∀ r, (net.totalEffect pick ord "A" "Y" 0 1).2 = .ok r → r = 1 / 2 := fun r hr => by
    rw [((C44_total_effect_exact h.usable hord i0 i1).2 r hr).1, y0, y1]; norm_num
  have kD : ∀ r, (net.totalEffect pick ord "A" "D" 0 1).2 = .ok r → r = (net.predicted 1 - net.predicted 0) / 2 := fun r hr => by
    rw [((C44_total_effect_exact h.usable hord i0 i1).2 r hr).1, d0, d1]; ring
  refine ⟨fun r hr => ?_, kY, kD, fun adapt r hr => ?_⟩
  · rw [((C44_total_effect_exact h.usable hord i0 i1).2 r hr).1, x0, x1]; norm_num
  · obtain ⟨ed, ey, k1, k2, _, k3, _⟩ := C45_introduced_total_effect h.usable hord i0 i1 hr
    rw [k3 (.inl (by rw [kY _ k2]; norm_num)), kD _ k1, kY _ k2]
    ring

/-- what `X` tells about `Y` -/
theorem guesses (h : Biased net) : net.Mean [] [("X", 0)] "Y" = 1 / 3 ∧ net.Mean [] [("X", 1)] "Y" = 2 := by
  have hp := Net.bn_prob h.usable.good h.usable.normalised
  have hM : ∀ x, net.Mean [] [("X", x)] "Y" = net.bn.W (fun a => (a "X" + a "Z") * if a "X" = x then 1 else 0) / net.bn.W (fun a => if a "X" = x then 1 else 0) := by
    intro x
    rw [Mean_eq h.usable.good (by simp) (h.parents ("Y", ["Z", "X"]) (by simp [biasP])).1]
    unfold EW
    rw [doBN_nil, PDo_nil, P_eq_W]
    congr 1
    · refine BN.W_possible hp (fun a ha => ?_)
      have := ha.2 "Y" (h.parents ("Y", ["Z", "X"]) (by simp [biasP])).1
      rw [show net.bn.k "Y" a = net.kernel "Y" a from rfl, h.sum a ha.1] at this
      by_cases hc : a "Y" = a "X" + a "Z"
      · simp [Ctx, hc]
      · rw [if_neg hc] at this
        simp at this
    · exact BN.W_possible hp (fun a _ => by simp [Ctx])
  have tsum : ∀ (c : Rat) (x : Outcome), x ∈ [(0 : Outcome), 1] → ((net.dom "D").map (fun e => net.answers "X" "D" x e * c)).sum = c := by
    intro c x hx
    rw [List.sum_map_mul_right, h.total hx, one_mul]
  have t0 := tsum 1 0 (by simp)
  have t1 := tsum 1 1 (by simp)
  have t2 := tsum 2 1 (by simp)
  simp only [mul_one] at t0 t1
  constructor
  · rw [hM, h.meanSeen (fun z x _ => (x + z) * if x = 0 then 1 else 0), h.meanSeen (fun _ x _ => if x = 0 then 1 else 0)]
    norm_num [t0, t1, t2]
  · rw [hM, h.meanSeen (fun z x _ => (x + z) * if x = 1 then 1 else 0), h.meanSeen (fun _ x _ => if x = 1 then 1 else 0)]
    norm_num [t0, t1, t2]

/-- only the rule of the decision changes -/
theorem move (h : Biased net) {n : Net} (hU : n.Usable) (ho : OnlyRules net ["D"] n) : Biased n := by
  refine ⟨hU, by rw [ho.m, h.m], fun d hd => by rw [ho.dom]; exact h.dom d hd, fun v hv a ha => ?_, fun a ha => ?_, fun a ha => ?_⟩
  · have hno : ∀ v ∈ ["A", "Z"], v ∉ ["D"] := by decide +kernel
    rw [ho.kernel (hno v hv)]
    exact h.coin v hv a ((ho.inDom a).1 ha)
  · rw [ho.kernel (by decide)]
    exact h.prod a ((ho.inDom a).1 ha)
  · rw [ho.kernel (by decide)]
    exact h.sum a ((ho.inDom a).1 ha)

/-- the only descendants of the decision are itself and the utility -/
theorem before (h : Biased net) {v : Node} (hv : v ∈ ["A", "Z", "X", "Y"]) : ¬ net.g.DescEq "D" v := by
  intro q
  induction q with
  | refl => simp at hv
  | @tail b c _ e ih =>
    have hP := h.parents
    simp only [biasP, List.forall_mem_cons, List.not_mem_nil, false_implies, implies_true, and_true] at hP
    obtain ⟨⟨s1, e1⟩, ⟨s2, e2⟩, ⟨s3, e3⟩, -, ⟨s5, e5⟩, -⟩ := hP
    simp only [List.mem_cons, List.not_mem_nil, or_false] at hv
    apply ih
    rcases hv with rfl | rfl | rfl | rfl
    · exact absurd ((e1 b).1 e) (by simp)
    · exact absurd ((e2 b).1 e) (by simp)
    · have := (e3 b).1 e; simp at this; rcases this with q | q <;> simp [q]
    · have := (e5 b).1 e; simp at this; rcases this with q | q <;> simp [q]

/-- what `impute_conditional_expectation_decision` does to the example -/
theorem imputed (h : Biased net) {net' : Net} (hU' : net'.Usable) {pick : Pick} {ord : List Node → List Node} (hord : ∀ l, (ord l).Perm l)
    (hi : net.imputeCondExp pick ord "D" "Y" = (net', .ok ())) : Biased net' ∧ net'.predicted 0 = 1 / 3 ∧ net'.predicted 1 = 2 := by
  have hP := h.parents
  simp only [biasP, List.forall_mem_cons, List.not_mem_nil, false_implies, implies_true, and_true] at hP
  obtain ⟨⟨s1, e1⟩, ⟨s2, e2⟩, ⟨s3, e3⟩, ⟨s4, e4⟩, ⟨s5, e5⟩, -⟩ := hP
  have hcon : net.g.Connected "Y" "D" := .tail (.single (b := "X") (.inr ((e5 "X").2 (by simp)))) (.inl ((e4 "X").2 (by simp)))
  have hpar : net.g.parents "D" = ["X"] := by unfold Net.g; rw [h.m]; exact (biasM_facts.2.2.1 ("D", ["X"]) (by simp [biasP])).2
  obtain ⟨-, -, hm, -, hfr, hdm, -, hk⟩ := C88_imputed h.usable hord hcon hi
  have hg : net'.g = net.g := by unfold Net.g; rw [hm]
  obtain ⟨c, hc, -⟩ := exists_inDom h.usable.good (fun _ => 0) (fun _ => False) (fun _ q => q.elim)
  have hker : ∀ v ∈ ["A", "Z", "X", "Y"], ∀ a, net'.InDom a → ∃ b, net.InDom b ∧ (∀ u ∈ ["A", "Z", "X", "Y"], b u = a u) ∧ net'.kernel v a = net.kernel v b := by
    intro v hv a ha
    have hagree : ∀ u ∈ ["A", "Z", "X", "Y"], (fun u => if u ∈ ["A", "Z", "X", "Y"] then a u else c u) u = a u := fun u hu => if_pos hu
    have hb : net.InDom (fun u => if u ∈ ["A", "Z", "X", "Y"] then a u else c u) := by
      intro u hu
      simp only
      by_cases q : u ∈ ["A", "Z", "X", "Y"]
      · rw [if_pos q, ← (hfr u (h.before q)).1]
        exact ha u (by rw [hg]; exact hu)
      · rw [if_neg q]
        exact hc u hu
    refine ⟨_, hb, hagree, ?_⟩
    rw [← (hfr v (h.before hv)).2 _ hb]
    refine kernel_depends hU'.good ?_ _ _ (fun u hu => (hagree u ?_).symm)
    · rw [hg]
      simp only [List.mem_cons, List.not_mem_nil, or_false] at hv
      rcases hv with rfl | rfl | rfl | rfl <;> assumption
    · rw [hg] at hu
      rcases hu with rfl | e
      · exact hv
      · by_contra q
        simp only [List.mem_cons, List.not_mem_nil, or_false] at hv
        rcases hv with rfl | rfl | rfl | rfl
        · exact absurd ((e1 u).1 e) (by simp)
        · exact absurd ((e2 u).1 e) (by simp)
        · have := (e3 u).1 e; simp at this; rcases this with r | r <;> simp [r] at q
        · have := (e5 u).1 e; simp at this; rcases this with r | r <;> simp [r] at q
  have hB : Biased net' := by
    refine ⟨hU', by rw [hm, h.m], fun d hd => ?_, fun v hv a ha => ?_, fun a ha => ?_, fun a ha => ?_⟩
    · rw [(hfr d (h.before (by simp at hd ⊢; tauto))).1]
      exact h.dom d hd
    · obtain ⟨b, b1, -, b3⟩ := hker v (by simp at hv ⊢; tauto) a ha
      rw [b3]
      exact h.coin v hv b b1
    · obtain ⟨b, b1, b2, b3⟩ := hker "X" (by simp) a ha
      rw [b3, h.prod b b1, b2 "X" (by simp), b2 "A" (by simp), b2 "Z" (by simp)]
    · obtain ⟨b, b1, b2, b3⟩ := hker "Y" (by simp) a ha
      rw [b3, h.sum b b1, b2 "Y" (by simp), b2 "X" (by simp), b2 "Z" (by simp)]
  have hpred : ∀ x ∈ [(0 : Outcome), 1], net'.predicted x = net.Mean [] [("X", x)] "Y" := by
    intro x hx
    have hans : ∀ e ∈ net'.dom "D", net'.answers "X" "D" x e = if e = net.Mean [] [("X", x)] "Y" then 1 else 0 := by
      intro e he
      unfold answers
      rw [hk _ (fun p hp => ?_) (by rw [Assign.upd_same]; exact he)]
      · rw [Assign.upd_same]
        unfold guess
        rw [hpar, if_neg (show "Y" ∉ ["X"] by decide)]
        simp only [List.map_cons, List.map_nil]
        rw [Assign.upd_ne _ _ (by decide), Assign.upd_same]
      · rw [hpar, List.mem_singleton] at hp
        subst hp
        rw [Assign.upd_ne _ _ (by decide), Assign.upd_same, h.dom _ (by simp)]
        exact hx
    unfold predicted
    rw [List.map_congr_left (g := fun e => net'.answers "X" "D" x e * net.Mean [] [("X", x)] "Y") (fun e he => by
      rw [hans e he]
      split
      · rename_i q; rw [← q]
      · simp), List.sum_map_mul_right, hB.total hx, one_mul]
  exact ⟨hB, by rw [hpred 0 (by simp), h.guesses.1], by rw [hpred 1 (by simp), h.guesses.2]⟩

/-- what a policy earns if the options are 0 and 1 -/
theorem EU (h : Biased net) (hd : net.dom "D" = [0, 1]) (hl : ∀ a, net.InDom a → net.kernel "U" a = if a "U" = -((a "D" - a "Y") ^ 2) then 1 else 0) :
    net.EU 0 = -(5 / 4) - net.answers "X" "D" 0 1 / 4 + 3 / 4 * net.answers "X" "D" 1 1 := by
  have hp := Net.bn_prob h.usable.good h.usable.normalised
  have t0 := h.total (x := 0) (by simp)
  have t1 := h.total (x := 1) (by simp)
  rw [hd] at t0 t1
  simp only [List.map_cons, List.map_nil, List.sum_cons, List.sum_nil, add_zero] at t0 t1
  rw [EU_eq h.usable, h.m, biasM_facts.2.2.2.2]
  simp only [Option.getD_some, List.map_cons, List.map_nil, List.sum_cons, List.sum_nil, add_zero]
  rw [BN.W_possible hp (h := fun a => -((a "D" - (a "X" + a "Z")) ^ 2)) (fun a ha => ?_), h.meanSeen (fun z x e => -((e - (x + z)) ^ 2)), hd]
  · simp only [List.map_cons, List.map_nil, List.sum_cons, List.sum_nil, mul_zero, mul_one]
    rw [show net.answers "X" "D" 0 0 = 1 - net.answers "X" "D" 0 1 by linarith, show net.answers "X" "D" 1 0 = 1 - net.answers "X" "D" 1 1 by linarith]
    ring
  · have y := ha.2 "Y" (h.parents ("Y", ["Z", "X"]) (by simp [biasP])).1
    have u := ha.2 "U" (h.parents ("U", ["D", "Y"]) (by simp [biasP])).1
    rw [show net.bn.k "Y" a = net.kernel "Y" a from rfl, h.sum a ha.1] at y
    rw [show net.bn.k "U" a = net.kernel "U" a from rfl, hl a ha.1] at u
    by_cases c1 : a "Y" = a "X" + a "Z"
    · by_cases c2 : a "U" = -((a "D" - a "Y") ^ 2)
      · rw [c2, c1]
      · simp [c2] at u
    · simp [c1] at y

/-- any rule for options 0 and 1 can be had -/
theorem deviate (h : Biased net) (hd : net.dom "D" = [0, 1]) {p q : Rat} (p0 : 0 ≤ p) (p1 : p ≤ 1) (q0 : 0 ≤ q) (q1 : q ≤ 1) :
    ∃ n, n.Usable ∧ OnlyRules net ["D"] n ∧ n.answers "X" "D" 0 1 = p ∧ n.answers "X" "D" 1 1 = q := by
  obtain ⟨h1, h2⟩ := h.parents ("D", ["X"]) (by simp [biasP])
  simp only [List.mem_singleton] at h2
  let σ : Assign → Rat := fun a => if a "X" = 0 then (if a "D" = 1 then p else 1 - p) else (if a "D" = 1 then q else 1 - q)
  obtain ⟨n, hU, ho, hk⟩ := realize1 h.usable h1 (σ := σ) ⟨fun a b hab => by
      simp only [σ, hab "D" (.inl rfl), hab "X" (.inr ((h2 "X").2 rfl))], fun a _ => by
      rw [show net.bn.dom "D" = net.dom "D" from rfl, hd]
      simp only [σ, List.map_cons, List.map_nil, List.sum_cons, List.sum_nil, Assign.upd_same, Assign.upd_ne _ _ (show "X" ≠ "D" by decide)]
      split <;> norm_num, fun a _ => by
      simp only [σ]
      split <;> split <;> linarith⟩
  have hB := h.move hU ho
  have hval : ∀ x ∈ [(0 : Outcome), 1], ∀ y ∈ [(0 : Outcome), 1], n.answers "X" "D" x y = σ (Assign.upd (Assign.upd (fun _ => 0) "X" x) "D" y) := by
    intro x hx y hy
    unfold answers
    refine kernel_local hU.good (hB.parents ("D", ["X"]) (by simp [biasP])).1 (fun a ha => hk a ((ho.inDom a).1 ha)) (fun a b hab => ?_) (fun u hu => ?_)
    · simp only [σ, hab "D" (.inl rfl), hab "X" (.inr (by rw [ho.g]; exact (h2 "X").2 rfl))]
    · rw [ho.dom]
      rcases hu with rfl | e
      · rw [Assign.upd_same, hd]; exact hy
      · rw [ho.g] at e
        have := (h2 u).1 e
        subst this
        rw [Assign.upd_ne _ _ (by decide), Assign.upd_same, h.dom _ (by simp)]
        exact hx
  refine ⟨n, hU, ho, ?_, ?_⟩
  · rw [hval 0 (by simp) 1 (by simp)]
    simp [σ, Assign.upd]
  · rw [hval 1 (by simp) 1 (by simp)]
    simp [σ, Assign.upd]

end Biased

/-- what can be read off the constructed object -/
theorem bias_read : (match introducedBias with
    | .ok net => (["A", "Z", "X", "D"].all fun d => decide (net.dom d = [0, 1])) && net.cpds.all fun p => decide (p.2.kind ≠ .tabular)
    | .error _ => false) = true := by decide +kernel

theorem bias_built : ∃ net, introducedBias = .ok net ∧ Biased net ∧ net.dom "D" = [0, 1] ∧
    (∀ a, net.InDom a → net.kernel "U" a = if a "U" = -((a "D" - a "Y") ^ 2) then 1 else 0) ∧ ∀ v, net.Own v := by
  obtain ⟨c1, c2, c3, -, -⟩ := biasM_facts
  let T : Node → List Outcome := fun v => if v = "Y" then [0, 1, 2] else if v = "U" then [-4, -1, 0] else [0, 1]
  have hcall : ∀ v x ps, (v, ps) ∈ biasP → x ∈ ps → ∀ pv, CalledWith biasM.g T v pv → ∃ y ∈ T x, pv x = some y := by
    intro v x ps hv hx pv hpv
    exact (hpv x).1 (Graph.mem_parents.1 (by rw [(c3 _ hv).2]; exact hx))
  have hX : ∀ pv, CalledWith biasM.g T "X" pv → factorsFunc 1 false ["A", "Z"] pv = .ok (.val ((pv "A").getD 0 * (pv "Z").getD 0)) := by
    intro pv hpv
    obtain ⟨a, -, ea⟩ := hcall "X" "A" ["A", "Z"] (by simp [biasP]) (by simp) pv hpv
    obtain ⟨b, -, eb⟩ := hcall "X" "Z" ["A", "Z"] (by simp [biasP]) (by simp) pv hpv
    simp [factorsFunc, ea, eb]
  have hY : ∀ pv, CalledWith biasM.g T "Y" pv → plusFunc "X" "Z" pv = .ok (.val ((pv "X").getD 0 + (pv "Z").getD 0)) := by
    intro pv hpv
    obtain ⟨a, -, ea⟩ := hcall "Y" "X" ["Z", "X"] (by simp [biasP]) (by simp) pv hpv
    obtain ⟨b, -, eb⟩ := hcall "Y" "Z" ["Z", "X"] (by simp [biasP]) (by simp) pv hpv
    simp [plusFunc, ea, eb]
  have hL : ∀ pv, CalledWith biasM.g T "U" pv → lossFunc "D" "Y" pv = .ok (.val (-(((pv "D").getD 0 - (pv "Y").getD 0) ^ 2))) := by
    intro pv hpv
    obtain ⟨a, -, ea⟩ := hcall "U" "D" ["D", "Y"] (by simp [biasP]) (by simp) pv hpv
    obtain ⟨b, -, eb⟩ := hcall "U" "Y" ["D", "Y"] (by simp [biasP]) (by simp) pv hpv
    simp [lossFunc, ea, eb]
  have hpt : ∀ {f : Func} {pv : PV} {z : Outcome} {l : List Outcome}, f pv = .ok (.val z) → z ∈ l →
      ∃ d, Returns f pv d ∧ ProperDist d ∧ ∀ x ∈ d.keys, x ∈ l := by
    intro f pv z l e hz
    refine ⟨_, .inr ⟨_, e, rfl⟩, properDist_point _, fun x hx => ?_⟩
    simp only [Dict.keys, List.map_cons, List.map_nil, List.mem_singleton] at hx
    rw [hx]
    exact hz
  have hu : discreteUniform [0, 1] = [(0, some (1 / 2)), (1, some (1 / 2))] := by decide +kernel
  have hcoin : ProperDist (discreteUniform [0, 1]) := by
    rw [hu]
    refine ⟨by decide +kernel, fun x p hp => ?_, .inl (by decide +kernel)⟩
    simp only [given, Dict.get?] at hp
    by_cases x0 : x = 0
    · subst x0
      have : p = 1 / 2 := by simpa using hp.symm
      rw [this]; norm_num
    · by_cases x1 : x = 1
      · subst x1
        have : p = 1 / 2 := by simpa using hp.symm
        rw [this]; norm_num
      · simp [Ne.symm x0, Ne.symm x1, x0, x1] at hp
  have hresp : ∀ q ∈ biasRels, q.2.Respects biasM.g T q.1 := by
    intro q hq
    simp only [biasRels, List.mem_cons, List.not_mem_nil, or_false] at hq
    rcases hq with rfl | rfl | rfl | rfl | rfl | rfl
    · exact ⟨hcoin, by rw [hu]; intro x hx; exact hx⟩
    · exact ⟨hcoin, by rw [hu]; intro x hx; exact hx⟩
    · intro pv hpv
      obtain ⟨a, ma, ea⟩ := hcall "X" "A" ["A", "Z"] (by simp [biasP]) (by simp) pv hpv
      obtain ⟨b, mb, eb⟩ := hcall "X" "Z" ["A", "Z"] (by simp [biasP]) (by simp) pv hpv
      refine hpt (hX pv hpv) ?_
      rw [ea, eb]
      simp [T] at ma mb ⊢
      rcases ma with rfl | rfl <;> rcases mb with rfl | rfl <;> norm_num
    · exact ⟨by simp, by decide +kernel, fun x h => h⟩
    · intro pv hpv
      obtain ⟨a, ma, ea⟩ := hcall "Y" "X" ["Z", "X"] (by simp [biasP]) (by simp) pv hpv
      obtain ⟨b, mb, eb⟩ := hcall "Y" "Z" ["Z", "X"] (by simp [biasP]) (by simp) pv hpv
      refine hpt (hY pv hpv) ?_
      rw [ea, eb]
      simp [T] at ma mb ⊢
      rcases ma with rfl | rfl <;> rcases mb with rfl | rfl <;> norm_num
    · intro pv hpv
      obtain ⟨a, ma, ea⟩ := hcall "U" "D" ["D", "Y"] (by simp [biasP]) (by simp) pv hpv
      obtain ⟨b, mb, eb⟩ := hcall "U" "Y" ["D", "Y"] (by simp [biasP]) (by simp) pv hpv
      refine hpt (hL pv hpv) ?_
      rw [ea, eb]
      simp [T] at ma mb ⊢
      rcases ma with rfl | rfl <;> rcases mb with rfl | rfl | rfl <;> norm_num
  have hfresh : (Net.mk biasM [] [] [] Macid.newCid).Fresh := ⟨rfl, rfl, rfl⟩
  have hkeys : (biasRels.map (·.1)).Nodup := by decide +kernel
  have hperm : (biasRels.map (·.1)).Perm biasM.g.nodes := by decide +kernel
  have hall : ∀ v, v ∈ biasRels.map (·.1) ↔ v ∈ (Net.mk biasM [] [] [] Macid.newCid).g.nodes := fun v => hperm.mem_iff
  obtain ⟨net, a1, a2, a3, a4, a5, a6, a7, a8, a9, a10⟩ := C113_assignable (net := Net.mk biasM [] [] [] Macid.newCid) (T := T)
    (l := biasRels) hfresh c1.wf hkeys hall hresp
  have hb : introducedBias = .ok net := by
    unfold introducedBias cidOf
    rw [biasM_init]
    simp only
    rw [a1]
  have hread := bias_read
  rw [hb] at hread
  simp only [Bool.and_eq_true, List.all_eq_true, decide_eq_true_eq] at hread
  have hdom := hread.1
  have hg : net.g = biasM.g := by unfold Net.g; rw [a2]
  refine ⟨net, hb, ⟨a10 c1 (.inr rfl) (staffed_of c2), a2, fun d hd => hdom d (by simp at hd ⊢; tauto), fun v hv a ha => ?_, fun a ha => ?_, fun a ha => ?_⟩,
    hdom "D" (by simp), fun a ha => ?_, fun v c hc => hread.2 (v, c) (Dict.mem_of_get? hc)⟩
  · have hv' : (v, Rel.dist (discreteUniform [0, 1])) ∈ biasRels ∧ (v, []) ∈ biasP ∧ v ∈ ["A", "Z", "X", "D"] := by
      simp only [List.mem_cons, List.not_mem_nil, or_false] at hv
      rcases hv with rfl | rfl <;> simp [biasRels, biasP]
    obtain ⟨d, q1, q2⟩ := a7 (v, .dist (discreteUniform [0, 1])) hv'.1 a ha
    have q1' : d = discreteUniform [0, 1] := q1
    have hx := ha v (by show _ ∈ net.g.nodes; rw [hg]; exact (c3 (v, []) hv'.2.1).1)
    rw [hdom v hv'.2.2] at hx
    rw [q2, q1']
    simp only [hdom v hv'.2.2]
    generalize a v = x at hx
    revert x
    decide +kernel
  · rw [C113_plain_function (T := T) hfresh c1.wf hkeys hall hresp a1 (v := "X") (f := factorsFunc 1 false ["A", "Z"]) (by simp [biasRels])
      (φ := fun pv => (pv "A").getD 0 * (pv "Z").getD 0) hX ha]
    simp only [argsOf, Net.g, (c3 ("X", ["A", "Z"]) (by simp [biasP])).2]
    simp
  · rw [C113_plain_function (T := T) hfresh c1.wf hkeys hall hresp a1 (v := "Y") (f := plusFunc "X" "Z") (by simp [biasRels])
      (φ := fun pv => (pv "X").getD 0 + (pv "Z").getD 0) hY ha]
    simp only [argsOf, Net.g, (c3 ("Y", ["Z", "X"]) (by simp [biasP])).2]
    simp
  · rw [C113_plain_function (T := T) hfresh c1.wf hkeys hall hresp a1 (v := "U") (f := lossFunc "D" "Y") (by simp [biasRels])
      (φ := fun pv => -(((pv "D").getD 0 - (pv "Y").getD 0) ^ 2)) hL ha]
    simp only [argsOf, Net.g, (c3 ("U", ["D", "Y"]) (by simp [biasP])).2]
    simp

/-- **C128** `get_introduced_bias` can be built.  Whatever the rule of the decision, the attribute `A` changes `X` and `Y` by 1/2 each; it changes the
decision by half the difference between the answers to `X = 1` and `X = 0`, so the introduced effect, adapted or not, is at most 0 as long as the options
are 0 and 1.  A rule is optimal exactly if it copies `X`, and exactly then the introduced effect is 0. -/
theorem C128_introduced_bias : ∃ net, introducedBias = .ok net ∧ net.Usable ∧ net.dom "D" = [0, 1] ∧
    (∀ p q : Rat, 0 ≤ p → p ≤ 1 → 0 ≤ q → q ≤ 1 → ∃ n, n.Usable ∧ OnlyRules net net.m.decisions n ∧ n.answers "X" "D" 0 1 = p ∧ n.answers "X" "D" 1 1 = q) ∧
    ∀ n, n.Usable → OnlyRules net net.m.decisions n →
      n.EU 0 = -(5 / 4) - n.answers "X" "D" 0 1 / 4 + 3 / 4 * n.answers "X" "D" 1 1 ∧
      ((∀ n', n'.Usable → OnlyRules net net.m.decisions n' → n'.EU 0 ≤ n.EU 0) ↔ n.answers "X" "D" 0 1 = 0 ∧ n.answers "X" "D" 1 1 = 1) ∧
      ∀ (pick : Pick) (ord : List Node → List Node), (∀ l, (ord l).Perm l) →
        (∀ r, (n.totalEffect pick ord "A" "X" 0 1).2 = .ok r → r = 1 / 2) ∧
        (∀ r, (n.totalEffect pick ord "A" "Y" 0 1).2 = .ok r → r = 1 / 2) ∧
        (∀ r, (n.totalEffect pick ord "A" "D" 0 1).2 = .ok r → r = (n.answers "X" "D" 1 1 - n.answers "X" "D" 0 1) / 2) ∧
        ∀ adapt r, (n.introducedTotalEffect pick ord "A" "D" "Y" 0 1 adapt).2 = .ok r →
          r = (n.answers "X" "D" 1 1 - n.answers "X" "D" 0 1 - 1) / 2 ∧ r ≤ 0 ∧
          (r = 0 ↔ ∀ n', n'.Usable → OnlyRules net net.m.decisions n' → n'.EU 0 ≤ n.EU 0) := by
  obtain ⟨net, e, h, hd, hl, -⟩ := bias_built
  have hD : net.m.decisions = ["D"] := by rw [h.m, biasM_facts.2.2.2.1]
  have form : ∀ n, n.Usable → OnlyRules net ["D"] n → Biased n ∧ n.dom "D" = [0, 1] ∧
      n.EU 0 = -(5 / 4) - n.answers "X" "D" 0 1 / 4 + 3 / 4 * n.answers "X" "D" 1 1 ∧
      (∀ x ∈ [(0 : Outcome), 1], 0 ≤ n.answers "X" "D" x 1 ∧ n.answers "X" "D" x 1 ≤ 1) ∧ ∀ x, n.predicted x = n.answers "X" "D" x 1 := by
    intro n hU ho
    have hB := h.move hU ho
    have hd' : n.dom "D" = [0, 1] := by rw [ho.dom]; exact hd
    refine ⟨hB, hd', hB.EU hd' (fun a ha => ?_), fun x hx => ?_, fun x => ?_⟩
    · rw [ho.kernel (by decide)]
      exact hl a ((ho.inDom a).1 ha)
    · have t := hB.total hx
      have k0 := hB.nonneg (e := 0) hx (by rw [hd']; simp)
      rw [hd'] at t
      simp only [List.map_cons, List.map_nil, List.sum_cons, List.sum_nil, add_zero] at t
      exact ⟨hB.nonneg (e := 1) hx (by rw [hd']; simp), by linarith⟩
    · unfold predicted
      rw [hd']
      simp
  refine ⟨net, e, h.usable, hd, ?_⟩
  rw [hD]
  refine ⟨fun p q p0 p1 q0 q1 => h.deviate hd p0 p1 q0 q1, fun n hU ho => ?_⟩
  obtain ⟨hB, hd', hEU, hun, hpr⟩ := form n hU ho
  obtain ⟨u1, u2⟩ := hun 0 (by simp)
  obtain ⟨v1, v2⟩ := hun 1 (by simp)
  have hopt : (∀ n', n'.Usable → OnlyRules net ["D"] n' → n'.EU 0 ≤ n.EU 0) ↔ n.answers "X" "D" 0 1 = 0 ∧ n.answers "X" "D" 1 1 = 1 := by
    constructor
    · intro hbest
      obtain ⟨n', b1, b2, b3, b4⟩ := h.deviate hd (p := 0) (q := 1) le_rfl (by norm_num) (by norm_num) le_rfl
      have := hbest n' b1 b2
      rw [hEU, (form n' b1 b2).2.2.1, b3, b4] at this
      constructor <;> linarith
    · rintro ⟨h0, h1⟩ n' b1 b2
      obtain ⟨-, -, k, w, -⟩ := form n' b1 b2
      have w0 := w 0 (by simp)
      have w1 := w 1 (by simp)
      rw [hEU, k, h0, h1]
      linarith
  refine ⟨hEU, hopt, fun pick ord hord => ?_⟩
  obtain ⟨f1, f2, f3, f4⟩ := hB.effects (pick := pick) hord
  refine ⟨f1, f2, fun r hr => by rw [f3 r hr, hpr, hpr], fun adapt r hr => ?_⟩
  have hr' := f4 adapt r hr
  rw [hpr, hpr] at hr'
  refine ⟨hr', by linarith, ?_⟩
  rw [hopt]
  constructor
  · intro r0
    constructor <;> linarith
  · rintro ⟨h0, h1⟩
    rw [hr', h0, h1]
    norm_num

/-- **C128** A predictor that reports the conditional expectation of `Y` predicts 1/3 after `X = 0` and 2 after `X = 1`; it introduces an effect of 1/3 in
favour of `A = 1`, although it observes nothing but `X`. -/
theorem C128_predictor_bias : ∃ net, introducedBias = .ok net ∧ ∀ n, n.Usable → OnlyRules net net.m.decisions n →
    ∀ (pick : Pick) (ord : List Node → List Node), (∀ l, (ord l).Perm l) → ∀ n', n.imputeCondExp pick ord "D" "Y" = (n', .ok ()) → n'.Usable →
      n'.predicted 0 = 1 / 3 ∧ n'.predicted 1 = 2 ∧
      (∀ r, (n'.totalEffect pick ord "A" "D" 0 1).2 = .ok r → r = 5 / 6) ∧
      (∀ r, (n'.totalEffect pick ord "A" "Y" 0 1).2 = .ok r → r = 1 / 2) ∧
      ∀ adapt r, (n'.introducedTotalEffect pick ord "A" "D" "Y" 0 1 adapt).2 = .ok r → r = 1 / 3 := by
  obtain ⟨net, e, h, -⟩ := bias_built
  have hD : net.m.decisions = ["D"] := by rw [h.m, biasM_facts.2.2.2.1]
  refine ⟨net, e, fun n hU ho pick ord hord n' hi hU' => ?_⟩
  rw [hD] at ho
  obtain ⟨hB, p0, p1⟩ := (h.move hU ho).imputed hU' hord hi
  obtain ⟨-, f2, f3, f4⟩ := hB.effects (pick := pick) hord
  refine ⟨p0, p1, fun r hr => ?_, f2, fun adapt r hr => ?_⟩
  · rw [f3 r hr, p0, p1]; norm_num
  · rw [f4 adapt r hr, p0, p1]; norm_num

/-- **C128** `impute_optimal_policy` always succeeds on the example; afterwards the decision copies `X` and introduces no effect. -/
theorem C128_solved : ∃ net, introducedBias = .ok net ∧ ∀ (pick : Pick) (tpick : List Node → Nat) (ord setOrd : List Node → List Node) (rnd : Nat),
    (∀ l, (ord l).Perm l) → (∀ l, (setOrd l).Perm l) → ∃ n, net.imputeOptimalPolicy pick tpick ord setOrd rnd = (n, .ok ()) ∧
      OnlyRules net net.m.decisions n ∧ n.EU 0 = -(1 / 2) ∧ n.answers "X" "D" 0 1 = 0 ∧ n.answers "X" "D" 1 1 = 1 ∧
      ∀ adapt r, (n.introducedTotalEffect pick ord "A" "D" "Y" 0 1 adapt).2 = .ok r → r = 0 := by
  obtain ⟨net, e, h, hd, hl, hown⟩ := bias_built
  obtain ⟨net2, e2, -, -, hfree, hall⟩ := C128_introduced_bias
  rw [e] at e2
  cases e2
  refine ⟨net, e, fun pick tpick ord setOrd rnd hord hset => ?_⟩
  have hnames : NamesOk net.g := by unfold Net.g; rw [h.m]; exact ⟨by decide +kernel, by decide +kernel⟩
  have hD : net.m.decisions = ["D"] := by rw [h.m, biasM_facts.2.2.2.1]
  have hone : ∀ d ∈ net.m.decisions, net.m.role d = .decision 0 := by rw [h.m]; decide +kernel
  have hrec : net.m.NoRelianceCycle net.m.decisions := by
    obtain ⟨b, b1, b2⟩ := recall_true h.usable hnames hone pick tpick
    have := recall_of (b := true) biasM_facts.1 ⟨by decide +kernel, by decide +kernel⟩ (by decide +kernel) (by decide +kernel) pick tpick
    rw [h.m] at b1
    rw [this] at b1
    cases b1
    exact b2.1 rfl
  have hpar : net.g.parents "D" = ["X"] := by unfold Net.g; rw [h.m]; exact (biasM_facts.2.2.1 ("D", ["X"]) (by simp [biasP])).2
  have hcon : ∀ d ∈ net.m.decisions, ∀ e ∈ net.m.decisions, net.g.Connected d e := by
    rw [hD]
    intro d hd e he
    rw [List.mem_singleton.1 hd, List.mem_singleton.1 he]
    exact .refl
  have hopt : net.Optimisable 0 := by
    unfold Net.Optimisable
    intro d hd
    rw [hD, List.mem_singleton] at hd
    subst hd
    refine ⟨⟨"U", by rw [h.m]; decide +kernel, .single (((h.parents ("U", ["D", "Y"]) (by simp [biasP])).2 "D").2 (by simp))⟩, fun a ha => ?_⟩
    obtain ⟨n, b1, b2, -, -⟩ := hfree 0 0 le_rfl (by norm_num) le_rfl (by norm_num)
    refine ⟨n, b1, b2, ?_⟩
    have hn := h.move b1 (by rw [← hD]; exact b2)
    have hp := Net.bn_prob b1.good b1.normalised
    have t0 := hn.total (x := 0) (by simp)
    have t1 := hn.total (x := 1) (by simp)
    have hx := ha "X" (h.parents ("X", ["A", "Z"]) (by simp [biasP])).1
    rw [h.dom "X" (by simp)] at hx
    rw [hpar, P_eq_W]
    simp only [List.map_cons, List.map_nil]
    generalize a "X" = x at hx
    rw [BN.W_possible hp (h := fun b => if b "X" = x then 1 else 0) (fun b hb => by simp [Has]), hn.meanSeen (fun _ y _ => if y = x then 1 else 0)]
    simp only [List.mem_cons, List.not_mem_nil, or_false] at hx
    rcases hx with rfl | rfl <;> norm_num [t0, t1]
  have hret := (C100_impute_optimal_policy h.usable hnames hone hrec hcon (fun _ _ p _ _ => hown p) pick tpick rnd hord hset).2 hopt
  generalize hq : net.imputeOptimalPolicy pick tpick ord setOrd rnd = q at hret
  obtain ⟨n, r⟩ := q
  simp only at hret
  subst hret
  obtain ⟨k1, k2, -, k4⟩ := C48_impute_optimal_policy h.usable hnames hone hrec hord hset hq
  obtain ⟨f1, f2, f3⟩ := hall n k1 k2
  obtain ⟨x1, x2⟩ := f2.1 k4
  refine ⟨n, rfl, k2, ?_, x1, x2, fun adapt r hr => ((f3 pick ord hord).2.2.2 adapt r hr).2.2.2 k4⟩
  rw [f1, x1, x2]
  norm_num

namespace ExBias

def net : Net := ((Net.mk biasM [] [] [] Macid.newCid).addCpds biasRels).1
def out : Net := (net.imputeCondExp (fun _ => 0) id "D" "Y").1

theorem added : (Net.mk biasM [] [] [] Macid.newCid).addCpds biasRels = (net, .ok ()) := by
  rw [← show ((Net.mk biasM [] [] [] Macid.newCid).addCpds biasRels).2 = .ok () by decide +kernel]; rfl

theorem built : introducedBias = .ok net := by
  unfold introducedBias cidOf
  rw [biasM_init]
  simp only
  rw [added]

theorem usable : net.Usable := by
  obtain ⟨n, e, h, -⟩ := bias_built
  rw [built] at e
  cases e
  exact h.usable

/-- the relation `impute_conditional_expectation_decision` assigns to `D` -/
def pred : Rel :=
  match net.copy with
  | .error _ => .seq []
  | .ok c =>
    match parentDoms (net.g.parents "D") net.domain with
    | .error _ => .func (condFunc (fun _ => 0) id "Y" (net.g.parents "D") c [])
    | .ok ds =>
      match condTable (fun _ => 0) id "Y" (net.g.parents "D") c (product ds) with
      | (c, t) => .func (condFunc (fun _ => 0) id "Y" (net.g.parents "D") c t)

theorem imputed : net.imputeCondExp (fun _ => 0) id "D" "Y" = (out, .ok ()) := by
  rw [← show (net.imputeCondExp (fun _ => 0) id "D" "Y").2 = .ok () by decide +kernel]
  rfl

theorem out_eq : net.set "D" pred = (out, .ok ()) := by
  rw [← imputed]
  unfold imputeCondExp pred
  obtain ⟨c, hc, _⟩ := usable.copy
  rw [hc]
  simp only
  cases parentDoms (net.g.parents "D") net.domain <;> rfl

theorem out_usable : out.Usable := by
  refine (usable_of_rebuild (edges := biasEdges) (ad := [(0, ["D"])]) (au := [(0, ["U"])]) (rels := biasRels ++ [("D", pred)]) (.inr rfl) biasM_init ?_ ?_ ?_).1
  · rw [addCpds_add added]
    simp only [addCpds, out_eq]
  · intro p hp
    rcases List.mem_append.1 hp with hp | hp
    · simp only [biasRels, List.mem_cons, List.not_mem_nil, or_false] at hp
      rcases hp with rfl | rfl | rfl | rfl | rfl | rfl
      · trivial
      · trivial
      · intro pv; unfold factorsFunc; split <;> simp
      · trivial
      · intro pv; unfold plusFunc; split <;> simp
      · intro pv; unfold lossFunc; split <;> simp
    · rw [List.mem_singleton.1 hp]
      unfold pred
      obtain ⟨c, hc, _⟩ := usable.copy
      rw [hc]
      simp only
      split
      · exact condFunc_honest _ _ _ _ _ _
      · exact condFunc_honest _ _ _ _ _ _
  · decide +kernel

end ExBias

/-- The calls return: 1/3 for the predictor, -1/2 for the decision taken at random. -/
theorem C128_example : introducedBias = .ok ExBias.net ∧ ExBias.net.Usable ∧ OnlyRules ExBias.net ExBias.net.m.decisions ExBias.net ∧
    ExBias.net.imputeCondExp (fun _ => 0) id "D" "Y" = (ExBias.out, .ok ()) ∧ ExBias.out.Usable ∧
    (ExBias.out.introducedTotalEffect (fun _ => 0) id "A" "D" "Y" 0 1 true).2 = .ok (1 / 3) ∧
    (ExBias.out.totalEffect (fun _ => 0) id "A" "D" 0 1).2 = .ok (5 / 6) ∧
    (ExBias.net.imputeMixed.1.introducedTotalEffect (fun _ => 0) id "A" "D" "Y" 0 1 true).2 = .ok (-1 / 2) :=
  ⟨ExBias.built, ExBias.usable, OnlyRules.rfl' _ _, ExBias.imputed, ExBias.out_usable, by decide +kernel, by decide +kernel, by decide +kernel⟩

end Verif

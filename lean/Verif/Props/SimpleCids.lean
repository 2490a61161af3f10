import Verif.Model.SimpleCids
import Verif.Props.MixedSpe
import Verif.Props.PolicyReturns
import Mathlib.Tactic.LinearCombination

/-!
# C127: the examples with and without sufficient recall
-/

namespace Verif
open Net Graph Relation Macid

/-- what is known of a conditional distribution on whole assignments holds locally -/
theorem kernel_local {net : Net} (hG : net.Good) {v : Node} (hv : v ∈ net.g.nodes) {F : Assign → Rat}
    (hF : ∀ a, net.InDom a → net.kernel v a = F a) (hd : DependsOn F (fun u => u = v ∨ net.g.Edge u v)) {b : Assign}
    (hb : ∀ u, u = v ∨ net.g.Edge u v → b u ∈ net.dom u) : net.kernel v b = F b := by
  obtain ⟨c, c1, c2⟩ := exists_inDom hG b (fun u => u = v ∨ net.g.Edge u v) (fun u hu _ => hb u hu)
  rw [kernel_depends hG hv b c (fun u hu => (c2 u hu).symm), hF c c1]
  exact hd _ _ c2

/-- the answer does not depend on the order in which networkx returns things -/
theorem recall_of {m : Macid} (hc : m.Consistent) (hn : NamesOk m.g) (hk : ∀ a ∈ m.agents, a ∈ m.agentDecisions.keys) {b : Bool}
    (h : Macid.sufficientRecall (fun _ => 0) (fun _ => 0) m none = .ok b) (pick : Pick) (tpick : List Node → Nat) :
    Macid.sufficientRecall pick tpick m none = .ok b := by
  obtain ⟨b1, e1, f1⟩ := C19_sufficient_recall_all m hc hn (fun _ => 0) (fun _ => 0) hk
  obtain ⟨b2, e2, f2⟩ := C19_sufficient_recall_all m hc hn pick tpick hk
  rw [h] at e1
  cases e1
  rw [e2]
  congr 1
  exact Bool.eq_iff_iff.2 (f2.trans f1.symm)

/-! ### Insufficient recall -/

/-- the diagram -/
def forgetM : Macid :=
  match Macid.init [("A", "U"), ("B", "U")] [(0, ["A", "B"])] [(0, ["U"])] with
  | .ok m => m
  | .error _ => ⟨Graph.empty, [], [], [], []⟩

theorem forgetM_init : Macid.init [("A", "U"), ("B", "U")] [(0, ["A", "B"])] [(0, ["U"])] = .ok forgetM := by decide +kernel

theorem forgetM_facts : forgetM.Consistent ∧ staffedB forgetM = true ∧ (∀ d ∈ ["A", "B"], d ∈ forgetM.g.nodes ∧ forgetM.g.parents d = []) ∧
    forgetM.decisions = ["A", "B"] ∧ forgetM.agentUtilities.get? 0 = some ["U"] ∧ "U" ∈ forgetM.g.nodes ∧ forgetM.g.parents "U" = ["A", "B"] ∧
    (∀ a ∈ forgetM.agents, a ∈ forgetM.agentDecisions.keys) ∧ Macid.sufficientRecall (fun _ => 0) (fun _ => 0) forgetM none = .ok false ∧
    ∀ d ∈ ["A", "B"], forgetM.role d = .decision 0 := by
  refine ⟨C15_constructor_consistent _ _ _ _ forgetM_init (by decide +kernel) (by decide +kernel) (by decide +kernel) (by decide +kernel), ?_⟩
  decide +kernel

/-- the network is the example -/
structure Forget (net : Net) : Prop where
  usable : net.Usable
  m : net.m = forgetM
  dom : ∀ d ∈ ["A", "B"], net.dom d = [0, 1]
  pay : ∀ a, net.InDom a → net.kernel "U" a = if a "U" = a "A" * a "B" then 1 else 0

namespace Forget

variable {net : Net}

theorem mem (h : Forget net) {d : Node} (hd : d ∈ ["A", "B"]) : d ∈ net.g.nodes := by
  show d ∈ net.m.g.nodes
  rw [h.m]
  exact (forgetM_facts.2.2.1 d hd).1

theorem noParents (h : Forget net) {d : Node} (hd : d ∈ ["A", "B"]) (u : Node) : ¬ net.g.Edge u d := by
  intro e
  have := Graph.mem_parents.2 (show net.m.g.Edge u d from e)
  rw [h.m, (forgetM_facts.2.2.1 d hd).2] at this
  simp at this

theorem move (h : Forget net) {ds : List Node} (hds : ∀ d ∈ ds, d ∈ ["A", "B"]) {n : Net} (hU : n.Usable) (ho : OnlyRules net ds n) : Forget n := by
  refine ⟨hU, by rw [ho.m, h.m], fun d hd => by rw [ho.dom]; exact h.dom d hd, fun a ha => ?_⟩
  rw [ho.kernel (fun q => by have := hds _ q; revert this; decide +kernel)]
  exact h.pay a ((ho.inDom a).1 ha)

theorem mix (h : Forget net) {d : Node} (hd : d ∈ ["A", "B"]) : 0 ≤ net.chooses d 1 ∧ net.chooses d 1 ≤ 1 ∧ net.chooses d 0 = 1 - net.chooses d 1 := by
  have hp := Net.bn_prob h.usable.good h.usable.normalised
  have hx : IsMix [0, 1] (net.chooses d) := by
    refine ⟨fun a ha => ?_, ?_⟩
    · refine hp.nonneg d (h.mem hd) _ (fun u hu => ?_)
      rcases hu with rfl | hu
      · rw [Assign.upd_same, show net.bn.dom u = net.dom u from rfl, h.dom _ hd]; exact ha
      · exact absurd hu (h.noParents hd u)
    · have := hp.norm d (h.mem hd) (fun _ => 0) (fun p e => absurd e (h.noParents hd p))
      rw [show net.bn.dom d = net.dom d from rfl, h.dom _ hd] at this
      exact this
  obtain ⟨a, b, c⟩ := (mix2 _).1 hx
  exact ⟨b, by linarith, by linarith⟩

theorem EU (h : Forget net) : net.EU 0 = net.chooses "A" 1 * net.chooses "B" 1 := by
  obtain ⟨-, -, -, -, k2, k3, k4, -, -, -⟩ := forgetM_facts
  have hp := Net.bn_prob h.usable.good h.usable.normalised
  have e : net.EU 0 = net.bn.W (fun a => (["A", "B"].map a).prod) := by
    rw [EU_eq h.usable, h.m, k2]
    refine BN.W_possible hp (fun a ha => ?_)
    have := ha.2 "U" (by show _ ∈ net.m.g.nodes; rw [h.m]; exact k3)
    change 0 < net.kernel "U" a at this
    rw [h.pay a ha.1] at this
    split at this
    · rename_i e; simp [e]
    · simp at this
  rw [e, W_factors h.usable (ds := ["A", "B"]) (by decide) (fun d hd => h.mem hd) (fun d hd => h.noParents hd) (fun _ x => x)]
  simp only [List.map_cons, List.map_nil, List.prod_cons, List.prod_nil, h.dom "A" (by simp), h.dom "B" (by simp), List.sum_cons, List.sum_nil]
  ring

theorem deviate (h : Forget net) {d : Node} (hd : d ∈ ["A", "B"]) {p : Rat} (p0 : 0 ≤ p) (p1 : p ≤ 1) :
    ∃ n, n.Usable ∧ OnlyRules net [d] n ∧ n.chooses d 1 = p := by
  have hx : IsMix [0, 1] (fun x => if x = 1 then p else 1 - p) := by
    rw [mix2]
    norm_num
    exact ⟨p1, p0⟩
  obtain ⟨n, hU, ho, hk⟩ := realize1 h.usable (h.mem hd) (σ := fun a => (fun x => if x = 1 then p else 1 - p) (a d))
    ⟨fun a b hab => by rw [hab d (.inl rfl)], fun a _ => by
      simp only [Assign.upd_same]
      rw [show net.bn.dom d = net.dom d from rfl, h.dom _ hd]; exact hx.2, fun a ha => by
      have := ha d (.inl rfl)
      rw [show net.bn.dom d = net.dom d from rfl, h.dom _ hd] at this
      exact hx.1 _ this⟩
  have hB := h.move (ds := [d]) (by simpa using hd) hU ho
  refine ⟨n, hU, ho, ?_⟩
  unfold chooses
  obtain ⟨b, hb1, hb2⟩ := exists_inDom h.usable.good (Assign.upd (fun _ => 0) d 1) (fun u => u = d) (fun u hu _ => by
    rw [hu, Assign.upd_same, h.dom _ hd]; simp)
  rw [kernel_depends hU.good (hB.mem hd) _ b (fun u hu => by
    rcases hu with rfl | e
    · exact (hb2 u rfl).symm
    · exact absurd e (hB.noParents hd u)), hk b hb1, hb2 d rfl, Assign.upd_same]
  simp

/-- both decisions set freely -/
theorem both (h : Forget net) {p q : Rat} (p0 : 0 ≤ p) (p1 : p ≤ 1) (q0 : 0 ≤ q) (q1 : q ≤ 1) :
    ∃ n, n.Usable ∧ OnlyRules net ["A", "B"] n ∧ n.chooses "A" 1 = p ∧ n.chooses "B" 1 = q := by
  obtain ⟨n, a1, a2, a3⟩ := h.deviate (d := "A") (by simp) p0 p1
  obtain ⟨n', b1, b2, b3⟩ := (h.move (ds := ["A"]) (by simp) a1 a2).deviate (d := "B") (by simp) q0 q1
  exact ⟨n', b1, a2.trans b2 (by simp) (by simp), by rw [Duels.same b2 (by decide), a3], b3⟩

end Forget

theorem forget_built : ∃ net, insufficientRecallCid = .ok net ∧ Forget net := by
  obtain ⟨c1, c2, c3, c4, c5, c6, c7, c8, c9, c10⟩ := forgetM_facts
  let T : Node → List Outcome := fun _ => [0, 1]
  have hcall : ∀ pv, CalledWith forgetM.g T "U" pv → ∃ x ∈ [(0 : Outcome), 1], ∃ y ∈ [(0 : Outcome), 1], pv "A" = some x ∧ pv "B" = some y := by
    intro pv hpv
    obtain ⟨x, mx, ex⟩ := (hpv "A").1 (Graph.mem_parents.1 (by rw [c7]; simp))
    obtain ⟨y, my, ey⟩ := (hpv "B").1 (Graph.mem_parents.1 (by rw [c7]; simp))
    exact ⟨x, mx, y, my, ex, ey⟩
  have hval : ∀ pv, CalledWith forgetM.g T "U" pv →
      factorsFunc 1 false ["A", "B"] pv = .ok (.val ((pv "A").getD 0 * (pv "B").getD 0)) := by
    intro pv hpv
    obtain ⟨x, -, y, -, ex, ey⟩ := hcall pv hpv
    simp [factorsFunc, ex, ey]
  have hresp : ∀ q ∈ insufficientRels, q.2.Respects forgetM.g T q.1 := by
    intro q hq
    simp only [insufficientRels, List.mem_cons, List.not_mem_nil, or_false] at hq
    rcases hq with rfl | rfl | rfl
    · exact ⟨by simp, by decide +kernel, fun x h => h⟩
    · exact ⟨by simp, by decide +kernel, fun x h => h⟩
    · intro pv hpv
      refine ⟨_, .inr ⟨_, hval pv hpv, rfl⟩, properDist_point _, fun z hz => ?_⟩
      simp only [Dict.keys, List.map_cons, List.map_nil, List.mem_singleton] at hz
      obtain ⟨x, mx, y, my, ex, ey⟩ := hcall pv hpv
      rw [hz, ex, ey]
      simp only [T, List.mem_cons, List.not_mem_nil, or_false, Option.getD_some] at mx my ⊢
      rcases mx with rfl | rfl <;> rcases my with rfl | rfl <;> norm_num
  have hfresh : (Net.mk forgetM [] [] [] Macid.newCid).Fresh := ⟨rfl, rfl, rfl⟩
  have hkeys : (insufficientRels.map (·.1)).Nodup := by decide +kernel
  have hperm : (insufficientRels.map (·.1)).Perm forgetM.g.nodes := by decide +kernel
  have hall : ∀ v, v ∈ insufficientRels.map (·.1) ↔ v ∈ (Net.mk forgetM [] [] [] Macid.newCid).g.nodes := fun v => hperm.mem_iff
  obtain ⟨net, a1, a2, a3, a4, a5, a6, a7, a8, a9, a10⟩ := C113_assignable (net := Net.mk forgetM [] [] [] Macid.newCid) (T := T)
    (l := insufficientRels) hfresh c1.wf hkeys hall hresp
  refine ⟨net, ?_, a10 c1 (.inr rfl) (staffed_of c2), a2, fun d hd => a8 _ _ ?_, fun a ha => ?_⟩
  · unfold insufficientRecallCid cidOf
    rw [forgetM_init]
    simp only
    rw [a1]
  · revert d
    simp [insufficientRels]
  · rw [C113_plain_function (T := T) hfresh c1.wf hkeys hall hresp a1 (v := "U") (f := factorsFunc 1 false ["A", "B"]) (by simp [insufficientRels])
      (φ := fun pv => (pv "A").getD 0 * (pv "B").getD 0) hval ha]
    simp only [argsOf, Net.g, c7]
    simp

/-- **C127** `get_insufficient_recall_cid` can be built and does not have sufficient recall, whatever order networkx uses.  A policy earns the
product of the probabilities of 1; the best policies are those that always choose 1 twice, but a policy that never chooses 1 cannot be improved
by changing one rule either. -/
theorem C127_insufficient_recall : ∃ net, insufficientRecallCid = .ok net ∧ net.Usable ∧
    (∀ pick tpick, Macid.sufficientRecall pick tpick net.m none = .ok false) ∧
    (∀ n, n.Usable → OnlyRules net net.m.decisions n → n.EU 0 = n.chooses "A" 1 * n.chooses "B" 1 ∧
      ((∀ n', n'.Usable → OnlyRules net net.m.decisions n' → n'.EU 0 ≤ n.EU 0) ↔ n.chooses "A" 1 = 1 ∧ n.chooses "B" 1 = 1) ∧
      ((∀ d ∈ net.m.decisions, ∀ n', n'.Usable → OnlyRules n [d] n' → n'.EU 0 ≤ n.EU 0) ↔
        (n.chooses "A" 1 = 1 ∧ n.chooses "B" 1 = 1) ∨ (n.chooses "A" 1 = 0 ∧ n.chooses "B" 1 = 0))) ∧
    ∀ p q : Rat, 0 ≤ p → p ≤ 1 → 0 ≤ q → q ≤ 1 → ∃ n, n.Usable ∧ OnlyRules net net.m.decisions n ∧ n.chooses "A" 1 = p ∧ n.chooses "B" 1 = q := by
  obtain ⟨net, e, h⟩ := forget_built
  obtain ⟨c1, c2, c3, c4, c5, c6, c7, c8, c9, c10⟩ := forgetM_facts
  have hD : net.m.decisions = ["A", "B"] := by rw [h.m, c4]
  refine ⟨net, e, h.usable, fun pick tpick => ?_, ?_⟩
  · rw [h.m]
    exact recall_of c1 ⟨by decide +kernel, by decide +kernel⟩ c8 c9 pick tpick
  rw [hD]
  refine ⟨fun n hU ho => ?_, fun p q p0 p1 q0 q1 => h.both p0 p1 q0 q1⟩
  have hn := h.move (fun d hd => hd) hU ho
  obtain ⟨u0, u1, -⟩ := hn.mix (d := "A") (by simp)
  obtain ⟨v0, v1, -⟩ := hn.mix (d := "B") (by simp)
  refine ⟨hn.EU, ⟨fun hb => ?_, ?_⟩, ⟨fun hs => ?_, ?_⟩⟩
  · obtain ⟨n', b1, b2, b3, b4⟩ := h.both (p := 1) (q := 1) (by norm_num) le_rfl (by norm_num) le_rfl
    have := hb n' b1 b2
    rw [(h.move (fun d hd => hd) b1 b2).EU, hn.EU, b3, b4] at this
    constructor <;> nlinarith
  · rintro ⟨a, b⟩ n' b1 b2
    have hn' := h.move (fun d hd => hd) b1 b2
    obtain ⟨x0, x1, -⟩ := hn'.mix (d := "A") (by simp)
    obtain ⟨y0, y1, -⟩ := hn'.mix (d := "B") (by simp)
    rw [hn'.EU, hn.EU, a, b]
    nlinarith
  · obtain ⟨n1, b1, b2, b3⟩ := hn.deviate (d := "A") (p := 1) (by simp) (by norm_num) le_rfl
    obtain ⟨n2, d1, d2, d3⟩ := hn.deviate (d := "B") (p := 1) (by simp) (by norm_num) le_rfl
    have k1 := hs "A" (by simp) n1 b1 b2
    have k2 := hs "B" (by simp) n2 d1 d2
    rw [(hn.move (ds := ["A"]) (by simp) b1 b2).EU, hn.EU, b3, Duels.same b2 (by decide)] at k1
    rw [(hn.move (ds := ["B"]) (by simp) d1 d2).EU, hn.EU, d3, Duels.same d2 (by decide)] at k2
    have k3 : n.chooses "B" 1 * (1 - n.chooses "A" 1) = 0 := le_antisymm (by linarith) (mul_nonneg v0 (by linarith))
    have k4 : n.chooses "A" 1 * (1 - n.chooses "B" 1) = 0 := le_antisymm (by linarith) (mul_nonneg u0 (by linarith))
    rcases mul_eq_zero.1 k3 with z | z
    · refine .inr ⟨?_, z⟩
      rw [z] at k4
      linarith
    · refine .inl ⟨by linarith, ?_⟩
      rw [show n.chooses "A" 1 = 1 by linarith] at k4
      linarith
  · intro hs d hd n' b1 b2
    have hn' := hn.move (ds := [d]) (by simpa using hd) b1 b2
    obtain ⟨x0, x1, -⟩ := hn'.mix (d := "A") (by simp)
    obtain ⟨y0, y1, -⟩ := hn'.mix (d := "B") (by simp)
    rw [hn'.EU, hn.EU]
    simp only [List.mem_cons, List.not_mem_nil, or_false] at hd
    rcases hd with rfl | rfl
    · rw [Duels.same (d := "B") b2 (by decide)] at y0 y1 ⊢
      rcases hs with ⟨a, b⟩ | ⟨a, b⟩ <;> rw [a, b] <;> linarith
    · rw [Duels.same (d := "A") b2 (by decide)] at x0 x1 ⊢
      rcases hs with ⟨a, b⟩ | ⟨a, b⟩ <;> rw [a, b] <;> linarith

/-! ### Sufficient recall -/

/-- the diagram -/
def twoStepM : Macid :=
  match Macid.init sequentialEdges [(0, ["D1", "D2"])] [(0, ["U1", "U2"])] with
  | .ok m => m
  | .error _ => ⟨Graph.empty, [], [], [], []⟩

theorem twoStepM_init : Macid.init sequentialEdges [(0, ["D1", "D2"])] [(0, ["U1", "U2"])] = .ok twoStepM := by decide +kernel

theorem twoStepM_facts : twoStepM.Consistent ∧ staffedB twoStepM = true ∧ (∀ r ∈ [("S1", []), ("D1", ["S1"]), ("S2", ["D1"]), ("D2", ["S2"]),
      ("U1", ["D1", "S1"]), ("U2", ["D2", "S2"])], r.1 ∈ twoStepM.g.nodes ∧ twoStepM.g.parents r.1 = r.2) ∧
    twoStepM.decisions = ["D1", "D2"] ∧ twoStepM.agentUtilities.get? 0 = some ["U1", "U2"] ∧
    (∀ a ∈ twoStepM.agents, a ∈ twoStepM.agentDecisions.keys) ∧ Macid.sufficientRecall (fun _ => 0) (fun _ => 0) twoStepM none = .ok true := by
  refine ⟨C15_constructor_consistent _ _ _ _ twoStepM_init (by decide +kernel) (by decide +kernel) (by decide +kernel) (by decide +kernel), ?_⟩
  decide +kernel

/-- the network is the example -/
structure TwoStep (net : Net) : Prop where
  usable : net.Usable
  m : net.m = twoStepM
  dom : ∀ d ∈ ["S1", "D1", "S2", "D2"], net.dom d = [0, 1]
  coin : ∀ a, net.InDom a → net.kernel "S1" a = 1 / 2
  same : ∀ a, net.InDom a → net.kernel "S2" a = if a "S2" = a "D1" then 1 else 0
  pay1 : ∀ a, net.InDom a → net.kernel "U1" a = if a "U1" = (if a "S1" = a "D1" then 1 else 0) then 1 else 0
  pay2 : ∀ a, net.InDom a → net.kernel "U2" a = if a "U2" = (if a "S2" = a "D2" then 1 else 0) then 1 else 0

namespace TwoStep

variable {net : Net}

theorem parents (h : TwoStep net) : ∀ r ∈ [("S1", []), ("D1", ["S1"]), ("S2", ["D1"]), ("D2", ["S2"]), ("U1", ["D1", "S1"]), ("U2", ["D2", "S2"])],
    r.1 ∈ net.g.nodes ∧ ∀ u, net.g.Edge u r.1 ↔ u ∈ r.2 := by
  intro r hr
  obtain ⟨a, b⟩ := twoStepM_facts.2.2.1 r hr
  unfold Net.g
  rw [h.m]
  exact ⟨a, fun u => by rw [← Graph.mem_parents, b]⟩

theorem move (h : TwoStep net) {ds : List Node} (hds : ∀ d ∈ ds, d ∈ ["D1", "D2"]) {n : Net} (hU : n.Usable) (ho : OnlyRules net ds n) : TwoStep n := by
  have hno : ∀ v ∈ ["S1", "S2", "U1", "U2"], v ∉ ["D1", "D2"] := by decide +kernel
  have hk : ∀ v ∈ ["S1", "S2", "U1", "U2"], v ∉ ds := fun v hv q => hno v hv (hds _ q)
  refine ⟨hU, by rw [ho.m, h.m], fun d hd => by rw [ho.dom]; exact h.dom d hd, fun a ha => ?_, fun a ha => ?_, fun a ha => ?_, fun a ha => ?_⟩
  · rw [ho.kernel (hk _ (by simp))]
    exact h.coin a ((ho.inDom a).1 ha)
  · rw [ho.kernel (hk _ (by simp))]
    exact h.same a ((ho.inDom a).1 ha)
  · rw [ho.kernel (hk _ (by simp))]
    exact h.pay1 a ((ho.inDom a).1 ha)
  · rw [ho.kernel (hk _ (by simp))]
    exact h.pay2 a ((ho.inDom a).1 ha)

/-- the rule of a decision, given what it sees -/
theorem rule (h : TwoStep net) {s d : Node} (hs : (s, d) ∈ [("S1", "D1"), ("S2", "D2")]) (a : Assign) : net.kernel d a = net.answers s d (a s) (a d) := by
  obtain ⟨h1, h2⟩ := h.parents (d, [s]) (by
    simp only [List.mem_cons, Prod.mk.injEq, List.not_mem_nil, or_false] at hs
    rcases hs with ⟨rfl, rfl⟩ | ⟨rfl, rfl⟩ <;> simp)
  have hne : s ≠ d := by
    simp only [List.mem_cons, Prod.mk.injEq, List.not_mem_nil, or_false] at hs
    rcases hs with ⟨rfl, rfl⟩ | ⟨rfl, rfl⟩ <;> decide
  unfold answers
  refine kernel_depends h.usable.good h1 _ _ (fun u hu => ?_)
  rcases hu with rfl | e
  · simp
  · have := (h2 u).1 e
    simp only [List.mem_singleton] at this
    subst this
    rw [Assign.upd_ne _ _ hne, Assign.upd_same]

theorem mix (h : TwoStep net) {s d : Node} (hs : (s, d) ∈ [("S1", "D1"), ("S2", "D2")]) {x : Outcome} (hx : x ∈ [(0 : Outcome), 1]) :
    0 ≤ net.answers s d x 0 ∧ 0 ≤ net.answers s d x 1 ∧ net.answers s d x 0 + net.answers s d x 1 = 1 := by
  have hp := Net.bn_prob h.usable.good h.usable.normalised
  have hs' := hs
  simp only [List.mem_cons, Prod.mk.injEq, List.not_mem_nil, or_false] at hs
  have hm : (d, [s]) ∈ [("S1", []), ("D1", ["S1"]), ("S2", ["D1"]), ("D2", ["S2"]), ("U1", ["D1", "S1"]), ("U2", ["D2", "S2"])] := by
    rcases hs with ⟨rfl, rfl⟩ | ⟨rfl, rfl⟩ <;> simp
  have hds : net.dom s = [0, 1] := h.dom s (by rcases hs with ⟨rfl, rfl⟩ | ⟨rfl, rfl⟩ <;> simp)
  have hdd : net.dom d = [0, 1] := h.dom d (by rcases hs with ⟨rfl, rfl⟩ | ⟨rfl, rfl⟩ <;> simp)
  have hne : s ≠ d := by rcases hs with ⟨rfl, rfl⟩ | ⟨rfl, rfl⟩ <;> decide
  obtain ⟨h1, h2⟩ := h.parents _ hm
  have nn : ∀ y ∈ [(0 : Outcome), 1], 0 ≤ net.answers s d x y := fun y hy => by
    refine hp.nonneg d h1 _ (fun u hu => ?_)
    show _ ∈ net.dom u
    rcases hu with rfl | e
    · rw [Assign.upd_same, hdd]; exact hy
    · have := (h2 u).1 e
      simp only [List.mem_singleton] at this
      subst this
      rw [Assign.upd_ne _ _ hne, Assign.upd_same, hds]
      exact hx
  refine ⟨nn 0 (by simp), nn 1 (by simp), ?_⟩
  have := hp.norm d h1 (Assign.upd (fun _ => 0) s x) (fun u e => by
    show _ ∈ net.dom u
    have := (h2 u).1 e
    simp only [List.mem_singleton] at this
    subst this
    rw [Assign.upd_same, hds]
    exact hx)
  rw [show net.bn.dom d = net.dom d from rfl, hdd] at this
  simp only [List.map_cons, List.map_nil, List.sum_cons, List.sum_nil, add_zero] at this
  exact this

/-- the mean of anything that depends on the first four nodes -/
theorem mean (h : TwoStep net) (f : Outcome → Outcome → Outcome → Rat) :
    net.bn.W (fun a => f (a "S1") (a "D1") (a "D2")) =
      (([0, 1] : List Outcome).map (fun s => (([0, 1] : List Outcome).map (fun d => (([0, 1] : List Outcome).map (fun e =>
        1 / 2 * net.answers "S1" "D1" s d * net.answers "S2" "D2" d e * f s d e)).sum)).sum)).sum := by
  have hp := Net.bn_prob h.usable.good h.usable.normalised
  have hP := h.parents
  simp only [List.forall_mem_cons, List.not_mem_nil, false_implies, implies_true, and_true] at hP
  obtain ⟨⟨s1, e1⟩, ⟨s2, e2⟩, ⟨s3, e3⟩, ⟨s4, e4⟩, -, -⟩ := hP
  rw [BN.W_ancestral hp (U := ["S1", "D1", "S2", "D2"]) (by decide) (by simp only [List.forall_mem_cons, List.not_mem_nil, false_implies, implies_true, and_true]; exact ⟨s1, s2, s3, s4⟩)
    (fun u v e hv => ?_) (f := fun a => f (a "S1") (a "D1") (a "D2")) (fun a b hab => by
      simp only [hab "S1" (by simp), hab "D1" (by simp), hab "D2" (by simp)]) (fun _ => 0)]
  · rw [sumOver_congr (h := fun b => 1 / 2 * net.answers "S1" "D1" (b "S1") (b "D1") * (if b "S2" = b "D1" then 1 else 0) *
      net.answers "S2" "D2" (b "S2") (b "D2") * f (b "S1") (b "D1") (b "D2"))]
    · have d1 := h.dom "S1" (by simp)
      have d2 := h.dom "D1" (by simp)
      have d3 := h.dom "S2" (by simp)
      have d4 := h.dom "D2" (by simp)
      simp only [sumOver, show ∀ v, net.bn.dom v = net.dom v from fun _ => rfl, d1, d2, d3, d4, List.map_cons, List.map_nil, List.sum_cons, List.sum_nil]
      simp [Assign.upd]
    · intro b hb _
      simp only [List.forall_mem_cons, List.not_mem_nil, false_implies, implies_true, and_true] at hb
      obtain ⟨b1, b2, b3, b4⟩ := hb
      unfold BN.prod
      simp only [List.map_cons, List.map_nil, List.prod_cons, List.prod_nil, show ∀ v, net.bn.k v b = net.kernel v b from fun _ => rfl]
      rw [h.rule (s := "S1") (d := "D1") (by simp), h.rule (s := "S2") (d := "D2") (by simp),
        kernel_local h.usable.good s1 h.coin (fun _ _ _ => rfl) (fun u hu => by
          rcases hu with rfl | e
          · exact b1
          · exact absurd ((e1 u).1 e) (by simp)),
        kernel_local h.usable.good s3 h.same (fun x y hxy => by
          simp only [hxy "S2" (.inl rfl), hxy "D1" (.inr ((e3 _).2 (by simp)))]) (fun u hu => by
          rcases hu with rfl | e
          · exact b3
          · have := (e3 u).1 e
            simp only [List.mem_singleton] at this
            subst this
            exact b2)]
      ring
  · simp only [List.mem_cons, List.not_mem_nil, or_false] at hv
    rcases hv with rfl | rfl | rfl | rfl
    · exact absurd ((e1 u).1 e) (by simp)
    · have := (e2 u).1 e; simp at this; simp [this]
    · have := (e3 u).1 e; simp at this; simp [this]
    · have := (e4 u).1 e; simp at this; simp [this]

/-- the copy is exact -/
theorem copies (h : TwoStep net) {a : Assign} (ha : net.bn.Possible a) : a "S2" = a "D1" := by
  have := ha.2 "S2" (h.parents ("S2", ["D1"]) (by simp)).1
  change 0 < net.kernel "S2" a at this
  rw [h.same a ha.1] at this
  split at this
  · assumption
  · simp at this

theorem earns1 (h : TwoStep net) {a : Assign} (ha : net.bn.Possible a) : a "U1" = if a "S1" = a "D1" then 1 else 0 := by
  have := ha.2 "U1" (h.parents ("U1", ["D1", "S1"]) (by simp)).1
  change 0 < net.kernel "U1" a at this
  rw [h.pay1 a ha.1] at this
  by_contra hc
  rw [if_neg hc] at this
  simp at this

theorem earns2 (h : TwoStep net) {a : Assign} (ha : net.bn.Possible a) : a "U2" = if a "D1" = a "D2" then 1 else 0 := by
  have := ha.2 "U2" (h.parents ("U2", ["D2", "S2"]) (by simp)).1
  change 0 < net.kernel "U2" a at this
  rw [h.pay2 a ha.1, h.copies ha] at this
  by_contra hc
  rw [if_neg hc] at this
  simp at this

theorem meanW (h : TwoStep net) {v : Node} (hv : v ∈ net.g.nodes) : net.Mean [] [] v = net.bn.W (fun a => a v) := by
  have := mean_sum h.usable.good (net := net) (us := [v]) (ctx := []) (by simpa using hv)
  have h1 : net.P (Ctx []) = 1 := P_true h.usable.good h.usable.normalised
  rw [h1] at this
  simpa [Ctx] using this

theorem mean1 (h : TwoStep net) : net.Mean [] [] "U1" = (net.answers "S1" "D1" 0 0 + net.answers "S1" "D1" 1 1) / 2 := by
  have hp := Net.bn_prob h.usable.good h.usable.normalised
  rw [h.meanW (h.parents ("U1", ["D1", "S1"]) (by simp)).1, BN.W_possible hp (fun a ha => h.earns1 ha),
    h.mean (fun s d _ => if s = d then 1 else 0)]
  simp only [List.map_cons, List.map_nil, List.sum_cons, List.sum_nil]
  norm_num
  obtain ⟨-, -, a⟩ := h.mix (s := "S2") (d := "D2") (x := 0) (by simp) (by simp)
  obtain ⟨-, -, b⟩ := h.mix (s := "S2") (d := "D2") (x := 1) (by simp) (by simp)
  linear_combination 1 / 2 * net.answers "S1" "D1" 0 0 * a + 1 / 2 * net.answers "S1" "D1" 1 1 * b

theorem mean2 (h : TwoStep net) : net.Mean [] [] "U2" =
    (net.answers "S1" "D1" 0 0 + net.answers "S1" "D1" 1 0) / 2 * net.answers "S2" "D2" 0 0 +
    (net.answers "S1" "D1" 0 1 + net.answers "S1" "D1" 1 1) / 2 * net.answers "S2" "D2" 1 1 := by
  have hp := Net.bn_prob h.usable.good h.usable.normalised
  rw [h.meanW (h.parents ("U2", ["D2", "S2"]) (by simp)).1, BN.W_possible hp (fun a ha => h.earns2 ha),
    h.mean (fun _ d e => if d = e then 1 else 0)]
  simp only [List.map_cons, List.map_nil, List.sum_cons, List.sum_nil]
  norm_num
  ring

theorem EU (h : TwoStep net) : net.EU 0 = net.Mean [] [] "U1" + net.Mean [] [] "U2" := by
  unfold Net.EU
  rw [h.m, twoStepM_facts.2.2.2.2.1]
  simp

/-- a rule chosen freely: the probabilities of 0 after 0 and of 1 after 1 -/
theorem deviate (h : TwoStep net) {s d : Node} (hs : (s, d) ∈ [("S1", "D1"), ("S2", "D2")]) {p q : Rat} (p0 : 0 ≤ p) (p1 : p ≤ 1) (q0 : 0 ≤ q) (q1 : q ≤ 1) :
    ∃ n, n.Usable ∧ OnlyRules net [d] n ∧ n.answers s d 0 0 = p ∧ n.answers s d 1 1 = q := by
  have hs' := hs
  simp only [List.mem_cons, Prod.mk.injEq, List.not_mem_nil, or_false] at hs
  have hm : (d, [s]) ∈ [("S1", []), ("D1", ["S1"]), ("S2", ["D1"]), ("D2", ["S2"]), ("U1", ["D1", "S1"]), ("U2", ["D2", "S2"])] := by
    rcases hs with ⟨rfl, rfl⟩ | ⟨rfl, rfl⟩ <;> simp
  have hds : net.dom s = [0, 1] := h.dom s (by rcases hs with ⟨rfl, rfl⟩ | ⟨rfl, rfl⟩ <;> simp)
  have hdd : net.dom d = [0, 1] := h.dom d (by rcases hs with ⟨rfl, rfl⟩ | ⟨rfl, rfl⟩ <;> simp)
  have hne : s ≠ d := by rcases hs with ⟨rfl, rfl⟩ | ⟨rfl, rfl⟩ <;> decide
  have hdm : d ∈ ["D1", "D2"] := by rcases hs with ⟨rfl, rfl⟩ | ⟨rfl, rfl⟩ <;> simp
  obtain ⟨h1, h2⟩ := h.parents _ hm
  simp only [List.mem_singleton] at h2
  let σ : Assign → Rat := fun a => if a s = 0 then (if a d = 0 then p else 1 - p) else (if a d = 1 then q else 1 - q)
  obtain ⟨n, hU, ho, hk⟩ := realize1 h.usable h1 (σ := σ) ⟨fun a b hab => by
      simp only [σ, hab d (.inl rfl), hab s (.inr ((h2 s).2 rfl))], fun a _ => by
      rw [show net.bn.dom d = net.dom d from rfl, hdd]
      simp only [σ, List.map_cons, List.map_nil, List.sum_cons, List.sum_nil, Assign.upd_same, Assign.upd_ne _ _ hne]
      split <;> norm_num, fun a _ => by
      simp only [σ]
      split <;> split <;> linarith⟩
  have hB := h.move (ds := [d]) (by simpa using hdm) hU ho
  have hval : ∀ x ∈ [(0 : Outcome), 1], ∀ y ∈ [(0 : Outcome), 1], n.answers s d x y = σ (Assign.upd (Assign.upd (fun _ => 0) s x) d y) := by
    intro x hx y hy
    unfold answers
    refine kernel_local hU.good (hB.parents _ hm).1 (fun a ha => hk a ((ho.inDom a).1 ha)) (fun a b hab => ?_) (fun u hu => ?_)
    · simp only [σ, hab d (.inl rfl), hab s (.inr (by rw [ho.g]; exact (h2 s).2 rfl))]
    · rw [ho.dom]
      rcases hu with rfl | e
      · rw [Assign.upd_same, hdd]; exact hy
      · rw [ho.g] at e
        have := (h2 u).1 e
        subst this
        rw [Assign.upd_ne _ _ hne, Assign.upd_same, hds]
        exact hx
  refine ⟨n, hU, ho, ?_, ?_⟩
  · rw [hval 0 (by simp) 0 (by simp)]
    simp only [σ, Assign.upd_same, Assign.upd_ne _ _ hne, if_true]
  · rw [hval 1 (by simp) 1 (by simp)]
    simp only [σ, Assign.upd_same, Assign.upd_ne _ _ hne, if_true]
    norm_num

/-- other decisions are taken as before -/
theorem unchanged {n : Net} {ds : List Node} (ho : OnlyRules net ds n) {s d : Node} (hd : d ∉ ds) (x y : Outcome) : n.answers s d x y = net.answers s d x y := by
  unfold answers
  rw [ho.kernel hd]

/-- both rules chosen freely -/
theorem both (h : TwoStep net) {p q r t : Rat} (p0 : 0 ≤ p) (p1 : p ≤ 1) (q0 : 0 ≤ q) (q1 : q ≤ 1) (r0 : 0 ≤ r) (r1 : r ≤ 1) (t0 : 0 ≤ t) (t1 : t ≤ 1) :
    ∃ n, n.Usable ∧ OnlyRules net ["D1", "D2"] n ∧ n.answers "S1" "D1" 0 0 = p ∧ n.answers "S1" "D1" 1 1 = q ∧
      n.answers "S2" "D2" 0 0 = r ∧ n.answers "S2" "D2" 1 1 = t := by
  obtain ⟨n, a1, a2, a3, a4⟩ := h.deviate (s := "S1") (d := "D1") (by simp) p0 p1 q0 q1
  obtain ⟨n', b1, b2, b3, b4⟩ := (h.move (ds := ["D1"]) (by simp) a1 a2).deviate (s := "S2") (d := "D2") (by simp) r0 r1 t0 t1
  exact ⟨n', b1, a2.trans b2 (by simp) (by simp), by rw [unchanged b2 (by decide), a3], by rw [unchanged b2 (by decide), a4], b3, b4⟩

end TwoStep

/-- what can be read off the constructed object -/
theorem twoStep_read : (match sequentialCid with
    | .ok net => (["S1", "D1", "S2", "D2"].all fun d => decide (net.dom d = [0, 1])) && net.cpds.all fun p => decide (p.2.kind ≠ .tabular)
    | .error _ => false) = true := by decide +kernel

theorem twoStep_built : ∃ net, sequentialCid = .ok net ∧ TwoStep net ∧ ∀ v, net.Own v := by
  obtain ⟨c1, c2, c3, c4, c5, c6, c7⟩ := twoStepM_facts
  let T : Node → List Outcome := fun _ => [0, 1]
  have hcall : ∀ v x ps, (v, ps) ∈ [("S1", []), ("D1", ["S1"]), ("S2", ["D1"]), ("D2", ["S2"]), ("U1", ["D1", "S1"]), ("U2", ["D2", "S2"])] → x ∈ ps →
      ∀ pv, CalledWith twoStepM.g T v pv → ∃ y ∈ [(0 : Outcome), 1], pv x = some y := by
    intro v x ps hv hx pv hpv
    exact (hpv x).1 (Graph.mem_parents.1 (by rw [(c3 _ hv).2]; exact hx))
  have heq : ∀ v x y ps, (v, ps) ∈ [("S1", []), ("D1", ["S1"]), ("S2", ["D1"]), ("D2", ["S2"]), ("U1", ["D1", "S1"]), ("U2", ["D2", "S2"])] → x ∈ ps → y ∈ ps →
      ∀ pv, CalledWith twoStepM.g T v pv → equalFunc x y pv = .ok (.val (if (pv x).getD 0 = (pv y).getD 0 then 1 else 0)) := by
    intro v x y ps hv hx hy pv hpv
    obtain ⟨a, -, ea⟩ := hcall v x ps hv hx pv hpv
    obtain ⟨b, -, eb⟩ := hcall v y ps hv hy pv hpv
    simp [equalFunc, ea, eb]
  have hcp : ∀ pv, CalledWith twoStepM.g T "S2" pv → copyFunc "D1" pv = .ok (.val ((pv "D1").getD 0)) := by
    intro pv hpv
    obtain ⟨a, -, ea⟩ := hcall "S2" "D1" ["D1"] (by simp) (by simp) pv hpv
    simp [copyFunc, ea]
  have hpt : ∀ {f : Func} {pv : PV} {z : Outcome}, f pv = .ok (.val z) → z ∈ [(0 : Outcome), 1] →
      ∃ d, Returns f pv d ∧ ProperDist d ∧ ∀ x ∈ d.keys, x ∈ [(0 : Outcome), 1] := by
    intro f pv z e hz
    refine ⟨_, .inr ⟨_, e, rfl⟩, properDist_point _, fun x hx => ?_⟩
    simp only [Dict.keys, List.map_cons, List.map_nil, List.mem_singleton] at hx
    rw [hx]
    exact hz
  have hu : discreteUniform [0, 1] = [(0, some (1 / 2)), (1, some (1 / 2))] := by decide +kernel
  have hresp : ∀ q ∈ sequentialRels, q.2.Respects twoStepM.g T q.1 := by
    intro q hq
    simp only [sequentialRels, List.mem_cons, List.not_mem_nil, or_false] at hq
    rcases hq with rfl | rfl | rfl | rfl | rfl | rfl
    · show ProperDist _ ∧ _
      rw [hu]
      refine ⟨⟨by decide +kernel, fun x p hp => ?_, .inl (by decide +kernel)⟩, by intro x hx; exact hx⟩
      simp only [given, Dict.get?] at hp
      by_cases x0 : x = 0
      · subst x0
        have : p = 1 / 2 := by simpa using hp.symm
        rw [this]; norm_num
      · by_cases x1 : x = 1
        · subst x1
          have : p = 1 / 2 := by simpa using hp.symm
          rw [this]; norm_num
        · simp [Ne.symm x0, Ne.symm x1, x0, x1] at hp
    · exact ⟨by simp, by decide +kernel, fun x h => h⟩
    · exact fun pv hpv => hpt (heq "U1" "S1" "D1" ["D1", "S1"] (by simp) (by simp) (by simp) pv hpv) (by split <;> simp)
    · intro pv hpv
      obtain ⟨a, ma, ea⟩ := hcall "S2" "D1" ["D1"] (by simp) (by simp) pv hpv
      exact hpt (hcp pv hpv) (by rw [ea]; exact ma)
    · exact ⟨by simp, by decide +kernel, fun x h => h⟩
    · exact fun pv hpv => hpt (heq "U2" "S2" "D2" ["D2", "S2"] (by simp) (by simp) (by simp) pv hpv) (by split <;> simp)
  have hfresh : (Net.mk twoStepM [] [] [] Macid.newCid).Fresh := ⟨rfl, rfl, rfl⟩
  have hkeys : (sequentialRels.map (·.1)).Nodup := by decide +kernel
  have hperm : (sequentialRels.map (·.1)).Perm twoStepM.g.nodes := by decide +kernel
  have hall : ∀ v, v ∈ sequentialRels.map (·.1) ↔ v ∈ (Net.mk twoStepM [] [] [] Macid.newCid).g.nodes := fun v => hperm.mem_iff
  obtain ⟨net, a1, a2, a3, a4, a5, a6, a7, a8, a9, a10⟩ := C113_assignable (net := Net.mk twoStepM [] [] [] Macid.newCid) (T := T)
    (l := sequentialRels) hfresh c1.wf hkeys hall hresp
  have hb : sequentialCid = .ok net := by
    unfold sequentialCid cidOf
    rw [twoStepM_init]
    simp only
    rw [a1]
  have hread := twoStep_read
  rw [hb] at hread
  simp only [Bool.and_eq_true, List.all_eq_true, decide_eq_true_eq] at hread
  have hdom := hread.1
  have hg : net.g = twoStepM.g := by unfold Net.g; rw [a2]
  refine ⟨net, hb, ⟨a10 c1 (.inr rfl) (staffed_of c2), a2, hdom, fun a ha => ?_, fun a ha => ?_, fun a ha => ?_, fun a ha => ?_⟩, fun v c hc => ?_⟩
  · obtain ⟨d, q1, q2⟩ := a7 ("S1", .dist (discreteUniform [0, 1])) (by simp [sequentialRels]) a ha
    have q1' : d = discreteUniform [0, 1] := q1
    have hx := ha "S1" (by show _ ∈ net.g.nodes; rw [hg]; exact (c3 ("S1", []) (by simp)).1)
    rw [hdom "S1" (by simp)] at hx
    rw [q2, q1']
    simp only [hdom "S1" (by simp)]
    generalize a "S1" = x at hx
    revert x
    decide +kernel
  · rw [C113_plain_function (T := T) hfresh c1.wf hkeys hall hresp a1 (v := "S2") (f := copyFunc "D1") (by simp [sequentialRels])
      (φ := fun pv => (pv "D1").getD 0) hcp ha]
    simp only [argsOf, Net.g, (c3 ("S2", ["D1"]) (by simp)).2]
    simp
  · rw [C113_plain_function (T := T) hfresh c1.wf hkeys hall hresp a1 (v := "U1") (f := equalFunc "S1" "D1") (by simp [sequentialRels])
      (φ := fun pv => if (pv "S1").getD 0 = (pv "D1").getD 0 then 1 else 0) (heq "U1" "S1" "D1" ["D1", "S1"] (by simp) (by simp) (by simp)) ha]
    simp only [argsOf, Net.g, (c3 ("U1", ["D1", "S1"]) (by simp)).2]
    simp
  · rw [C113_plain_function (T := T) hfresh c1.wf hkeys hall hresp a1 (v := "U2") (f := equalFunc "S2" "D2") (by simp [sequentialRels])
      (φ := fun pv => if (pv "S2").getD 0 = (pv "D2").getD 0 then 1 else 0) (heq "U2" "S2" "D2" ["D2", "S2"] (by simp) (by simp) (by simp)) ha]
    simp only [argsOf, Net.g, (c3 ("U2", ["D2", "S2"]) (by simp)).2]
    simp
  · exact hread.2 (v, c) (Dict.mem_of_get? hc)

/-- **C127** `get_sequential_cid` can be built and has sufficient recall, whatever order networkx uses.  What the second decision can earn depends on
the rule of the first, but the rule that copies `S2` is best for the second decision whatever rule the first one uses; a policy is optimal exactly
if both decisions copy what they observe. -/
theorem C127_sequential : ∃ net, sequentialCid = .ok net ∧ net.Usable ∧
    (∀ pick tpick, Macid.sufficientRecall pick tpick net.m none = .ok true) ∧
    (∀ n, n.Usable → OnlyRules net net.m.decisions n →
      n.Mean [] [] "U1" = (n.answers "S1" "D1" 0 0 + n.answers "S1" "D1" 1 1) / 2 ∧
      n.Mean [] [] "U2" = (n.answers "S1" "D1" 0 0 + (1 - n.answers "S1" "D1" 1 1)) / 2 * n.answers "S2" "D2" 0 0 +
        (1 - n.answers "S1" "D1" 0 0 + n.answers "S1" "D1" 1 1) / 2 * n.answers "S2" "D2" 1 1 ∧
      n.EU 0 = n.Mean [] [] "U1" + n.Mean [] [] "U2" ∧
      (n.answers "S2" "D2" 0 0 = 1 → n.answers "S2" "D2" 1 1 = 1 → ∀ n', n'.Usable → OnlyRules n ["D2"] n' → n'.EU 0 ≤ n.EU 0) ∧
      ((∀ n', n'.Usable → OnlyRules net net.m.decisions n' → n'.EU 0 ≤ n.EU 0) ↔
        n.answers "S1" "D1" 0 0 = 1 ∧ n.answers "S1" "D1" 1 1 = 1 ∧ n.answers "S2" "D2" 0 0 = 1 ∧ n.answers "S2" "D2" 1 1 = 1)) ∧
    (∃ n n', n.Usable ∧ OnlyRules net net.m.decisions n ∧ n'.Usable ∧ OnlyRules n ["D1"] n' ∧ n.Mean [] [] "U2" = 1 ∧ n'.Mean [] [] "U2" = 0) := by
  obtain ⟨net, e, h, -⟩ := twoStep_built
  obtain ⟨c1, c2, c3, c4, c5, c6, c7⟩ := twoStepM_facts
  have hD : net.m.decisions = ["D1", "D2"] := by rw [h.m, c4]
  have form : ∀ {n : Net}, TwoStep n → n.answers "S1" "D1" 0 1 = 1 - n.answers "S1" "D1" 0 0 ∧ n.answers "S1" "D1" 1 0 = 1 - n.answers "S1" "D1" 1 1 := by
    intro n hn
    obtain ⟨-, -, a⟩ := hn.mix (s := "S1") (d := "D1") (x := 0) (by simp) (by simp)
    obtain ⟨-, -, b⟩ := hn.mix (s := "S1") (d := "D1") (x := 1) (by simp) (by simp)
    exact ⟨by linarith, by linarith⟩
  have mean2' : ∀ {n : Net}, TwoStep n → n.Mean [] [] "U2" = (n.answers "S1" "D1" 0 0 + (1 - n.answers "S1" "D1" 1 1)) / 2 * n.answers "S2" "D2" 0 0 +
        (1 - n.answers "S1" "D1" 0 0 + n.answers "S1" "D1" 1 1) / 2 * n.answers "S2" "D2" 1 1 := by
    intro n hn
    rw [hn.mean2, (form hn).1, (form hn).2]
  have unit : ∀ {n : Net}, TwoStep n → ∀ {s d : Node}, (s, d) ∈ [("S1", "D1"), ("S2", "D2")] →
      0 ≤ n.answers s d 0 0 ∧ n.answers s d 0 0 ≤ 1 ∧ 0 ≤ n.answers s d 1 1 ∧ n.answers s d 1 1 ≤ 1 := by
    intro n hn s d hs
    obtain ⟨a1, a2, a3⟩ := hn.mix hs (x := 0) (by simp)
    obtain ⟨b1, b2, b3⟩ := hn.mix hs (x := 1) (by simp)
    exact ⟨a1, by linarith, b2, by linarith⟩
  have bound : ∀ p q r t : Rat, 0 ≤ p ∧ p ≤ 1 ∧ 0 ≤ q ∧ q ≤ 1 → 0 ≤ r ∧ r ≤ 1 ∧ 0 ≤ t ∧ t ≤ 1 →
      (p + (1 - q)) / 2 * r + (1 - p + q) / 2 * t ≤ 1 ∧ ((p = 1 ∧ q = 1) → (p + (1 - q)) / 2 * r + (1 - p + q) / 2 * t = 1 → r = 1 ∧ t = 1) := by
    rintro p q r t ⟨p0, p1, q0, q1⟩ ⟨r0, r1, t0, t1⟩
    have k1 : 0 ≤ (p + (1 - q)) / 2 * (1 - r) := mul_nonneg (by linarith) (by linarith)
    have k2 : 0 ≤ (1 - p + q) / 2 * (1 - t) := mul_nonneg (by linarith) (by linarith)
    refine ⟨by nlinarith, ?_⟩
    rintro ⟨rfl, rfl⟩ hh
    constructor <;> linarith
  refine ⟨net, e, h.usable, fun pick tpick => ?_, ?_⟩
  · rw [h.m]
    exact recall_of c1 ⟨by decide +kernel, by decide +kernel⟩ c6 c7 pick tpick
  rw [hD]
  constructor
  · intro n hU ho
    have hn := h.move (fun d hd => hd) hU ho
    refine ⟨hn.mean1, mean2' hn, hn.EU, fun r t n' b1 b2 => ?_, fun hb => ?_, ?_⟩
    · have hn' := hn.move (ds := ["D2"]) (by simp) b1 b2
      rw [hn'.EU, hn.EU, hn'.mean1, hn.mean1, mean2' hn', mean2' hn, r, t, TwoStep.unchanged b2 (by decide), TwoStep.unchanged b2 (by decide)]
      have := (bound _ _ _ _ (unit hn (s := "S1") (d := "D1") (by simp)) (unit hn' (s := "S2") (d := "D2") (by simp))).1
      linarith
    · obtain ⟨n', b1, b2, b3, b4, b5, b6⟩ := h.both (p := 1) (q := 1) (r := 1) (t := 1) (by norm_num) le_rfl (by norm_num) le_rfl (by norm_num) le_rfl
        (by norm_num) le_rfl
      have hn' := h.move (fun d hd => hd) b1 b2
      have k := hb n' b1 b2
      rw [hn'.EU, hn.EU, hn'.mean1, hn.mean1, mean2' hn', mean2' hn, b3, b4, b5, b6] at k
      obtain ⟨w1, w2⟩ := bound _ _ _ _ (unit hn (s := "S1") (d := "D1") (by simp)) (unit hn (s := "S2") (d := "D2") (by simp))
      obtain ⟨p0, p1, q0, q1⟩ := unit hn (s := "S1") (d := "D1") (by simp)
      have x1 : n.answers "S1" "D1" 0 0 = 1 := by linarith
      have x2 : n.answers "S1" "D1" 1 1 = 1 := by linarith
      exact ⟨x1, x2, w2 ⟨x1, x2⟩ (by linarith)⟩
    · rintro ⟨x1, x2, x3, x4⟩ n' b1 b2
      have hn' := h.move (fun d hd => hd) b1 b2
      rw [hn'.EU, hn.EU, hn'.mean1, hn.mean1, mean2' hn', mean2' hn, x1, x2, x3, x4]
      have := (bound _ _ _ _ (unit hn' (s := "S1") (d := "D1") (by simp)) (unit hn' (s := "S2") (d := "D2") (by simp))).1
      obtain ⟨p0, p1, q0, q1⟩ := unit hn' (s := "S1") (d := "D1") (by simp)
      linarith
  · obtain ⟨n, b1, b2, b3, b4, b5, b6⟩ := h.both (p := 0) (q := 1) (r := 0) (t := 1) le_rfl (by norm_num) (by norm_num) le_rfl le_rfl (by norm_num)
        (by norm_num) le_rfl
    have hn := h.move (fun d hd => hd) b1 b2
    obtain ⟨n', d1, d2, d3, d4⟩ := hn.deviate (s := "S1") (d := "D1") (p := 1) (q := 0) (by simp) (by norm_num) le_rfl le_rfl (by norm_num)
    have hn' := hn.move (ds := ["D1"]) (by simp) d1 d2
    refine ⟨n, n', b1, b2, d1, d2, ?_, ?_⟩
    · rw [mean2' hn, b3, b4, b5, b6]; norm_num
    · rw [mean2' hn', d3, d4, TwoStep.unchanged d2 (by decide), TwoStep.unchanged d2 (by decide), b5, b6]; norm_num

/-- **C127** `impute_optimal_policy` succeeds on `get_sequential_cid`, whatever order networkx uses and whatever is drawn at random, and then both
decisions copy what they observe: the expected utility is 2. -/
theorem C127_sequential_solved : ∃ net, sequentialCid = .ok net ∧ ∀ (pick : Pick) (tpick : List Node → Nat) (ord setOrd : List Node → List Node) (rnd : Nat),
    (∀ l, (ord l).Perm l) → (∀ l, (setOrd l).Perm l) → ∃ n, net.imputeOptimalPolicy pick tpick ord setOrd rnd = (n, .ok ()) ∧
      OnlyRules net net.m.decisions n ∧ n.EU 0 = 2 ∧ n.answers "S1" "D1" 0 0 = 1 ∧ n.answers "S1" "D1" 1 1 = 1 ∧
      n.answers "S2" "D2" 0 0 = 1 ∧ n.answers "S2" "D2" 1 1 = 1 := by
  obtain ⟨net, e, h, hown⟩ := twoStep_built
  obtain ⟨net2, e2, -, hr, hall, -⟩ := C127_sequential
  rw [e] at e2
  cases e2
  obtain ⟨c1, c2, c3, c4, c5, c6, c7⟩ := twoStepM_facts
  refine ⟨net, e, fun pick tpick ord setOrd rnd hord hset => ?_⟩
  have hnames : NamesOk net.g := by unfold Net.g; rw [h.m]; exact ⟨by decide +kernel, by decide +kernel⟩
  have hD : net.m.decisions = ["D1", "D2"] := by rw [h.m, c4]
  have hone : ∀ d ∈ net.m.decisions, net.m.role d = .decision 0 := by rw [h.m]; decide +kernel
  have hrec : net.m.NoRelianceCycle net.m.decisions := by
    obtain ⟨b, b1, b2⟩ := recall_true h.usable hnames hone pick tpick
    rw [hr pick tpick] at b1
    cases b1
    exact b2.1 rfl
  have hP := h.parents
  have hE : ∀ u v, (u, v) ∈ sequentialEdges → net.g.Edge u v := by
    intro u v huv
    simp only [sequentialEdges, List.mem_cons, Prod.mk.injEq, List.not_mem_nil, or_false] at huv
    rcases huv with ⟨rfl, rfl⟩ | ⟨rfl, rfl⟩ | ⟨rfl, rfl⟩ | ⟨rfl, rfl⟩ | ⟨rfl, rfl⟩ | ⟨rfl, rfl⟩ | ⟨rfl, rfl⟩
    · exact ((hP ("D1", ["S1"]) (by simp)).2 _).2 (by simp)
    · exact ((hP ("U1", ["D1", "S1"]) (by simp)).2 _).2 (by simp)
    · exact ((hP ("U1", ["D1", "S1"]) (by simp)).2 _).2 (by simp)
    · exact ((hP ("S2", ["D1"]) (by simp)).2 _).2 (by simp)
    · exact ((hP ("D2", ["S2"]) (by simp)).2 _).2 (by simp)
    · exact ((hP ("U2", ["D2", "S2"]) (by simp)).2 _).2 (by simp)
    · exact ((hP ("U2", ["D2", "S2"]) (by simp)).2 _).2 (by simp)
  have hc12 : net.g.Connected "D1" "D2" :=
    (ReflTransGen.single (.inl (hE "D1" "S2" (by simp [sequentialEdges])))).tail (.inl (hE "S2" "D2" (by simp [sequentialEdges])))
  have hcon : ∀ d ∈ net.m.decisions, ∀ e ∈ net.m.decisions, net.g.Connected d e := by
    rw [hD]
    intro d hd e he
    simp only [List.mem_cons, List.not_mem_nil, or_false] at hd he
    rcases hd with rfl | rfl <;> rcases he with rfl | rfl
    · exact .refl
    · exact hc12
    · exact hc12.symm
    · exact .refl
  have hopt : net.Optimisable 0 := by
    rw [show net.Optimisable 0 ↔ _ from Iff.rfl]
    unfold Net.Optimisable
    intro d hd
    rw [hD] at hd
    -- the first decision tosses a coin
    obtain ⟨n, b1, b2, b3, b4, -, -⟩ := h.both (p := 1 / 2) (q := 1 / 2) (r := 1) (t := 1) (by norm_num) (by norm_num) (by norm_num) (by norm_num)
      (by norm_num) le_rfl (by norm_num) le_rfl
    have hn := h.move (fun d hd => hd) b1 b2
    have hp := Net.bn_prob b1.good b1.normalised
    obtain ⟨-, -, m1⟩ := hn.mix (s := "S1") (d := "D1") (x := 0) (by simp) (by simp)
    obtain ⟨-, -, m2⟩ := hn.mix (s := "S1") (d := "D1") (x := 1) (by simp) (by simp)
    obtain ⟨-, -, m3⟩ := hn.mix (s := "S2") (d := "D2") (x := 0) (by simp) (by simp)
    obtain ⟨-, -, m4⟩ := hn.mix (s := "S2") (d := "D2") (x := 1) (by simp) (by simp)
    rw [b3] at m1
    rw [b4] at m2
    have k1 : n.answers "S1" "D1" 0 1 = 1 / 2 := by linarith
    have k2 : n.answers "S1" "D1" 1 0 = 1 / 2 := by linarith
    have hpar : ∀ s d, (d, [s]) ∈ [("S1", []), ("D1", ["S1"]), ("S2", ["D1"]), ("D2", ["S2"]), ("U1", ["D1", "S1"]), ("U2", ["D2", "S2"])] → net.g.parents d = [s] := by
      intro s d hs
      unfold Net.g
      rw [h.m]
      exact (c3 _ hs).2
    simp only [List.mem_cons, List.not_mem_nil, or_false] at hd
    rcases hd with rfl | rfl
    · refine ⟨⟨"U1", by rw [h.m]; decide +kernel, .single (hE _ _ (by simp [sequentialEdges]))⟩, fun a ha => ⟨n, b1, by rw [hD]; exact b2, ?_⟩⟩
      rw [hpar "S1" "D1" (by simp), P_eq_W]
      have hx := ha "S1" (hP ("S1", []) (by simp)).1
      rw [h.dom "S1" (by simp)] at hx
      simp only [List.map_cons, List.map_nil]
      generalize a "S1" = x at hx
      rw [BN.W_possible hp (h := fun b => if b "S1" = x then 1 else 0) (fun b hb => by simp [Has]), hn.mean (fun s _ _ => if s = x then 1 else 0)]
      simp only [List.mem_cons, List.not_mem_nil, or_false] at hx
      simp only [List.map_cons, List.map_nil, List.sum_cons, List.sum_nil, b3, b4, k1, k2]
      rcases hx with rfl | rfl <;> norm_num <;> linarith
    · refine ⟨⟨"U2", by rw [h.m]; decide +kernel, .single (hE _ _ (by simp [sequentialEdges]))⟩, fun a ha => ⟨n, b1, by rw [hD]; exact b2, ?_⟩⟩
      rw [hpar "S2" "D2" (by simp), P_eq_W]
      have hx := ha "S2" (hP ("S2", ["D1"]) (by simp)).1
      rw [h.dom "S2" (by simp)] at hx
      simp only [List.map_cons, List.map_nil]
      generalize a "S2" = x at hx
      rw [BN.W_possible hp (h := fun b => if b "D1" = x then 1 else 0) (fun b hb => by simp [Has, hn.copies hb]), hn.mean (fun _ d _ => if d = x then 1 else 0)]
      simp only [List.mem_cons, List.not_mem_nil, or_false] at hx
      simp only [List.map_cons, List.map_nil, List.sum_cons, List.sum_nil, b3, b4, k1, k2]
      rcases hx with rfl | rfl <;> norm_num <;> linarith
  have hret := (C100_impute_optimal_policy h.usable hnames hone hrec hcon (fun _ _ p _ _ => hown p) pick tpick rnd hord hset).2 hopt
  generalize hq : net.imputeOptimalPolicy pick tpick ord setOrd rnd = q at hret
  obtain ⟨n, r⟩ := q
  simp only at hret
  subst hret
  obtain ⟨k1, k2, -, k4⟩ := C48_impute_optimal_policy h.usable hnames hone hrec hord hset hq
  obtain ⟨f1, f2, f3, -, f5⟩ := hall n k1 k2
  obtain ⟨x1, x2, x3, x4⟩ := f5.1 k4
  refine ⟨n, rfl, k2, ?_, x1, x2, x3, x4⟩
  rw [f3, f1, f2, x1, x2, x3, x4]
  norm_num

theorem close_low {t v m : Rat} (t0 : 0 ≤ t) (t1 : t < 1) (hv : 0 ≤ v) (h : Close t v m) : (1 - t) * v ≤ m := by
  unfold Close at h
  rcases le_or_gt v m with hm | hm
  · nlinarith
  · rw [abs_of_pos (by linarith : (0 : Rat) < v - m), abs_of_nonneg hv] at h
    rcases le_or_gt 0 m with m0 | m0
    · rw [abs_of_nonneg m0, max_eq_left hm.le] at h
      linarith
    · rw [abs_of_neg m0] at h
      have : max v (-m) ≤ v - m := max_le (by linarith) (by linarith)
      nlinarith

/-- **C127** `impute_optimal_policy` succeeds on `get_insufficient_recall_cid` as well; it tries all policies, so it does not get stuck in the stable
policy that earns nothing.  Policies are compared with a relative tolerance of 1e-9. -/
theorem C127_insufficient_solved : ∃ net, insufficientRecallCid = .ok net ∧
    ∀ (pick : Pick) (tpick : List Node → Nat) (ord setOrd : List Node → List Node) (rnd : Nat),
    (∀ l, (ord l).Perm l) → (∀ l, (setOrd l).Perm l) → ∃ n, net.imputeOptimalPolicy pick tpick ord setOrd rnd = (n, .ok ()) ∧
      OnlyRules net net.m.decisions n ∧ 1 - 1 / 100000000 ≤ n.EU 0 := by
  obtain ⟨net, e, h⟩ := forget_built
  obtain ⟨net2, e2, -, hr, hall, hfree⟩ := C127_insufficient_recall
  rw [e] at e2
  cases e2
  obtain ⟨c1, c2, c3, c4, c5, c6, c7, c8, c9, c10⟩ := forgetM_facts
  refine ⟨net, e, fun pick tpick ord setOrd rnd hord hset => ?_⟩
  have hnames : NamesOk net.g := by unfold Net.g; rw [h.m]; exact ⟨by decide +kernel, by decide +kernel⟩
  have hone : ∀ d ∈ net.m.decisions, net.m.role d = .decision 0 := by rw [h.m, c4]; exact c10
  have hrec : ¬ net.m.NoRelianceCycle net.m.decisions := by
    obtain ⟨b, b1, b2⟩ := recall_true h.usable hnames hone pick tpick
    rw [hr pick tpick] at b1
    cases b1
    exact fun q => by simpa using b2.2 q
  have hE : ∀ d ∈ ["A", "B"], net.g.Edge d "U" := by
    intro d hd
    rw [← Graph.mem_parents]
    unfold Net.g
    rw [h.m, c7]
    exact hd
  have hUtil : ∀ u, net.m.role u = .utility 0 → u = "U" := by
    intro u hu
    obtain ⟨us, q1, q2⟩ := (h.usable.roles.util.iff u 0).1 ((role_utility h.usable.roles).1 hu)
    rw [h.m, c5] at q1
    cases q1
    simpa using q2
  have hconn : ∀ u v, net.m.role u = .utility 0 → (net.m.role v = .utility 0 ∨ v ∈ net.m.decisions) → net.g.Connected u v := by
    intro u v hu hv
    rw [hUtil u hu]
    rcases hv with hv | hv
    · rw [hUtil v hv]; exact .refl
    · rw [h.m, c4] at hv
      exact .single (.inr (hE v hv))
  have hret := C100_without_recall h.usable hnames hone hrec hconn pick tpick rnd hord hset
  generalize hq : net.imputeOptimalPolicy pick tpick ord setOrd rnd = q at hret
  obtain ⟨n, r⟩ := q
  simp only at hret
  subst hret
  obtain ⟨k1, k2, m, k3, k4⟩ := C48_without_recall h.usable hnames hone hrec hord hset hq
  refine ⟨n, rfl, k2, ?_⟩
  obtain ⟨b, b1, b2, b3, b4⟩ := hfree 1 1 (by norm_num) le_rfl (by norm_num) le_rfl
  have hb := (hall b b1 b2).1
  rw [b3, b4] at hb
  have hn := h.move (fun d hd => by rw [h.m, c4] at hd; exact hd) k1 k2
  obtain ⟨x0, x1, -⟩ := hn.mix (d := "A") (by simp)
  obtain ⟨y0, y1, -⟩ := hn.mix (d := "B") (by simp)
  have z0 : 0 ≤ n.EU 0 := by rw [hn.EU]; exact mul_nonneg x0 y0
  have k5 := k4 b b1 b2
  rw [hb] at k5
  have hm : (1 - 1 / 1000000000) * 1 ≤ m := by
    rcases k5 with k5 | ⟨v, v1, v2⟩
    · linarith
    · have := close_low (by norm_num) (by norm_num) (by linarith) v2
      linarith
  have k6 := close_low (t := 1 / 1000000000) (v := m) (m := n.EU 0) (by norm_num) (by norm_num) (by linarith) (by
    unfold Close at k3 ⊢
    rw [abs_sub_comm, max_comm]
    exact k3)
  linarith

end Verif

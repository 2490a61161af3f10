import Verif.Lemmas.Incentive
import Verif.Props.Paths
import Verif.Props.Solve

/-!
# Requisite observations and the graphical incentive criteria (C51, C52, C54, C55, C56, C59)

`pick`, `tpick`, `sord` and `setOrd` are arbitrary iteration orders.
-/

namespace Verif

open Graph Relation Macid Net

/-! ### a diagram for the examples -/

/-- `A` and `X` are observed, but only `A` matters: `W → X → D`, `A → D`, `A → U`, `D → M → U` -/
def exInfo : Macid :=
  ⟨⟨["W", "X", "D", "A", "U", "M"], [("W", "X"), ("X", "D"), ("A", "D"), ("A", "U"), ("D", "M"), ("M", "U")]⟩,
    [(0, ["D"])], [(0, ["U"])], [("D", 0)], [("U", 0)]⟩

def exInfoNet : Net := ⟨exInfo, [], [], [], Macid.new⟩

theorem exInfo_consistent : exInfo.Consistent :=
  C15_constructor_consistent [("W", "X"), ("X", "D"), ("A", "D"), ("A", "U"), ("D", "M"), ("M", "U")] [(0, ["D"])] [(0, ["U"])]
    exInfo (by decide +kernel) (by decide) (by decide) (by decide) (by decide)

theorem exInfoNet_analysable : exInfoNet.Analysable := by
  refine ⟨exInfo_consistent, Or.inl rfl, ⟨fun a => Iff.rfl, fun a ha => Or.inl ?_⟩, Or.inl rfl⟩
  have : a = 0 := by simpa [exInfoNet, exInfo, Dict.keys] using ha
  subst this
  exact ⟨⟨"D", by decide⟩, ⟨"U", by decide⟩⟩

theorem Ex2.net_analysable : Ex2.net.Analysable :=
  ⟨Ex2.usable.1.roles, Ex2.usable.1.base, Ex2.usable.1.staffed, Or.inr Ex2.usable.1.good⟩

/-! ### C51 -/

/-- **C51** `requisite(cid, d, x)`: NetworkXError for an unknown decision, KeyError if `x` is not observed or `d` is not a decision
of an agent with utilities; otherwise True iff `x` is a requisite observation. -/
theorem C51_requisite (m : Macid) (hc : m.Consistent) (pick : Pick) (setOrd : ListOrder) (hset : ∀ l, (setOrd l).Perm l) (d x : Node) :
    (d ∉ m.g.nodes → requisite pick setOrd m d x = .error .nx) ∧
    (d ∈ m.g.nodes → ¬ m.g.Edge x d → requisite pick setOrd m d x = .error .key) ∧
    (m.g.Edge x d → (∀ a, m.role d ≠ .decision a) → requisite pick setOrd m d x = .error .key) ∧
    (m.g.Edge x d → ∀ a, m.role d = .decision a → a ∉ m.agents → requisite pick setOrd m d x = .error .key) ∧
    (m.g.Edge x d → ∀ a, m.role d = .decision a → a ∈ m.agents →
      ∃ b, requisite pick setOrd m d x = .ok b ∧ (b = true ↔ m.Requisite d x)) := by
  refine ⟨fun h => ?_, fun h h2 => ?_, fun h h2 => ?_, fun h a h2 h3 => ?_, fun h a h2 h3 => requisite_spec hc hset h2 h3 h⟩
  · unfold requisite; rw [if_pos h]
  · unfold requisite
    rw [if_neg (by simpa using h), if_pos (by rw [Graph.mem_parents]; exact h2)]
  · unfold requisite
    rw [if_neg (by simpa using (hc.wf.edgeNodes _ _ h).2), if_neg (by rw [Graph.mem_parents]; simpa using h)]
    have : m.decisionAgent.get d = .error .key := by
      unfold Dict.get
      cases hg : m.decisionAgent.get? d with
      | none => rfl
      | some a => exact absurd (role_decision.2 hg) (h2 a)
    rw [this]
  · unfold requisite
    rw [if_neg (by simpa using (hc.wf.edgeNodes _ _ h).2), if_neg (by rw [Graph.mem_parents]; simpa using h),
      Dict.get_ok.2 (role_decision.1 h2)]
    have : m.agentUtilities.get a = .error .key := by
      unfold Dict.get
      cases hg : m.agentUtilities.get? a with
      | none => rfl
      | some l => exact absurd (Dict.mem_keys.2 ⟨l, hg⟩) h3
    simp only [this]

example : exInfo.Consistent ∧ exInfo.g.Edge "A" "D" ∧ exInfo.role "D" = .decision 0 ∧ 0 ∈ exInfo.agents ∧
    requisite (fun _ => 0) id exInfo "D" "A" = .ok true ∧ requisite (fun _ => 0) id exInfo "D" "X" = .ok false :=
  ⟨exInfo_consistent, by decide, by decide, by decide, by decide +kernel, by decide +kernel⟩

/-- **C51** `requisite_graph` returns the graph with the nonrequisite observations removed, from the last decision to the first:
same nodes, same roles, only edges into decisions are missing. -/
theorem C51_requisite_graph {net : Net} (h : net.Analysable) (pick : Pick) (tpick : List Node → Nat) {setOrd : ListOrder}
    (hset : ∀ l, (setOrd l).Perm l) :
    ∃ rg order, requisiteGraph pick tpick setOrd net = .ok rg ∧ net.m.IsOrder order ∧ net.m.IsRequisiteGraph order rg.g ∧
      ∀ n, rg.m.role n = net.m.role n := by
  obtain ⟨rg, order, h1, _, h2, h3, _, h4⟩ := h.requisiteGraph pick tpick hset
  exact ⟨rg, order, h1, h2, h3, h4⟩

/-- **C51** with one decision: an edge is kept iff it does not lead into the decision or is a requisite observation -/
theorem C51_single_decision {net : Net} (h : net.Analysable) (pick : Pick) (tpick : List Node → Nat) {setOrd : ListOrder}
    (hset : ∀ l, (setOrd l).Perm l) {d : Node} {a : Agent} (hd : net.m.role d = .decision a)
    (h1 : ∀ e b, net.m.role e = .decision b → e = d) :
    ∃ rg, requisiteGraph pick tpick setOrd net = .ok rg ∧ rg.g.nodes = net.g.nodes ∧
      ∀ u v, rg.g.Edge u v ↔ net.g.Edge u v ∧ (v = d → net.m.Requisite d u) := by
  obtain ⟨rg, order, q1, q2, q3, _⟩ := C51_requisite_graph h pick tpick hset
  have ho := q2.single hd h1
  subst ho
  refine ⟨rg, q1, q3.nodes, fun u v => ⟨fun q => ⟨q3.sub u v q, ?_⟩, fun q => ?_⟩⟩
  · rintro rfl
    exact (q3.single u).1 q
  · by_cases e : v = d
    · subst e
      exact (q3.single u).2 (q.2 rfl)
    · exact q3.other u v q.1 (by simpa using e)

example : exInfoNet.Analysable ∧ exInfoNet.m.role "D" = .decision 0 ∧ (∀ e b, exInfoNet.m.role e = .decision b → e = "D") ∧
    ∃ rg, requisiteGraph (fun _ => 0) (fun _ => 0) id exInfoNet = .ok rg ∧ rg.g.Edge "A" "D" ∧ ¬ rg.g.Edge "X" "D" := by
  refine ⟨exInfoNet_analysable, by decide, ?_, ?_⟩
  · intro e b h
    have := role_decision.1 h
    have := Dict.mem_of_get? this
    simp [exInfoNet, exInfo] at this
    exact this.1
  · obtain ⟨rg, _, h1, _⟩ := C51_requisite_graph exInfoNet_analysable (fun _ => 0) (fun _ => 0) (setOrd := id) (fun _ => List.Perm.refl _)
    refine ⟨rg, h1, ?_⟩
    have : (match requisiteGraph (fun _ => 0) (fun _ => 0) id exInfoNet with
      | .ok rg => decide (("A", "D") ∈ rg.g.edges ∧ ("X", "D") ∉ rg.g.edges)
      | .error _ => false) = true := by decide +kernel
    rw [h1] at this
    simpa [Graph.Edge] using this

/-- a parameterised diagram with two decisions -/
example : Ex2.net.Analysable ∧ ∃ rg, requisiteGraph (fun _ => 0) (fun _ => 0) id Ex2.net = .ok rg := by
  obtain ⟨rg, _, h1, _⟩ := C51_requisite_graph Ex2.net_analysable (fun _ => 0) (fun _ => 0) (setOrd := id) (fun _ => List.Perm.refl _)
  exact ⟨Ex2.net_analysable, rg, h1⟩

/-- FALSE for a diagram with an agent that has decisions but no utilities: its copy forgets that decision, and
`requisite_graph` raises KeyError. -/
theorem C51_agent_without_utilities : ∃ m : Macid, m.Consistent ∧ "D" ∈ m.decisions ∧
    requisiteGraph (fun _ => 0) (fun _ => 0) id ⟨m, [], [], [], Macid.new⟩ = .error .key := by
  refine ⟨⟨⟨["A", "D", "C", "U"], [("A", "D"), ("C", "U")]⟩, [(0, ["C"]), (1, ["D"])], [(0, ["U"])],
    [("C", 0), ("D", 1)], [("U", 0)]⟩, ?_, by decide, ?_⟩
  · exact C15_constructor_consistent [("A", "D"), ("C", "U")] [(0, ["C"]), (1, ["D"])] [(0, ["U"])] _
      (by decide +kernel) (by decide) (by decide) (by decide) (by decide)
  · generalize hr : requisiteGraph (fun _ => 0) (fun _ => 0) id _ = r
    have : (match requisiteGraph (fun _ => 0) (fun _ => 0) id ⟨⟨⟨["A", "D", "C", "U"], [("A", "D"), ("C", "U")]⟩, [(0, ["C"]), (1, ["D"])], [(0, ["U"])],
      [("C", 0), ("D", 1)], [("U", 0)]⟩, [], [], [], Macid.new⟩ with
      | .ok _ => false | .error e => decide (e = .key)) = true := by decide +kernel
    rw [hr] at this
    cases r with
    | ok _ => simp at this
    | error e => simpa using this

/-! ### C52 -/

/-- **C52** `admits_voi` for a decision: False for the decision itself and its descendants; otherwise True iff the observation
`x → d` survives in the requisite graph of the diagram with that edge added. -/
theorem C52_admits_voi {net : Net} (h : net.Analysable) (hn : NamesOk net.g) (pick : Pick) (tpick : List Node → Nat)
    {setOrd : ListOrder} (hset : ∀ l, (setOrd l).Perm l) (h1 : net.m.agents.length ≤ 1) (hr : net.m.Recalls) {x d : Node}
    (hx : x ∈ net.g.nodes) (hd : d ∈ net.g.nodes) :
    (net.g.DescEq d x → admitsVoi pick tpick setOrd net d x = .ok false) ∧
    (¬ net.g.DescEq d x → ∃ order H b, (net.m.onGraph (net.g.plus x d)).IsOrder order ∧
      (net.m.onGraph (net.g.plus x d)).IsRequisiteGraph order H ∧
      admitsVoi pick tpick setOrd net d x = .ok b ∧ (b = true ↔ H.Edge x d)) := by
  have hg : guards net [x, d] = .ok () := guards_ok.2 ⟨h1, by simp [hx, hd]⟩
  have hrec := (h.recall hn pick tpick).1 hr
  have hcond : (x ∈ net.g.descendants d ∨ x = d) ↔ net.g.DescEq d x := by
    rw [mem_descendants h.roles.wf, desc_iff h.roles.wf]
    constructor
    · rintro (h | rfl)
      · exact h.1
      · exact ReflTransGen.refl
    · intro h
      by_cases e : x = d
      · exact Or.inr e
      · exact Or.inl ⟨h, e⟩
  constructor
  · intro hq
    unfold admitsVoi
    simp only [hg, hrec, if_pos (hcond.2 hq)]
  · intro hq
    obtain ⟨c2, c3, k1, k2, k3, k4, k5, k6⟩ := h.plusEdge hx hd hq
    obtain ⟨rg, order, j1, j2, j3, _⟩ := C51_requisite_graph k3 pick tpick hset
    refine ⟨order, rg.g, decide (x ∈ rg.g.parents d), j2.congr (m := net.m.onGraph (net.g.plus x d)) k6 k5,
      j3.congr (m := net.m.onGraph (net.g.plus x d)) k6 k4 k5, ?_, by simp [Graph.mem_parents]⟩
    unfold admitsVoi
    simp only [hg, hrec, if_neg (fun q => hq (hcond.1 q)), k1, k2, j1]

/-- **C52** with one decision: True iff `x` is neither the decision nor below it and, with the observation added, `x` is d-connected
to a utility below the decision given the rest of the family of the decision. -/
theorem C52_single_decision {net : Net} (h : net.Analysable) (hn : NamesOk net.g) (pick : Pick) (tpick : List Node → Nat)
    {setOrd : ListOrder} (hset : ∀ l, (setOrd l).Perm l) (h1 : net.m.agents.length ≤ 1) {x d : Node}
    (hx : x ∈ net.g.nodes) {a : Agent} (hd : net.m.role d = .decision a) (hone : ∀ e b, net.m.role e = .decision b → e = d) :
    ∃ b, admitsVoi pick tpick setOrd net d x = .ok b ∧
      (b = true ↔ ¬ net.g.DescEq d x ∧ (net.m.onGraph (net.g.plus x d)).Requisite d x) := by
  have hdn : d ∈ net.g.nodes := h.roles.nodes d (Or.inl (Dict.mem_keys.2 ⟨a, role_decision.1 hd⟩))
  have hr : net.m.Recalls := by
    intro b ds hds c hc
    have hsub : ∀ e ∈ ds, e = d := fun e he => hone e b ((hds e).1 he)
    rcases TransGen.head'_iff.1 hc with ⟨c', ⟨q1, q2, q3, _⟩, _⟩
    exact q3 ((hsub _ q1).trans (hsub _ q2).symm)
  obtain ⟨k1, k2⟩ := C52_admits_voi h hn pick tpick hset h1 hr hx hdn
  by_cases hq : net.g.DescEq d x
  · exact ⟨false, k1 hq, by simp [hq]⟩
  · obtain ⟨order, H, b, j1, j2, j3, j4⟩ := k2 hq
    have ho := IsOrder.single (m := net.m.onGraph (net.g.plus x d)) hd hone j1
    subst ho
    refine ⟨b, j3, j4.trans ?_⟩
    rw [j2.single x]
    simp [hq]

example : exInfoNet.Analysable ∧ NamesOk exInfoNet.g ∧ exInfoNet.m.agents.length ≤ 1 ∧ exInfoNet.m.role "D" = .decision 0 ∧
    admitsVoi (fun _ => 0) (fun _ => 0) id exInfoNet "D" "A" = .ok true ∧
    admitsVoi (fun _ => 0) (fun _ => 0) id exInfoNet "D" "W" = .ok false ∧
    admitsVoi (fun _ => 0) (fun _ => 0) id exInfoNet "D" "M" = .ok false :=
  ⟨exInfoNet_analysable, ⟨by decide +kernel, by decide +kernel⟩, by decide, by decide, by decide +kernel, by decide +kernel,
    by decide +kernel⟩

/-- **C52** the errors: ValueError for several agents, then KeyError for unknown nodes, then ValueError without sufficient recall -/
theorem C52_errors {net : Net} (h : net.Analysable) (hn : NamesOk net.g) (pick : Pick) (tpick : List Node → Nat)
    (setOrd : ListOrder) (x d : Node) :
    (1 < net.m.agents.length → admitsVoi pick tpick setOrd net d x = .error .value) ∧
    (net.m.agents.length ≤ 1 → ¬ (x ∈ net.g.nodes ∧ d ∈ net.g.nodes) → admitsVoi pick tpick setOrd net d x = .error .key) ∧
    (net.m.agents.length ≤ 1 → x ∈ net.g.nodes → d ∈ net.g.nodes → ¬ net.m.Recalls →
      admitsVoi pick tpick setOrd net d x = .error .value) := by
  refine ⟨fun q => ?_, fun q1 q2 => ?_, fun q1 q2 q3 q4 => ?_⟩
  · unfold admitsVoi; rw [guards_many q]
  · unfold admitsVoi
    have : guards net [x, d] = .error .key := by
      by_cases hx : x ∈ net.g.nodes
      · exact guards_key q1 (n := d) (by simp) (fun hd => q2 ⟨hx, hd⟩)
      · exact guards_key q1 (n := x) (by simp) hx
    rw [this]
  · unfold admitsVoi
    rw [guards_ok.2 ⟨q1, by simp [q2, q3]⟩, (h.recall hn pick tpick).2 q4]

/-- **C52** a caution: for a node that is no decision `admits_voi` returns True for everything that is not below it. -/
theorem C52_not_a_decision {net : Net} (h : net.Analysable) (hn : NamesOk net.g) (pick : Pick) (tpick : List Node → Nat)
    {setOrd : ListOrder} (hset : ∀ l, (setOrd l).Perm l) (h1 : net.m.agents.length ≤ 1) (hr : net.m.Recalls) {x d : Node}
    (hx : x ∈ net.g.nodes) (hd : d ∈ net.g.nodes) (hdd : ∀ a, net.m.role d ≠ .decision a) (hq : ¬ net.g.DescEq d x) :
    admitsVoi pick tpick setOrd net d x = .ok true := by
  obtain ⟨order, H, b, j1, j2, j3, j4⟩ := (C52_admits_voi h hn pick tpick hset h1 hr hx hd).2 hq
  have : b = true := j4.2 (j2.other x d (by simp [Graph.Edge, Graph.plus, onGraph]) (fun hm => by
    obtain ⟨a, ha⟩ := (j1.all d).1 hm
    exact hdd a ha))
  rw [j3, this]

example : exInfoNet.Analysable ∧ "W" ∈ exInfoNet.g.nodes ∧ (∀ a, exInfoNet.m.role "U" ≠ .decision a) ∧
    admitsVoi (fun _ => 0) (fun _ => 0) id exInfoNet "U" "W" = .ok true :=
  ⟨exInfoNet_analysable, by decide, fun a h => by simp [Macid.role, exInfoNet, exInfo, Dict.get?] at h, by decide +kernel⟩

/-! ### C54 -/

/-- **C54** `admits_ri`: True iff `x` is not the decision and the requisite graph has a directed path from `x` to the decision -/
theorem C54_admits_ri {net : Net} (h : net.Analysable) (hn : NamesOk net.g) (pick : Pick) (tpick : List Node → Nat)
    {setOrd : ListOrder} (hset : ∀ l, (setOrd l).Perm l) (h1 : net.m.agents.length ≤ 1) (hr : net.m.Recalls) {x d : Node}
    (hx : x ∈ net.g.nodes) (hd : d ∈ net.g.nodes) :
    ∃ rg b order, requisiteGraph pick tpick setOrd net = .ok rg ∧ net.m.IsOrder order ∧ net.m.IsRequisiteGraph order rg.g ∧
      admitsRi pick tpick setOrd net d x = .ok b ∧ (b = true ↔ x ≠ d ∧ ∃ p, rg.g.IsDirPath x d p) := by
  have hg : guards net [x, d] = .ok () := guards_ok.2 ⟨h1, by simp [hx, hd]⟩
  have hrec := (h.recall hn pick tpick).1 hr
  obtain ⟨rg, order, j1, _, j2, j3, j4, _⟩ := h.requisiteGraph pick tpick hset
  by_cases e : x = d
  · refine ⟨rg, false, order, j1, j2, j3, ?_, by simp [e]⟩
    unfold admitsRi
    simp only [hg, hrec, if_pos e]
  · obtain ⟨ps, p1, _, p2⟩ := (C01_find_all_dir_paths rg.g j4.wf x d).1 (by rw [j3.nodes]; exact hx) (by rw [j3.nodes]; exact hd)
    refine ⟨rg, decide (ps ≠ []), order, j1, j2, j3, ?_, ?_⟩
    · unfold admitsRi
      simp only [hg, hrec, if_neg e, j1, p1]
    · simp only [decide_eq_true_eq, ne_eq, e, not_false_eq_true, true_and]
      rw [List.eq_nil_iff_forall_not_mem]
      simp only [p2, not_forall, not_not]

/-- **C54** the errors -/
theorem C54_errors {net : Net} (h : net.Analysable) (hn : NamesOk net.g) (pick : Pick) (tpick : List Node → Nat)
    (setOrd : ListOrder) (x d : Node) :
    (1 < net.m.agents.length → admitsRi pick tpick setOrd net d x = .error .value) ∧
    (net.m.agents.length ≤ 1 → ¬ (x ∈ net.g.nodes ∧ d ∈ net.g.nodes) → admitsRi pick tpick setOrd net d x = .error .key) ∧
    (net.m.agents.length ≤ 1 → x ∈ net.g.nodes → d ∈ net.g.nodes → ¬ net.m.Recalls →
      admitsRi pick tpick setOrd net d x = .error .value) := by
  refine ⟨fun q => ?_, fun q1 q2 => ?_, fun q1 q2 q3 q4 => ?_⟩
  · unfold admitsRi; rw [guards_many q]
  · unfold admitsRi
    have : guards net [x, d] = .error .key := by
      by_cases hx : x ∈ net.g.nodes
      · exact guards_key q1 (n := d) (by simp) (fun hd => q2 ⟨hx, hd⟩)
      · exact guards_key q1 (n := x) (by simp) hx
    rw [this]
  · unfold admitsRi
    rw [guards_ok.2 ⟨q1, by simp [q2, q3]⟩, (h.recall hn pick tpick).2 q4]

example : exInfoNet.Analysable ∧ exInfoNet.m.agents.length ≤ 1 ∧ admitsRi (fun _ => 0) (fun _ => 0) id exInfoNet "D" "A" = .ok true ∧
    admitsRi (fun _ => 0) (fun _ => 0) id exInfoNet "D" "W" = .ok false ∧ exInfo.g.Desc "W" "D" :=
  ⟨exInfoNet_analysable, by decide, by decide +kernel, by decide +kernel,
    .tail (.single (by decide : exInfo.g.Edge "W" "X")) (by decide : exInfo.g.Edge "X" "D")⟩

/-- two decisions without recall -/
example : (Net.mk exForget [] [] [] Macid.new).Analysable ∧
    admitsRi (fun _ => 0) (fun _ => 0) id ⟨exForget, [], [], [], Macid.new⟩ "D1" "D2" = .error .value := by
  refine ⟨⟨exForget_consistent, Or.inl rfl, ⟨fun a => Iff.rfl, fun a ha => Or.inl ?_⟩, Or.inl rfl⟩, by decide +kernel⟩
  have : a = 0 := by simpa [exForget, Dict.keys] using ha
  subst this
  exact ⟨⟨"D1", by decide⟩, ⟨"U", by decide⟩⟩

/-! ### C55 -/

/-- **C55** `admits_ici`: True iff some directed path from `d` to a utility passes through `x` -/
theorem C55_admits_ici {net : Net} (hc : net.m.Consistent) (h1 : net.m.agents.length ≤ 1) {x d : Node}
    (hx : x ∈ net.g.nodes) (hd : d ∈ net.g.nodes) :
    ∃ b, admitsIci net d x = .ok b ∧ (b = true ↔ ∃ u a p, net.m.role u = .utility a ∧ net.g.IsDirPath d u p ∧ x ∈ p) := by
  have hg : guards net [x, d] = .ok () := guards_ok.2 ⟨h1, by simp [hx, hd]⟩
  have hu : ∀ u ∈ net.m.utilities, ∃ ps, findAllDirPaths net.g d u = .ok ps ∧ ∀ p, p ∈ ps ↔ net.g.IsDirPath d u p := by
    intro u hu
    obtain ⟨ps, p1, _, p2⟩ := (C01_find_all_dir_paths net.g hc.wf d u).1 hd (hc.nodes u (Or.inr hu))
    exact ⟨ps, p1, p2⟩
  choose! f hf hf' using hu
  have hm : mapPy (fun u => findAllDirPaths net.g d u) net.m.utilities = .ok (net.m.utilities.map f) := mapPy_map hf
  refine ⟨(net.m.utilities.map f).flatten.any (fun p => decide (x ∈ p)), ?_, ?_⟩
  · unfold admitsIci
    simp only [hg, hm]
  · simp only [List.any_eq_true, List.mem_flatten, List.mem_map, decide_eq_true_eq]
    constructor
    · rintro ⟨p, ⟨_, ⟨u, hu, rfl⟩, hp⟩, hxp⟩
      obtain ⟨a, ha⟩ := Dict.mem_keys.1 hu
      exact ⟨u, a, p, (role_utility hc).2 ha, (hf' u hu p).1 hp, hxp⟩
    · rintro ⟨u, a, p, hu, hp, hxp⟩
      have hu' : u ∈ net.m.utilities := Dict.mem_keys.2 ⟨a, (role_utility hc).1 hu⟩
      exact ⟨p, ⟨_, ⟨u, hu', rfl⟩, (hf' u hu' p).2 hp⟩, hxp⟩

/-- **C55** in terms of descendants: `x` lies between the decision and a utility -/
theorem C55_between {net : Net} (hc : net.m.Consistent) (h1 : net.m.agents.length ≤ 1) {x d : Node}
    (hx : x ∈ net.g.nodes) (hd : d ∈ net.g.nodes) :
    admitsIci net d x = .ok true ↔ net.g.DescEq d x ∧ ∃ u a, net.m.role u = .utility a ∧ net.g.DescEq x u := by
  obtain ⟨b, k1, k2⟩ := C55_admits_ici hc h1 hx hd
  rw [k1]
  have : (Except.ok b = (Except.ok true : Py Bool)) ↔ b = true := by
    constructor
    · intro h; cases h; rfl
    · rintro rfl; rfl
  rw [this, k2]
  constructor
  · rintro ⟨u, a, p, q1, ⟨q2, q3, q4⟩, q5⟩
    obtain ⟨l, r, rfl⟩ := List.append_of_mem q5
    refine ⟨descEq_iff_path.2 ⟨l ++ [x], ?_, by simp, ?_⟩, u, a, q1, descEq_iff_path.2 ⟨x :: r, rfl, ?_, ?_⟩⟩
    · cases l <;> simp_all
    · rw [show l ++ x :: r = (l ++ [x]) ++ r by simp] at q4
      exact q4.left_of_append
    · rw [List.getLast?_append_of_ne_nil _ (by simp)] at q3
      exact q3
    · exact q4.right_of_append
  · rintro ⟨q1, u, a, q2, q3⟩
    obtain ⟨p, p1, p2, p3⟩ := descEq_iff_path.1 q1
    obtain ⟨r, r1, r2, r3⟩ := descEq_iff_path.1 q3
    cases r with
    | nil => simp at r1
    | cons y r =>
      simp only [List.head?_cons, Option.some.injEq] at r1
      subst r1
      have hp : p ≠ [] := by rintro rfl; simp at p1
      refine ⟨u, a, p ++ r, q2, ⟨?_, ?_, ?_⟩, ?_⟩
      · cases p with
        | nil => exact absurd rfl hp
        | cons z p => simpa using p1
      · cases r with
        | nil =>
          have : y = u := by simpa using r2
          subst this
          simpa using p2
        | cons z r =>
          rw [List.getLast?_append_of_ne_nil _ (by simp)]
          simpa using r2
      · refine List.IsChain.append p3 r3.tail ?_
        intro b hb c hc'
        rw [p2] at hb
        cases hb
        cases r with
        | nil => simp at hc'
        | cons z r =>
          simp only [List.head?_cons, Option.mem_def, Option.some.injEq] at hc'
          subst hc'
          exact List.IsChain.rel r3 
      · have := List.mem_of_getLast? p2
        simp [this]

/-- **C55** the errors: no recall is required -/
theorem C55_errors (net : Net) (x d : Node) :
    (1 < net.m.agents.length → admitsIci net d x = .error .value) ∧
    (net.m.agents.length ≤ 1 → ¬ (x ∈ net.g.nodes ∧ d ∈ net.g.nodes) → admitsIci net d x = .error .key) := by
  refine ⟨fun q => ?_, fun q1 q2 => ?_⟩
  · unfold admitsIci; rw [guards_many q]
  · unfold admitsIci
    have : guards net [x, d] = .error .key := by
      by_cases hx : x ∈ net.g.nodes
      · exact guards_key q1 (n := d) (by simp) (fun hd => q2 ⟨hx, hd⟩)
      · exact guards_key q1 (n := x) (by simp) hx
    rw [this]

example : exInfoNet.m.Consistent ∧ exInfoNet.m.agents.length ≤ 1 ∧ admitsIci exInfoNet "D" "M" = .ok true ∧
    admitsIci exInfoNet "D" "D" = .ok true ∧ admitsIci exInfoNet "D" "A" = .ok false :=
  ⟨exInfo_consistent, by decide, by decide +kernel, by decide +kernel, by decide +kernel⟩

/-! ### C56 -/

/-- **C56** `admits_voc`: True iff `x` is no decision and is a utility or an ancestor of one in the requisite graph -/
theorem C56_admits_voc {net : Net} (h : net.Analysable) (hn : NamesOk net.g) {pick : Pick} {tpick : List Node → Nat}
    {setOrd : ListOrder} (hset : ∀ l, (setOrd l).Perm l) (h1 : net.m.agents.length ≤ 1) (hr : net.m.Recalls) {x : Node}
    (hx : x ∈ net.g.nodes) {rg : Net} (hrg : requisiteGraph pick tpick setOrd net = .ok rg) :
    ∃ b, admitsVoc pick tpick setOrd net x = .ok b ∧
      (b = true ↔ (∀ a, net.m.role x ≠ .decision a) ∧ ∃ u a, net.m.role u = .utility a ∧ rg.g.DescEq x u) := by
  have hg : guards net [x] = .ok () := guards_ok.2 ⟨h1, by simp [hx]⟩
  have hrec := (h.recall hn pick tpick).1 hr
  obtain ⟨rg', order, j1, _, j2, j3, j4, _⟩ := h.requisiteGraph pick tpick hset
  rw [hrg] at j1
  cases j1
  by_cases e : x ∈ net.m.decisions
  · refine ⟨false, ?_, ?_⟩
    · unfold admitsVoc
      simp only [hg, hrec, if_pos e]
    · obtain ⟨a, ha⟩ := Dict.mem_keys.1 e
      simp only [Bool.false_eq_true, false_iff, not_and]
      intro q
      exact absurd (role_decision.2 ha) (q a)
  · refine ⟨net.m.utilities.any (fun u => decide (x = u ∨ u ∈ rg.g.descendants x)), ?_, ?_⟩
    · unfold admitsVoc
      simp only [hg, hrec, if_neg e, hrg]
    · simp only [List.any_eq_true, decide_eq_true_eq, mem_descendants j4.wf]
      have hdesc : ∀ u, (x = u ∨ rg.g.Desc x u) ↔ rg.g.DescEq x u := by
        intro u
        rw [DescEq, reflTransGen_iff_eq_or_transGen, eq_comm]; rfl
      simp only [hdesc]
      constructor
      · rintro ⟨u, hu, q⟩
        obtain ⟨a, ha⟩ := Dict.mem_keys.1 hu
        exact ⟨fun a ha => e (Dict.mem_keys.2 ⟨a, role_decision.1 ha⟩), u, a, (role_utility h.roles).2 ha, q⟩
      · rintro ⟨_, u, a, hu, q⟩
        exact ⟨u, Dict.mem_keys.2 ⟨a, (role_utility h.roles).1 hu⟩, q⟩

/-- **C56** `admits_dir_voc`: True iff the requisite graph has a directed path from `x` to a utility that avoids all decisions -/
theorem C56_admits_dir_voc {net : Net} (h : net.Analysable) (hn : NamesOk net.g) {pick : Pick} {tpick : List Node → Nat}
    {setOrd : ListOrder} (hset : ∀ l, (setOrd l).Perm l) (h1 : net.m.agents.length ≤ 1) (hr : net.m.Recalls) {x : Node}
    (hx : x ∈ net.g.nodes) {rg : Net} (hrg : requisiteGraph pick tpick setOrd net = .ok rg) :
    ∃ b, admitsDirVoc pick tpick setOrd net x = .ok b ∧
      (b = true ↔ ∃ u a p, net.m.role u = .utility a ∧ rg.g.IsDirPath x u p ∧ ∀ v ∈ p, ∀ e, net.m.role v ≠ .decision e) := by
  have hg : guards net [x] = .ok () := guards_ok.2 ⟨h1, by simp [hx]⟩
  obtain ⟨rg', order, j1, _, j2, j3, j4, _⟩ := h.requisiteGraph pick tpick hset
  rw [hrg] at j1
  cases j1
  have hxn : x ∈ rg.g.nodes := by rw [j3.nodes]; exact hx
  have hu : ∀ u ∈ net.m.utilities, ∃ b, dirUtil rg.g net.m.decisions x u = .ok b ∧
      (b = true ↔ ∃ p, rg.g.IsDirPath x u p ∧ ∀ v ∈ p, ∀ e, net.m.role v ≠ .decision e) := by
    intro u hu
    obtain ⟨ps, p1, _, p2⟩ := (C01_find_all_dir_paths rg.g j4.wf x u).1 hxn (by rw [j3.nodes]; exact h.roles.nodes u (Or.inr hu))
    unfold dirUtil
    by_cases hc : u ≠ x ∧ u ∉ rg.g.descendants x
    · refine ⟨false, by rw [if_pos hc], ?_⟩
      simp only [Bool.false_eq_true, false_iff, not_exists, not_and]
      intro p hp
      exfalso
      exact hc.2 ((mem_descendants j4.wf).2 ((desc_iff_path j4.wf hc.1.symm).2 ⟨p, hp⟩))
    · rw [if_neg hc, p1]
      refine ⟨_, rfl, ?_⟩
      simp only [List.any_eq_true, List.all_eq_true, decide_eq_true_eq, p2]
      have : ∀ v, v ∉ net.m.decisions ↔ ∀ e, net.m.role v ≠ .decision e := by
        intro v
        constructor
        · intro q e he
          exact q (Dict.mem_keys.2 ⟨e, role_decision.1 he⟩)
        · intro q he
          obtain ⟨e, he⟩ := Dict.mem_keys.1 he
          exact q e (role_decision.2 he)
      simp only [this]
  obtain ⟨b, k1, k2⟩ := C56_admits_voc h hn hset h1 hr hx hrg
  obtain ⟨b', l1, l2⟩ := anyM_spec hu
  have hfin : (∃ u ∈ net.m.utilities, ∃ p, rg.g.IsDirPath x u p ∧ ∀ v ∈ p, ∀ e, net.m.role v ≠ .decision e) ↔
      ∃ u a p, net.m.role u = .utility a ∧ rg.g.IsDirPath x u p ∧ ∀ v ∈ p, ∀ e, net.m.role v ≠ .decision e := by
    constructor
    · rintro ⟨u, hu, p, q⟩
      obtain ⟨a, ha⟩ := Dict.mem_keys.1 hu
      exact ⟨u, a, p, (role_utility h.roles).2 ha, q⟩
    · rintro ⟨u, a, p, hu, q⟩
      exact ⟨u, Dict.mem_keys.2 ⟨a, (role_utility h.roles).1 hu⟩, p, q⟩
  rw [hfin] at l2
  cases b with
  | true =>
    refine ⟨b', ?_, l2⟩
    unfold admitsDirVoc
    simp only [hg, hrg, k1]
    exact l1
  | false =>
    refine ⟨false, ?_, ?_⟩
    · unfold admitsDirVoc
      simp only [hg, hrg, k1]
    · simp only [Bool.false_eq_true, false_iff] at k2 ⊢
      rintro ⟨u, a, p, q1, q2, q3⟩
      refine k2 ⟨?_, u, a, q1, descEq_iff_path.2 ⟨p, q2⟩⟩
      refine q3 x (List.mem_of_head? q2.1)

/-- **C56** `admits_indir_voc`: True iff `x` admits value of control and some utility `u` is joined to `x`, in the requisite
graph, both by an active backdoor trail given the rest of the family of `d`, and by a directed path through `d`. -/
theorem C56_admits_indir_voc {net : Net} (h : net.Analysable) (hn : NamesOk net.g) {pick : Pick} {tpick : List Node → Nat}
    {sord : SetOrder} (hsord : sord.Valid) {setOrd : ListOrder} (hset : ∀ l, (setOrd l).Perm l) (h1 : net.m.agents.length ≤ 1) (hr : net.m.Recalls) {d x : Node}
    (hx : x ∈ net.g.nodes) (hd : d ∈ net.g.nodes) {rg : Net} (hrg : requisiteGraph pick tpick setOrd net = .ok rg) :
    ∃ b, admitsIndirVoc pick tpick sord setOrd net d x = .ok b ∧
      (b = true ↔ admitsVoc pick tpick setOrd net x = .ok true ∧ ∃ u a, net.m.role u = .utility a ∧
        (∃ Z, (∀ z, z ∈ Z ↔ z ≠ x ∧ (z = d ∨ net.g.Edge z d)) ∧
          ∃ n r, rg.g.IsUndirPath x u (x :: n :: r) ∧ rg.g.Edge n x ∧ rg.g.Active Z (x :: n :: r)) ∧
        ∃ p, rg.g.IsDirPath x u p ∧ d ∈ p) := by
  have hg : guards net [x, d] = .ok () := guards_ok.2 ⟨h1, by simp [hx, hd]⟩
  have hrec := (h.recall hn pick tpick).1 hr
  obtain ⟨rg', order, j1, _, j2, j3, j4, _⟩ := h.requisiteGraph pick tpick hset
  rw [hrg] at j1
  cases j1
  have hxn : x ∈ rg.g.nodes := by rw [j3.nodes]; exact hx
  set con := setOrd ((d :: net.g.parents d).filter (fun i => decide (i ≠ x))).dedup with hcon
  have hZ : ∀ z, z ∈ con ↔ z ≠ x ∧ (z = d ∨ net.g.Edge z d) := by
    intro z
    rw [hcon, perm_mem hset]
    simp only [List.mem_dedup, List.mem_filter, List.mem_cons, Graph.mem_parents, decide_eq_true_eq]
    exact and_comm
  have hconn : ∀ z ∈ con, z ∈ rg.g.nodes := by
    intro z hz
    rw [j3.nodes]
    obtain ⟨_, rfl | q⟩ := (hZ z).1 hz
    · exact hd
    · exact (h.roles.wf.edgeNodes _ _ q).1
  have hact : ∀ p Z, (∀ z, z ∈ Z ↔ z ≠ x ∧ (z = d ∨ net.g.Edge z d)) → (rg.g.Active Z p ↔ rg.g.Active con p) := by
    intro p Z hZ'
    have : ∀ z, z ∈ Z ↔ z ∈ con := fun z => (hZ' z).trans (hZ z).symm
    unfold Active
    simp only [this]
  have hu : ∀ u ∈ net.m.utilities, ∃ b, indirUtil sord rg.g d x con u = .ok b ∧
      (b = true ↔ (∃ Z, (∀ z, z ∈ Z ↔ z ≠ x ∧ (z = d ∨ net.g.Edge z d)) ∧
          ∃ n r, rg.g.IsUndirPath x u (x :: n :: r) ∧ rg.g.Edge n x ∧ rg.g.Active Z (x :: n :: r)) ∧
        ∃ p, rg.g.IsDirPath x u p ∧ d ∈ p) := by
    intro u hu
    have hun : u ∈ rg.g.nodes := by rw [j3.nodes]; exact h.roles.nodes u (Or.inr hu)
    obtain ⟨ps, p1, _, p2⟩ := (C01_find_all_dir_paths rg.g j4.wf x u).1 hxn hun
    obtain ⟨v, v1, v2⟩ := (C11_is_active_backdoor_trail rg.g j4.wf sord hsord x u con).1 (by
      intro z hz
      rcases List.mem_append.1 hz with hz | hz
      · exact hconn z hz
      · simp only [List.mem_cons, List.not_mem_nil, or_false] at hz
        rcases hz with rfl | rfl
        · exact hxn
        · exact hun)
    have hv : v = true ↔ ∃ Z, (∀ z, z ∈ Z ↔ z ≠ x ∧ (z = d ∨ net.g.Edge z d)) ∧
          ∃ n r, rg.g.IsUndirPath x u (x :: n :: r) ∧ rg.g.Edge n x ∧ rg.g.Active Z (x :: n :: r) := by
      rw [v2]
      constructor
      · intro q
        exact ⟨con, hZ, q⟩
      · rintro ⟨Z, q1, n, r, q2, q3, q4⟩
        exact ⟨n, r, q2, q3, (hact _ Z q1).1 q4⟩
    unfold indirUtil
    by_cases hc : u ≠ x ∧ u ∉ rg.g.descendants x
    · refine ⟨false, by rw [if_pos hc], ?_⟩
      simp only [Bool.false_eq_true, false_iff, not_exists, not_and]
      intro _ p hp
      exfalso
      exact hc.2 ((mem_descendants j4.wf).2 ((desc_iff_path j4.wf hc.1.symm).2 ⟨p, hp⟩))
    · rw [if_neg hc, v1]
      cases v with
      | false =>
        refine ⟨false, rfl, ?_⟩
        simp only [Bool.false_eq_true, false_iff] at hv ⊢
        exact fun q => hv q.1
      | true =>
        simp only [p1]
        refine ⟨_, rfl, ?_⟩
        have := hv.1 rfl
        simp only [this, true_and, List.any_eq_true, decide_eq_true_eq, p2]
  obtain ⟨b, k1, k2⟩ := C56_admits_voc h hn hset h1 hr hx hrg
  obtain ⟨b', l1, l2⟩ := anyM_spec hu
  cases b with
  | true =>
    refine ⟨b', ?_, l2.trans ?_⟩
    · unfold admitsIndirVoc
      simp only [hg, hrec, hrg, k1, ← hcon]
      exact l1
    · rw [k1]
      simp only [true_and]
      constructor
      · rintro ⟨u, hu, q⟩
        obtain ⟨a, ha⟩ := Dict.mem_keys.1 hu
        exact ⟨u, a, (role_utility h.roles).2 ha, q⟩
      · rintro ⟨u, a, hu, q⟩
        exact ⟨u, Dict.mem_keys.2 ⟨a, (role_utility h.roles).1 hu⟩, q⟩
  | false =>
    refine ⟨false, ?_, by simp [k1]⟩
    unfold admitsIndirVoc
    simp only [hg, hrec, hrg, k1]

/-- **C56** direct and indirect value of control imply value of control -/
theorem C56_implications (net : Net) (pick : Pick) (tpick : List Node → Nat) (sord : SetOrder) (setOrd : ListOrder) (d x : Node) :
    (admitsDirVoc pick tpick setOrd net x = .ok true → admitsVoc pick tpick setOrd net x = .ok true) ∧
    (admitsIndirVoc pick tpick sord setOrd net d x = .ok true → admitsVoc pick tpick setOrd net x = .ok true) := by
  constructor
  · intro q
    unfold admitsDirVoc at q
    split at q
    · simp at q
    · split at q
      · simp at q
      · split at q
        · simp at q
        · simp at q
        · assumption
  · intro q
    unfold admitsIndirVoc at q
    split at q
    · simp at q
    · split at q
      · simp at q
      · split at q
        · simp at q
        · dsimp only at q
          split at q
          · simp at q
          · simp at q
          · assumption

/-- **C56** value of control that is not direct runs through a decision: every directed path to a utility in the requisite graph
contains a decision, and there is one. -/
theorem C56_not_direct {net : Net} (h : net.Analysable) (hn : NamesOk net.g) {pick : Pick} {tpick : List Node → Nat}
    {setOrd : ListOrder} (hset : ∀ l, (setOrd l).Perm l) (h1 : net.m.agents.length ≤ 1) (hr : net.m.Recalls) {x : Node}
    (hx : x ∈ net.g.nodes) {rg : Net} (hrg : requisiteGraph pick tpick setOrd net = .ok rg)
    (hv : admitsVoc pick tpick setOrd net x = .ok true) (hd : admitsDirVoc pick tpick setOrd net x = .ok false) :
    (∃ u a p, net.m.role u = .utility a ∧ rg.g.IsDirPath x u p) ∧
    ∀ u a p, net.m.role u = .utility a → rg.g.IsDirPath x u p → ∃ d ∈ p, ∃ e, net.m.role d = .decision e := by
  obtain ⟨b, k1, k2⟩ := C56_admits_voc h hn hset h1 hr hx hrg
  obtain ⟨b', l1, l2⟩ := C56_admits_dir_voc h hn hset h1 hr hx hrg
  rw [hv] at k1
  rw [hd] at l1
  cases k1
  cases l1
  obtain ⟨_, u, a, q1, q2⟩ := k2.1 rfl
  obtain ⟨p, hp⟩ := descEq_iff_path.1 q2
  refine ⟨⟨u, a, p, q1, hp⟩, fun u a p q1 q2 => ?_⟩
  by_contra hcon
  push Not at hcon
  exact absurd (l2.2 ⟨u, a, p, q1, q2, hcon⟩) (by simp)

/-- **C56** the errors -/
theorem C56_errors {net : Net} (h : net.Analysable) (hn : NamesOk net.g) (pick : Pick) (tpick : List Node → Nat)
    (sord : SetOrder) {setOrd : ListOrder} (hset : ∀ l, (setOrd l).Perm l) (x d : Node) :
    (1 < net.m.agents.length → admitsVoc pick tpick setOrd net x = .error .value ∧ admitsDirVoc pick tpick setOrd net x = .error .value ∧
      admitsIndirVoc pick tpick sord setOrd net d x = .error .value) ∧
    (net.m.agents.length ≤ 1 → x ∉ net.g.nodes → admitsVoc pick tpick setOrd net x = .error .key ∧
      admitsDirVoc pick tpick setOrd net x = .error .key ∧ admitsIndirVoc pick tpick sord setOrd net d x = .error .key) ∧
    (net.m.agents.length ≤ 1 → d ∉ net.g.nodes → admitsIndirVoc pick tpick sord setOrd net d x = .error .key) ∧
    (net.m.agents.length ≤ 1 → x ∈ net.g.nodes → d ∈ net.g.nodes → ¬ net.m.Recalls → admitsVoc pick tpick setOrd net x = .error .value ∧
      admitsDirVoc pick tpick setOrd net x = .error .value ∧ admitsIndirVoc pick tpick sord setOrd net d x = .error .value) := by
  refine ⟨fun q => ?_, fun q1 q2 => ?_, fun q1 q2 => ?_, fun q1 q2 q3 q4 => ?_⟩
  · unfold admitsVoc admitsDirVoc admitsIndirVoc
    simp only [guards_many q, and_self]
  · unfold admitsVoc admitsDirVoc admitsIndirVoc
    simp only [guards_key q1 (n := x) (nodes := [x]) (by simp) q2, guards_key q1 (n := x) (nodes := [x, d]) (by simp) q2, and_self]
  · unfold admitsIndirVoc
    simp only [guards_key q1 (n := d) (nodes := [x, d]) (by simp) q2]
  · have e1 : admitsVoc pick tpick setOrd net x = .error .value := by
      unfold admitsVoc
      simp only [guards_ok.2 ⟨q1, (by simpa using q2 : ∀ n ∈ [x], n ∈ net.g.nodes)⟩, (h.recall hn pick tpick).2 q4]
    obtain ⟨rg, _, j1, _⟩ := h.requisiteGraph pick tpick hset
    refine ⟨e1, ?_, ?_⟩
    · unfold admitsDirVoc
      simp only [guards_ok.2 ⟨q1, (by simpa using q2 : ∀ n ∈ [x], n ∈ net.g.nodes)⟩, j1, e1]
    · unfold admitsIndirVoc
      simp only [guards_ok.2 ⟨q1, (by simpa using ⟨q2, q3⟩ : ∀ n ∈ [x, d], n ∈ net.g.nodes)⟩, (h.recall hn pick tpick).2 q4]

/-- value of control over `A` is direct, over `X` there is none because it is not requisite -/
example : exInfoNet.Analysable ∧ NamesOk exInfoNet.g ∧ admitsVoc (fun _ => 0) (fun _ => 0) id exInfoNet "A" = .ok true ∧
    admitsDirVoc (fun _ => 0) (fun _ => 0) id exInfoNet "A" = .ok true ∧
    admitsVoc (fun _ => 0) (fun _ => 0) id exInfoNet "X" = .ok false ∧ exInfo.g.Desc "X" "U" :=
  ⟨exInfoNet_analysable, ⟨by decide +kernel, by decide +kernel⟩, by decide +kernel, by decide +kernel, by decide +kernel,
    .tail (.tail (.single (by decide : exInfo.g.Edge "X" "D"))
      (by decide : exInfo.g.Edge "D" "M")) (by decide : exInfo.g.Edge "M" "U")⟩

/-- the observation `X` of the hidden state `S` -/
def exSignal : Macid :=
  ⟨⟨["S", "X", "U", "D"], [("S", "X"), ("S", "U"), ("X", "D"), ("D", "U")]⟩, [(0, ["D"])], [(0, ["U"])], [("D", 0)], [("U", 0)]⟩

/-- value of control over `X` is indirect only -/
example : exSignal.Consistent ∧ (Net.mk exSignal [] [] [] Macid.new).Staffed ∧
    admitsIndirVoc (fun _ => 0) (fun _ => 0) SetOrder.id id ⟨exSignal, [], [], [], Macid.new⟩ "D" "X" = .ok true ∧
    admitsDirVoc (fun _ => 0) (fun _ => 0) id ⟨exSignal, [], [], [], Macid.new⟩ "X" = .ok false ∧
    admitsIndirVoc (fun _ => 0) (fun _ => 0) SetOrder.id id ⟨exSignal, [], [], [], Macid.new⟩ "D" "S" = .ok false := by
  refine ⟨C15_constructor_consistent [("S", "X"), ("S", "U"), ("X", "D"), ("D", "U")] [(0, ["D"])] [(0, ["U"])] _
    (by decide +kernel) (by decide) (by decide) (by decide) (by decide), ⟨fun a => Iff.rfl, fun a ha => Or.inl ?_⟩, by decide +kernel, by decide +kernel,
    by decide +kernel⟩
  have : a = 0 := by simpa [exSignal, Dict.keys] using ha
  subst this
  exact ⟨⟨"D", by decide⟩, ⟨"U", by decide⟩⟩

/-! ### C59 -/

theorem filter_nodes (f : Node → Py Bool) {nodes : List Node} (hn : nodes.Nodup) :
    (∀ l, filterM' f nodes = .ok l → l.Nodup ∧ ∀ x, x ∈ l ↔ x ∈ nodes ∧ f x = .ok true) ∧
    ((∃ e, filterM' f nodes = .error e) ↔ ∃ x ∈ nodes, ∃ e, f x = .error e) ∧
    (∀ e, filterM' f nodes = .error e → ∃ x ∈ nodes, f x = .error e) := by
  refine ⟨fun l h => ?_, ⟨fun ⟨e, h⟩ => ?_, fun ⟨x, hx, e, h⟩ => ?_⟩, fun e h => filterM'_error h⟩
  · obtain ⟨h1, h2, h3⟩ := filterM'_ok h
    exact ⟨h1.nodup hn, h3⟩
  · obtain ⟨x, hx, h⟩ := filterM'_error h
    exact ⟨x, hx, e, h⟩
  · cases hf : filterM' f nodes with
    | error e' => exact ⟨e', rfl⟩
    | ok l =>
      obtain ⟨_, h2, _⟩ := filterM'_ok hf
      obtain ⟨b, hb⟩ := h2 x hx
      rw [h] at hb
      simp at hb

/-- **C59** `admits_ri_list`: the nodes for which `admits_ri` is True, once each; an exception iff `admits_ri` raises for some node,
and then one of those it raises. -/
theorem C59_admits_ri_list {net : Net} (hw : net.g.WF) (pick : Pick) (tpick : List Node → Nat) (setOrd : ListOrder) (d : Node) :
    (∀ l, admitsRiList pick tpick setOrd net d = .ok l →
      l.Nodup ∧ ∀ x, x ∈ l ↔ x ∈ net.g.nodes ∧ admitsRi pick tpick setOrd net d x = .ok true) ∧
    ((∃ e, admitsRiList pick tpick setOrd net d = .error e) ↔ ∃ x ∈ net.g.nodes, ∃ e, admitsRi pick tpick setOrd net d x = .error e) ∧
    (∀ e, admitsRiList pick tpick setOrd net d = .error e → ∃ x ∈ net.g.nodes, admitsRi pick tpick setOrd net d x = .error e) :=
  filter_nodes _ hw.nodesNodup

/-- **C59** the same for `admits_ici_list` -/
theorem C59_admits_ici_list {net : Net} (hw : net.g.WF) (d : Node) :
    (∀ l, admitsIciList net d = .ok l → l.Nodup ∧ ∀ x, x ∈ l ↔ x ∈ net.g.nodes ∧ admitsIci net d x = .ok true) ∧
    ((∃ e, admitsIciList net d = .error e) ↔ ∃ x ∈ net.g.nodes, ∃ e, admitsIci net d x = .error e) ∧
    (∀ e, admitsIciList net d = .error e → ∃ x ∈ net.g.nodes, admitsIci net d x = .error e) :=
  filter_nodes _ hw.nodesNodup

/-- **C59** the same for `admits_voc_list` -/
theorem C59_admits_voc_list {net : Net} (hw : net.g.WF) (pick : Pick) (tpick : List Node → Nat) (setOrd : ListOrder) :
    (∀ l, admitsVocList pick tpick setOrd net = .ok l →
      l.Nodup ∧ ∀ x, x ∈ l ↔ x ∈ net.g.nodes ∧ admitsVoc pick tpick setOrd net x = .ok true) ∧
    ((∃ e, admitsVocList pick tpick setOrd net = .error e) ↔ ∃ x ∈ net.g.nodes, ∃ e, admitsVoc pick tpick setOrd net x = .error e) ∧
    (∀ e, admitsVocList pick tpick setOrd net = .error e → ∃ x ∈ net.g.nodes, admitsVoc pick tpick setOrd net x = .error e) :=
  filter_nodes _ hw.nodesNodup

/-- **C59** the same for `admits_indir_voc_list` -/
theorem C59_admits_indir_voc_list {net : Net} (hw : net.g.WF) (pick : Pick) (tpick : List Node → Nat) (sord : SetOrder)
    (setOrd : ListOrder) (d : Node) :
    (∀ l, admitsIndirVocList pick tpick sord setOrd net d = .ok l →
      l.Nodup ∧ ∀ x, x ∈ l ↔ x ∈ net.g.nodes ∧ admitsIndirVoc pick tpick sord setOrd net d x = .ok true) ∧
    ((∃ e, admitsIndirVocList pick tpick sord setOrd net d = .error e) ↔
      ∃ x ∈ net.g.nodes, ∃ e, admitsIndirVoc pick tpick sord setOrd net d x = .error e) ∧
    (∀ e, admitsIndirVocList pick tpick sord setOrd net d = .error e →
      ∃ x ∈ net.g.nodes, admitsIndirVoc pick tpick sord setOrd net d x = .error e) :=
  filter_nodes _ hw.nodesNodup

/-- **C59** the same for `admits_dir_voc_list` -/
theorem C59_admits_dir_voc_list {net : Net} (hw : net.g.WF) (pick : Pick) (tpick : List Node → Nat) (setOrd : ListOrder) :
    (∀ l, admitsDirVocList pick tpick setOrd net = .ok l →
      l.Nodup ∧ ∀ x, x ∈ l ↔ x ∈ net.g.nodes ∧ admitsDirVoc pick tpick setOrd net x = .ok true) ∧
    ((∃ e, admitsDirVocList pick tpick setOrd net = .error e) ↔ ∃ x ∈ net.g.nodes, ∃ e, admitsDirVoc pick tpick setOrd net x = .error e) ∧
    (∀ e, admitsDirVocList pick tpick setOrd net = .error e → ∃ x ∈ net.g.nodes, admitsDirVoc pick tpick setOrd net x = .error e) :=
  filter_nodes _ hw.nodesNodup

/-- **C59** `requisite_list`: the requisite observations, once each -/
theorem C59_requisite_list (m : Macid) (hc : m.Consistent) (pick : Pick) {setOrd : ListOrder} (hset : ∀ l, (setOrd l).Perm l) {d : Node}
    {a : Agent} (hd : m.role d = .decision a) (ha : a ∈ m.agents) :
    ∃ l, requisiteList pick setOrd m d = .ok l ∧ l.Nodup ∧ ∀ x, x ∈ l ↔ m.Requisite d x := by
  obtain ⟨l, h1, h2⟩ := requisiteList_spec hc (pick := pick) hset hd ha
  refine ⟨l, h1, ?_, h2⟩
  unfold requisiteList at h1
  split at h1
  · simp at h1
  · exact (filterM'_ok h1).1.nodup (Graph.nodup_parents hc.wf.edgesNodup d)

/-- **C59** `admits_voi_list`: the nodes for which `admits_voi` is True, once each. It raises only what `admits_voi` raises for some
node (and NetworkXError for an unknown decision). -/
theorem C59_admits_voi_list {net : Net} (hw : net.g.WF) (pick : Pick) (tpick : List Node → Nat) {setOrd : ListOrder}
    (hset : ∀ l, (setOrd l).Perm l) (d : Node) :
    (d ∉ net.g.nodes → admitsVoiList pick tpick setOrd net d = .error .nx) ∧
    (∀ l, admitsVoiList pick tpick setOrd net d = .ok l →
      l.Nodup ∧ ∀ x, x ∈ l ↔ x ∈ net.g.nodes ∧ admitsVoi pick tpick setOrd net d x = .ok true) ∧
    (d ∈ net.g.nodes → ((∃ e, admitsVoiList pick tpick setOrd net d = .error e) ↔
      ∃ x ∈ net.g.nodes, ¬ net.g.DescEq d x ∧ ∃ e, admitsVoi pick tpick setOrd net d x = .error e)) := by
  have hmem : ∀ x, x ∈ setOrd (net.g.nodes.filter (fun x => decide (x ∉ net.g.descendants d ∧ x ≠ d))) ↔
      x ∈ net.g.nodes ∧ ¬ net.g.DescEq d x := by
    intro x
    rw [perm_mem hset]
    simp only [List.mem_filter, decide_eq_true_eq, mem_descendants hw, desc_iff hw]
    by_cases e : x = d
    · subst e
      simp [DescEq, ReflTransGen.refl]
    · simp [e]
  have hnd : (setOrd (net.g.nodes.filter (fun x => decide (x ∉ net.g.descendants d ∧ x ≠ d)))).Nodup := by
    rw [(hset _).nodup_iff]
    exact hw.nodesNodup.filter _
  obtain ⟨k1, k2, k3⟩ := filter_nodes (admitsVoi pick tpick setOrd net d) hnd
  refine ⟨fun h => by unfold admitsVoiList; rw [if_pos h], fun l h => ?_, fun h => ?_⟩
  · unfold admitsVoiList at h
    split at h
    · simp at h
    · obtain ⟨q1, q2⟩ := k1 l h
      refine ⟨q1, fun x => (q2 x).trans ?_⟩
      rw [hmem]
      constructor
      · rintro ⟨⟨r1, _⟩, r2⟩
        exact ⟨r1, r2⟩
      · rintro ⟨r1, r2⟩
        refine ⟨⟨r1, fun hde => ?_⟩, r2⟩
        unfold admitsVoi at r2
        split at r2
        · simp at r2
        · split at r2
          · simp at r2
          · rw [if_pos] at r2
            · simp at r2
            · rw [mem_descendants hw, desc_iff hw]
              by_cases e : x = d
              · exact Or.inr e
              · exact Or.inl ⟨hde, e⟩
  · unfold admitsVoiList
    rw [if_neg (by simpa using h), k2]
    simp only [hmem, and_assoc]

example : exInfoNet.g.WF ∧ admitsVoiList (fun _ => 0) (fun _ => 0) id exInfoNet "D" = .ok ["A"] ∧
    admitsRiList (fun _ => 0) (fun _ => 0) id exInfoNet "D" = .ok ["A"] ∧ admitsIciList exInfoNet "D" = .ok ["D", "U", "M"] ∧
    admitsVocList (fun _ => 0) (fun _ => 0) id exInfoNet = .ok ["A", "U", "M"] ∧
    admitsDirVocList (fun _ => 0) (fun _ => 0) id exInfoNet = .ok ["A", "U", "M"] ∧
    admitsIndirVocList (fun _ => 0) (fun _ => 0) SetOrder.id id exInfoNet "D" = .ok [] ∧
    requisiteList (fun _ => 0) id exInfo "D" = .ok ["A"] :=
  ⟨exInfo_consistent.wf, by decide +kernel, by decide +kernel, by decide +kernel, by decide +kernel, by decide +kernel,
    by decide +kernel, by decide +kernel⟩

/-- **C59** a caution: `admits_voi_list` does not always raise when `admits_voi` does. With two agents `admits_voi` raises ValueError for
every node, but the list for a decision that is an ancestor of everything is empty. -/
theorem C59_voi_list_no_error : ∃ m : Macid, m.Consistent ∧ 1 < m.agents.length ∧
    (∀ x, admitsVoi (fun _ => 0) (fun _ => 0) id ⟨m, [], [], [], Macid.new⟩ "D" x = .error .value) ∧
    admitsVoiList (fun _ => 0) (fun _ => 0) id ⟨m, [], [], [], Macid.new⟩ "D" = .ok [] := by
  refine ⟨⟨⟨["D", "U", "C", "V"], [("D", "U"), ("D", "C"), ("C", "V")]⟩, [(0, ["D"]), (1, ["C"])], [(0, ["U"]), (1, ["V"])],
    [("D", 0), ("C", 1)], [("U", 0), ("V", 1)]⟩, ?_, by decide, fun x => ?_, by decide +kernel⟩
  · exact C15_constructor_consistent [("D", "U"), ("D", "C"), ("C", "V")] [(0, ["D"]), (1, ["C"])] [(0, ["U"]), (1, ["V"])] _
      (by decide +kernel) (by decide) (by decide) (by decide) (by decide)
  · unfold admitsVoi
    rw [guards_many (by decide)]

end Verif

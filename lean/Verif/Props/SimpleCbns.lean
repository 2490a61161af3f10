import Verif.Model.SimpleCbns
import Verif.Props.Cbn
import Verif.Props.SmallCids

/-!
# C133: the example causal Bayesian networks
-/

namespace Verif
open Net Graph

/-- whatever order sets use, `expected_value([v], ctx, intervention)` returns `[r]` -/
def Averages (net : Net) (v : Node) (ctx int : List (Node × Outcome)) (r : Rat) : Prop :=
  ∀ ord : List Node → List Node, (∀ l, (ord l).Perm l) → (Cbn.expectedValue ord net [v] ctx int).2 = .ok [r]

/-- to be computed -/
def averageB (net : Net) (v : Node) (ctx int : List (Node × Outcome)) (r : Rat) : Bool :=
  decide ((int.map (·.1)).Nodup) && (int.all fun p => decide (p.1 ∈ net.g.nodes) && decide (p.2 ∈ net.dom p.1) && decide ((net.dom p.1).Pairwise (· ≤ ·))) &&
  (ctx.all fun p => decide (p.1 ∈ net.g.nodes) && decide (p.2 ∈ net.dom p.1)) && decide (v ∈ net.g.nodes) && decide (v ∉ ctx.map (·.1)) &&
  decide (net.PDo int (Ctx ctx) ≠ 0) && decide (net.Mean int ctx v = r)

theorem averages_of {net : Net} (hR : Cbn.Ready net) {v : Node} {ctx int : List (Node × Outcome)} {r : Rat} (h : averageB net v ctx int r = true) :
    Averages net v ctx int r := by
  unfold averageB at h
  simp only [Bool.and_eq_true, decide_eq_true_eq, List.all_eq_true] at h
  obtain ⟨⟨⟨⟨⟨⟨h1, h2⟩, h3⟩, h4⟩, h5⟩, h6⟩, h7⟩ := h
  intro ord hord
  have ho : ord [v] = [v] := List.perm_singleton.1 (hord [v])
  rw [C101_expected_value hR hord ⟨h1, fun p hp => ⟨(h2 p hp).1.1, (h2 p hp).1.2, Or.inl (h2 p hp).2⟩⟩ h3 (by simp) (by simpa using h4) (by simpa using h5)
    (by intro a ha b hb; rw [List.mem_singleton] at ha hb; subst ha hb; exact .refl) h6, ho]
  simp [h7]

/-- to be computed -/
def cbnB (edges : List (Node × Node)) (rels : List (Node × Rel)) : Bool :=
  match Cbn.init edges with
  | .error _ => false
  | .ok net0 =>
    match Cbn.addCpds net0 rels with
    | (_, .error _) => false
    | (net, .ok _) => decide ((rels.map (·.1)).Nodup) && (rels.all fun p => match p.2 with | .seq _ => false | .tab _ => false | _ => true) &&
      (net0.g.nodes.all fun v => decide (v ∈ rels.map (·.1))) && (net.cpds.all fun p => p.2.table.all fun col => col.all (fun y => decide (0 ≤ y)) && decide (col.sum = 1))

theorem cbn_ready {edges : List (Node × Node)} {rels : List (Node × Rel)} (hh : ∀ p ∈ rels, Honest p.2) (hc : cbnB edges rels = true) :
    cbnOf edges rels = .ok (netOf (cbnOf edges rels)) ∧ Cbn.Ready (netOf (cbnOf edges rels)) := by
  unfold cbnB at hc
  cases h1 : Cbn.init edges with
  | error e => rw [h1] at hc; simp at hc
  | ok net0 =>
    rw [h1] at hc
    simp only at hc
    generalize h2 : Cbn.addCpds net0 rels = x at hc
    obtain ⟨net, e | _⟩ := x
    · simp at hc
    · simp only [Bool.and_eq_true, decide_eq_true_eq, List.all_eq_true] at hc
      obtain ⟨⟨⟨c1, c2⟩, c3⟩, c4⟩ := hc
      have hb : cbnOf edges rels = .ok net := by
        unfold cbnOf
        rw [h1]
        simp only
        rw [h2]
      rw [hb]
      refine ⟨rfl, C101_build h1 h2 c1 (fun v l h => ?_) hh c3 (fun v c h => ?_) (fun v c hg => c4 (v, c) (Dict.mem_of_get? hg))⟩
      · simpa using c2 _ h
      · simpa using c2 _ h

theorem honest_succ (x : Node) : Honest (.func (succFunc x)) := by
  intro pv
  unfold succFunc
  split <;> simp

theorem three_ready : threeCbn = .ok (netOf threeCbn) ∧ Cbn.Ready (netOf threeCbn) :=
  cbn_ready (by simp [threeCbnRels, Honest]; exact ⟨honest_succ _, honest_factors _ _ _⟩) (by decide +kernel)

theorem uniform_ready : uniformCbn = .ok (netOf uniformCbn) ∧ Cbn.Ready (netOf uniformCbn) :=
  cbn_ready (by simp [uniformCbnRels, Honest]; exact honest_factors _ _ _) (by decide +kernel)

theorem minimal_ready : minimalCbn = .ok (netOf minimalCbn) ∧ Cbn.Ready (netOf minimalCbn) :=
  cbn_ready (by simp [minimalCbnRels, Honest]; exact honest_copy _) (by decide +kernel)

theorem fork_ready : forkCbn = .ok (netOf forkCbn) ∧ Cbn.Ready (netOf forkCbn) :=
  cbn_ready (by simp [forkCbnRels, Honest]; exact honest_factors _ _ _) (by decide +kernel)

/-- **C133** In `get_3node_cbn` and `get_minimal_cbn` observing an effect is informative about its cause, setting it is not. -/
theorem C133_seeing_and_doing : (∃ net, threeCbn = .ok net ∧ Cbn.Ready net ∧ Averages net "U" [] [] 1 ∧
      (∀ d ∈ [(0 : Outcome), 2], Averages net "U" [("D", d)] [] d ∧ Averages net "S" [("D", d)] [] (d - 1) ∧ Averages net "U" [] [("D", d)] 0 ∧ Averages net "S" [] [("D", d)] 0) ∧
      ∀ s ∈ [(-1 : Outcome), 1], ∀ d ∈ [(0 : Outcome), 2], Averages net "U" [("S", s)] [("D", d)] (s * d) ∧ Averages net "D" [] [("S", s)] (s + 1)) ∧
    ∃ net, minimalCbn = .ok net ∧ Cbn.Ready net ∧ Averages net "B" [] [] (1 / 2) ∧
      ∀ x ∈ [(0 : Outcome), 1], Averages net "B" [("A", x)] [] x ∧ Averages net "B" [] [("A", x)] x ∧ Averages net "A" [("B", x)] [] x ∧ Averages net "A" [] [("B", x)] (1 / 2) := by
  refine ⟨⟨_, three_ready.1, three_ready.2, averages_of three_ready.2 (by decide +kernel), ?_, ?_⟩, _, minimal_ready.1, minimal_ready.2,
    averages_of minimal_ready.2 (by decide +kernel), ?_⟩
  · have h : ∀ d ∈ [(0 : Outcome), 2], averageB (netOf threeCbn) "U" [("D", d)] [] d = true ∧ averageB (netOf threeCbn) "S" [("D", d)] [] (d - 1) = true ∧
        averageB (netOf threeCbn) "U" [] [("D", d)] 0 = true ∧ averageB (netOf threeCbn) "S" [] [("D", d)] 0 = true := by decide +kernel
    intro d hd
    obtain ⟨a, b, c, e⟩ := h d hd
    exact ⟨averages_of three_ready.2 a, averages_of three_ready.2 b, averages_of three_ready.2 c, averages_of three_ready.2 e⟩
  · have h : ∀ s ∈ [(-1 : Outcome), 1], ∀ d ∈ [(0 : Outcome), 2], averageB (netOf threeCbn) "U" [("S", s)] [("D", d)] (s * d) = true ∧
        averageB (netOf threeCbn) "D" [] [("S", s)] (s + 1) = true := by decide +kernel
    intro s hs d hd
    obtain ⟨a, b⟩ := h s hs d hd
    exact ⟨averages_of three_ready.2 a, averages_of three_ready.2 b⟩
  · have h : ∀ x ∈ [(0 : Outcome), 1], averageB (netOf minimalCbn) "B" [("A", x)] [] x = true ∧ averageB (netOf minimalCbn) "B" [] [("A", x)] x = true ∧
        averageB (netOf minimalCbn) "A" [("B", x)] [] x = true ∧ averageB (netOf minimalCbn) "A" [] [("B", x)] (1 / 2) = true := by decide +kernel
    intro x hx
    obtain ⟨a, b, c, e⟩ := h x hx
    exact ⟨averages_of minimal_ready.2 a, averages_of minimal_ready.2 b, averages_of minimal_ready.2 c, averages_of minimal_ready.2 e⟩

/-- **C133** In `get_fork_cbn` and `get_3node_uniform_cbn` the causes of `C` are independent until `C` is observed. -/
theorem C133_common_effect : (∃ net, forkCbn = .ok net ∧ Cbn.Ready net ∧ Averages net "C" [] [] (21 / 4) ∧
      ∀ a ∈ [(1 : Outcome), 2], ∀ b ∈ [(3 : Outcome), 4], Averages net "A" [("B", b)] [] (3 / 2) ∧ Averages net "A" [("C", a * b)] [] a ∧
        Averages net "A" [] [("C", a * b)] (3 / 2) ∧ Averages net "C" [] [("A", a)] (7 / 2 * a) ∧ Averages net "C" [] [("A", a), ("B", b)] (a * b)) ∧
    ∃ net, uniformCbn = .ok net ∧ Cbn.Ready net ∧ Averages net "C" [] [] (1 / 4) ∧ Averages net "A" [("C", 0)] [] (1 / 3) ∧
      Averages net "A" [("C", 0), ("B", 1)] [] 0 ∧ ∀ x ∈ [(0 : Outcome), 1], Averages net "A" [("B", x)] [] (1 / 2) ∧ Averages net "B" [("A", x)] [] (1 / 2) ∧
        Averages net "C" [] [("B", x)] (x / 2) := by
  refine ⟨⟨_, fork_ready.1, fork_ready.2, averages_of fork_ready.2 (by decide +kernel), ?_⟩, _, uniform_ready.1, uniform_ready.2,
    averages_of uniform_ready.2 (by decide +kernel), averages_of uniform_ready.2 (by decide +kernel), averages_of uniform_ready.2 (by decide +kernel), ?_⟩
  · have h : ∀ a ∈ [(1 : Outcome), 2], ∀ b ∈ [(3 : Outcome), 4], averageB (netOf forkCbn) "A" [("B", b)] [] (3 / 2) = true ∧
        averageB (netOf forkCbn) "A" [("C", a * b)] [] a = true ∧ averageB (netOf forkCbn) "A" [] [("C", a * b)] (3 / 2) = true ∧
        averageB (netOf forkCbn) "C" [] [("A", a)] (7 / 2 * a) = true ∧ averageB (netOf forkCbn) "C" [] [("A", a), ("B", b)] (a * b) = true := by decide +kernel
    intro a ha b hb
    obtain ⟨c1, c2, c3, c4, c5⟩ := h a ha b hb
    exact ⟨averages_of fork_ready.2 c1, averages_of fork_ready.2 c2, averages_of fork_ready.2 c3, averages_of fork_ready.2 c4, averages_of fork_ready.2 c5⟩
  · have h : ∀ x ∈ [(0 : Outcome), 1], averageB (netOf uniformCbn) "A" [("B", x)] [] (1 / 2) = true ∧ averageB (netOf uniformCbn) "B" [("A", x)] [] (1 / 2) = true ∧
        averageB (netOf uniformCbn) "C" [] [("B", x)] (x / 2) = true := by decide +kernel
    intro x hx
    obtain ⟨c1, c2, c3⟩ := h x hx
    exact ⟨averages_of uniform_ready.2 c1, averages_of uniform_ready.2 c2, averages_of uniform_ready.2 c3⟩

end Verif

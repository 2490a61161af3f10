import Verif.Lemmas.Total
import Verif.Lemmas.Support
import Verif.Lemmas.Optimal
import Verif.Lemmas.MaxEU
import Verif.Spec.Games

/-!
# Two-player games given by payoff tables
-/

namespace Verif
namespace Net

open Graph Relation Macid

/-- the network is the game with the payoff tables `A` and `B` -/
structure Board (net : Net) (d1 d2 u1 u2 : Node) (p1 p2 : Agent) (seen : Bool) (l1 l2 : List Outcome) (A B : Outcome → Outcome → Rat) : Prop where
  usable : net.Usable
  nodup : [d1, d2, u1, u2].Nodup
  nodes : ∀ v, v ∈ net.g.nodes ↔ v ∈ [d1, d2, u1, u2]
  edges : ∀ u v, net.g.Edge u v ↔ ((u = d1 ∨ u = d2) ∧ (v = u1 ∨ v = u2)) ∨ (seen = true ∧ u = d1 ∧ v = d2)
  agents : p1 ≠ p2
  dec1 : net.m.role d1 = .decision p1
  dec2 : net.m.role d2 = .decision p2
  util1 : net.m.agentUtilities.get? p1 = some [u1]
  util2 : net.m.agentUtilities.get? p2 = some [u2]
  dom1 : net.dom d1 = l1
  dom2 : net.dom d2 = l2
  pay1 : ∀ a, net.InDom a → net.kernel u1 a = if a u1 = A (a d1) (a d2) then 1 else 0
  pay2 : ∀ a, net.InDom a → net.kernel u2 a = if a u2 = B (a d1) (a d2) then 1 else 0

namespace Board

variable {net : Net} {d1 d2 u1 u2 : Node} {p1 p2 : Agent} {seen : Bool} {l1 l2 : List Outcome} {A B : Outcome → Outcome → Rat}

theorem ne (h : Board net d1 d2 u1 u2 p1 p2 seen l1 l2 A B) :
    d1 ≠ d2 ∧ d1 ≠ u1 ∧ d1 ≠ u2 ∧ d2 ≠ u1 ∧ d2 ≠ u2 ∧ u1 ≠ u2 := by
  have := h.nodup
  simp only [List.nodup_cons, List.mem_cons, List.not_mem_nil, or_false, not_or, not_false_eq_true, List.nodup_nil, and_true] at this
  tauto

theorem move (h : Board net d1 d2 u1 u2 p1 p2 seen l1 l2 A B) {ds : List Node} (hds : ∀ v ∈ ds, v = d1 ∨ v = d2) {net' : Net}
    (hU : net'.Usable) (ho : OnlyRules net ds net') : Board net' d1 d2 u1 u2 p1 p2 seen l1 l2 A B := by
  obtain ⟨n1, n2, n3, n4, n5, n6⟩ := h.ne
  have hu1 : u1 ∉ ds := fun q => by rcases hds _ q with e | e <;> simp_all
  have hu2 : u2 ∉ ds := fun q => by rcases hds _ q with e | e <;> simp_all
  refine ⟨hU, h.nodup, by rw [ho.g]; exact h.nodes, by rw [ho.g]; exact h.edges, h.agents, by rw [ho.m]; exact h.dec1, by rw [ho.m]; exact h.dec2,
    by rw [ho.m]; exact h.util1, by rw [ho.m]; exact h.util2, by rw [ho.dom]; exact h.dom1, by rw [ho.dom]; exact h.dom2, fun a ha => ?_, fun a ha => ?_⟩
  · rw [ho.kernel hu1]; exact h.pay1 a ((ho.inDom a).1 ha)
  · rw [ho.kernel hu2]; exact h.pay2 a ((ho.inDom a).1 ha)

theorem bn_prob (h : Board net d1 d2 u1 u2 p1 p2 seen l1 l2 A B) : net.bn.Prob := Net.bn_prob h.usable.good h.usable.normalised

theorem mem1 (h : Board net d1 d2 u1 u2 p1 p2 seen l1 l2 A B) : d1 ∈ net.g.nodes := (h.nodes _).2 (by simp)
theorem mem2 (h : Board net d1 d2 u1 u2 p1 p2 seen l1 l2 A B) : d2 ∈ net.g.nodes := (h.nodes _).2 (by simp)

theorem noParents (h : Board net d1 d2 u1 u2 p1 p2 seen l1 l2 A B) (p : Node) : ¬ net.g.Edge p d1 := by
  obtain ⟨n1, n2, n3, n4, n5, n6⟩ := h.ne
  rw [h.edges]
  rintro (⟨_, e | e⟩ | ⟨_, _, e⟩)
  · exact n2 e
  · exact n3 e
  · exact n1 e

theorem parents2 (h : Board net d1 d2 u1 u2 p1 p2 seen l1 l2 A B) (p : Node) : net.g.Edge p d2 ↔ seen = true ∧ p = d1 := by
  obtain ⟨n1, n2, n3, n4, n5, n6⟩ := h.ne
  rw [h.edges]
  constructor
  · rintro (⟨_, e | e⟩ | ⟨q, e, _⟩)
    · exact absurd e n4
    · exact absurd e n5
    · exact ⟨q, e⟩
  · rintro ⟨q, e⟩
    exact .inr ⟨q, e, rfl⟩

/-- any payoff that depends on the two choices only -/
theorem W_choices (h : Board net d1 d2 u1 u2 p1 p2 seen l1 l2 A B) (F : Outcome → Outcome → Rat) :
    net.bn.W (fun a => F (a d1) (a d2)) = expectedPayoff l1 l2 F (net.chooses d1) (net.answers d1 d2) := by
  obtain ⟨n1, n2, n3, n4, n5, n6⟩ := h.ne
  have hdep := kernel_depends h.usable.good h.mem1
  rw [BN.W_ancestral h.bn_prob (U := [d1, d2]) (by simp [n1]) (by
      intro v hv
      simp only [List.mem_cons, List.not_mem_nil, or_false] at hv
      rcases hv with rfl | rfl
      · exact h.mem1
      · exact h.mem2) (by
      intro u v e hv
      simp only [List.mem_cons, List.not_mem_nil, or_false] at hv ⊢
      rcases hv with rfl | rfl
      · exact absurd e (h.noParents u)
      · exact .inl ((h.parents2 u).1 e).2) (f := fun a => F (a d1) (a d2)) (by
      intro a b hab
      show F (a d1) (a d2) = F (b d1) (b d2)
      rw [hab d1 (by simp), hab d2 (by simp)]) (fun _ => 0)]
  simp only [sumOver, BN.prod, List.map_cons, List.map_nil, List.prod_cons, List.prod_nil, mul_one]
  show (List.map _ (net.dom d1)).sum = _
  rw [h.dom1]
  unfold expectedPayoff
  congr 1
  apply List.map_congr_left
  intro a _
  show (List.map _ (net.dom d2)).sum = _
  rw [h.dom2]
  congr 1
  apply List.map_congr_left
  intro b _
  have e1 : net.bn.k d1 (Assign.upd (Assign.upd (fun _ => 0) d1 a) d2 b) = net.chooses d1 a := by
    unfold chooses
    apply hdep
    rintro v (rfl | e)
    · rw [Assign.upd_ne _ _ n1]
    · exact absurd e (h.noParents v)
  rw [e1, Assign.upd_same, Assign.upd_ne _ _ n1, Assign.upd_same]
  rfl

theorem EU1 (h : Board net d1 d2 u1 u2 p1 p2 seen l1 l2 A B) :
    net.EU p1 = expectedPayoff l1 l2 A (net.chooses d1) (net.answers d1 d2) := by
  rw [EU_eq h.usable, h.util1, ← h.W_choices A]
  refine BN.W_possible h.bn_prob (fun a ha => ?_)
  have := ha.2 u1 ((h.nodes u1).2 (by simp))
  change 0 < net.kernel u1 a at this
  rw [h.pay1 a ha.1] at this
  split at this
  · rename_i e; simp [e]
  · simp at this

theorem EU2 (h : Board net d1 d2 u1 u2 p1 p2 seen l1 l2 A B) :
    net.EU p2 = expectedPayoff l1 l2 B (net.chooses d1) (net.answers d1 d2) := by
  rw [EU_eq h.usable, h.util2, ← h.W_choices B]
  refine BN.W_possible h.bn_prob (fun a ha => ?_)
  have := ha.2 u2 ((h.nodes u2).2 (by simp))
  change 0 < net.kernel u2 a at this
  rw [h.pay2 a ha.1] at this
  split at this
  · rename_i e; simp [e]
  · simp at this

theorem mix1 (h : Board net d1 d2 u1 u2 p1 p2 seen l1 l2 A B) : IsMix l1 (net.chooses d1) := by
  have hp := h.bn_prob
  refine ⟨fun a ha => ?_, ?_⟩
  · refine hp.nonneg d1 h.mem1 _ (fun u hu => ?_)
    rcases hu with rfl | hu
    · rw [Assign.upd_same, show net.bn.dom u = net.dom u from rfl, h.dom1]; exact ha
    · exact absurd hu (h.noParents u)
  · have := hp.norm d1 h.mem1 (fun _ => 0) (fun p e => absurd e (h.noParents p))
    rw [← this, show net.bn.dom d1 = net.dom d1 from rfl, h.dom1]
    rfl

theorem reply2 (h : Board net d1 d2 u1 u2 p1 p2 seen l1 l2 A B) : IsReply seen l1 l2 (net.answers d1 d2) := by
  have hp := h.bn_prob
  obtain ⟨n1, n2, n3, n4, n5, n6⟩ := h.ne
  have hdep := kernel_depends h.usable.good h.mem2
  refine ⟨fun a ha => ⟨fun b hb => ?_, ?_⟩, fun hs a a' b => ?_⟩
  · refine hp.nonneg d2 h.mem2 _ (fun u hu => ?_)
    rcases hu with rfl | hu
    · rw [Assign.upd_same, show net.bn.dom u = net.dom u from rfl, h.dom2]; exact hb
    · obtain ⟨_, rfl⟩ := (h.parents2 u).1 hu
      rw [Assign.upd_ne _ _ n1, Assign.upd_same, show net.bn.dom u = net.dom u from rfl, h.dom1]
      exact ha
  · have := hp.norm d2 h.mem2 (Assign.upd (fun _ => 0) d1 a) (fun p e => by
      obtain ⟨_, rfl⟩ := (h.parents2 p).1 e
      rw [Assign.upd_same, show net.bn.dom p = net.dom p from rfl, h.dom1]
      exact ha)
    rw [← this, show net.bn.dom d2 = net.dom d2 from rfl, h.dom2]
    rfl
  · unfold answers
    apply hdep
    rintro v (rfl | e)
    · simp
    · obtain ⟨q, _⟩ := (h.parents2 v).1 e
      rw [hs] at q
      simp at q

/-- any strategy of the first player can be put in -/
theorem deviate1 (h : Board net d1 d2 u1 u2 p1 p2 seen l1 l2 A B) {x : Outcome → Rat} (hx : IsMix l1 x) :
    ∃ n, n.Usable ∧ OnlyRules net [d1] n ∧ (∀ a ∈ l1, n.chooses d1 a = x a) ∧ ∀ a b, n.answers d1 d2 a b = net.answers d1 d2 a b := by
  obtain ⟨n1, n2, n3, n4, n5, n6⟩ := h.ne
  obtain ⟨n, hU, ho, hk⟩ := realize1 h.usable h.mem1 (σ := fun a => x (a d1)) ⟨fun a b hab => by rw [hab d1 (.inl rfl)], fun a _ => by
      simp only [Assign.upd_same]
      rw [show net.bn.dom d1 = net.dom d1 from rfl, h.dom1]; exact hx.2, fun a ha => by
      have := ha d1 (.inl rfl)
      rw [show net.bn.dom d1 = net.dom d1 from rfl, h.dom1] at this
      exact hx.1 _ this⟩
  have hB := h.move (ds := [d1]) (fun v hv => .inl (by simpa using hv)) hU ho
  refine ⟨n, hU, ho, fun a ha => ?_, fun a b => ?_⟩
  · unfold chooses
    obtain ⟨b, hb1, hb2⟩ := exists_inDom h.usable.good (Assign.upd (fun _ => 0) d1 a) (fun u => u = d1) (fun u hu _ => by
      rw [hu, Assign.upd_same, h.dom1]; exact ha)
    rw [kernel_depends hU.good hB.mem1 _ b (fun u hu => by
      rcases hu with rfl | e
      · exact (hb2 u rfl).symm
      · exact absurd e (hB.noParents u)), hk b hb1, hb2 d1 rfl, Assign.upd_same]
  · unfold answers
    rw [ho.kernel (by simpa using n1.symm)]

/-- any strategy of the second player can be put in -/
theorem deviate2 (h : Board net d1 d2 u1 u2 p1 p2 seen l1 l2 A B) {y : Outcome → Outcome → Rat} (hy : IsReply seen l1 l2 y) :
    ∃ n, n.Usable ∧ OnlyRules net [d2] n ∧ (∀ a, n.chooses d1 a = net.chooses d1 a) ∧
      ∀ a ∈ l1, ∀ b ∈ l2, n.answers d1 d2 a b = y a b := by
  obtain ⟨n1, n2, n3, n4, n5, n6⟩ := h.ne
  obtain ⟨a0, ha0⟩ := List.exists_mem_of_ne_nil l1 (by rw [← h.dom1]; exact (dom_props h.usable.good h.mem1).2)
  let w : Assign → Outcome := fun a => if seen = true then a d1 else a0
  obtain ⟨n, hU, ho, hk⟩ := realize1 h.usable h.mem2 (σ := fun a => y (w a) (a d2)) ⟨fun a b hab => by
      rw [hab d2 (.inl rfl)]
      simp only [w]
      by_cases hs : seen = true
      · rw [if_pos hs, if_pos hs, hab d1 (.inr ((h.parents2 d1).2 ⟨hs, rfl⟩))]
      · rw [if_neg hs, if_neg hs], fun a ha => by
      simp only [Assign.upd_same]
      rw [show net.bn.dom d2 = net.dom d2 from rfl, h.dom2]
      by_cases hs : seen = true
      · have := ha d1 ((h.parents2 d1).2 ⟨hs, rfl⟩)
        rw [show net.bn.dom d1 = net.dom d1 from rfl, h.dom1] at this
        simp only [w, if_pos hs, Assign.upd_ne _ _ n1]
        exact (hy.1 _ this).2
      · simp only [w, if_neg hs]
        exact (hy.1 _ ha0).2, fun a ha => by
      have h2 := ha d2 (.inl rfl)
      rw [show net.bn.dom d2 = net.dom d2 from rfl, h.dom2] at h2
      by_cases hs : seen = true
      · have := ha d1 (.inr ((h.parents2 d1).2 ⟨hs, rfl⟩))
        rw [show net.bn.dom d1 = net.dom d1 from rfl, h.dom1] at this
        simp only [w, if_pos hs]
        exact (hy.1 _ this).1 _ h2
      · simp only [w, if_neg hs]
        exact (hy.1 _ ha0).1 _ h2⟩
  have hB := h.move (ds := [d2]) (fun v hv => .inr (by simpa using hv)) hU ho
  refine ⟨n, hU, ho, fun a => ?_, fun a ha b hb => ?_⟩
  · unfold chooses
    rw [ho.kernel (by simpa using n1)]
  · unfold answers
    obtain ⟨c, hc1, hc2⟩ := exists_inDom h.usable.good (Assign.upd (Assign.upd (fun _ => 0) d1 a) d2 b) (fun u => u = d1 ∨ u = d2)
      (fun u hu _ => by
        rcases hu with rfl | rfl
        · rw [Assign.upd_ne _ _ n1, Assign.upd_same, h.dom1]; exact ha
        · rw [Assign.upd_same, h.dom2]; exact hb)
    rw [kernel_depends hU.good hB.mem2 _ c (fun u hu => by
      rcases hu with rfl | e
      · exact (hc2 u (.inr rfl)).symm
      · obtain ⟨_, rfl⟩ := (hB.parents2 u).1 e
        exact (hc2 u (.inl rfl)).symm), hk c hc1, hc2 d2 (.inr rfl), Assign.upd_same]
    by_cases hs : seen = true
    · simp only [w, if_pos hs]
      rw [hc2 d1 (.inl rfl), Assign.upd_ne _ _ n1, Assign.upd_same]
    · simp only [w, if_neg hs]
      exact hy.2 (by simpa using hs) _ _ _

theorem payoff_congr {l1 l2 : List Outcome} {F : Outcome → Outcome → Rat} {x x' : Outcome → Rat} {y y' : Outcome → Outcome → Rat}
    (hx : ∀ a ∈ l1, x a = x' a) (hy : ∀ a ∈ l1, ∀ b ∈ l2, y a b = y' a b) :
    expectedPayoff l1 l2 F x y = expectedPayoff l1 l2 F x' y' := by
  unfold expectedPayoff
  congr 1
  apply List.map_congr_left
  intro a ha
  congr 1
  apply List.map_congr_left
  intro b hb
  rw [hx a ha, hy a ha b hb]

/-- equilibria of the diagram are equilibria of the tables -/
theorem noGain_iff (h : Board net d1 d2 u1 u2 p1 p2 seen l1 l2 A B) :
    net.NoGain [d1, d2] [p1, p2] ↔ TableEquilibrium seen l1 l2 A B (net.chooses d1) (net.answers d1 d2) := by
  obtain ⟨n1, n2, n3, n4, n5, n6⟩ := h.ne
  have f1 : ([d1, d2].filter (fun d => decide (net.m.role d = .decision p1))) = [d1] := by
    simp [List.filter, h.dec1, h.dec2, h.agents.symm]
  have f2 : ([d1, d2].filter (fun d => decide (net.m.role d = .decision p2))) = [d2] := by
    simp [List.filter, h.dec1, h.dec2, h.agents]
  constructor
  · intro hn
    refine ⟨fun x' hx => ?_, fun y' hy => ?_⟩
    · obtain ⟨n, hU, ho, q1, q2⟩ := h.deviate1 hx
      have := hn p1 (by simp) n hU (by rw [f1]; exact ho)
      have hB := h.move (ds := [d1]) (fun v hv => .inl (by simpa using hv)) hU ho
      rw [hB.EU1, h.EU1, payoff_congr q1 (fun a _ b _ => q2 a b)] at this
      exact this
    · obtain ⟨n, hU, ho, q1, q2⟩ := h.deviate2 hy
      have := hn p2 (by simp) n hU (by rw [f2]; exact ho)
      have hB := h.move (ds := [d2]) (fun v hv => .inr (by simpa using hv)) hU ho
      rw [hB.EU2, h.EU2, payoff_congr (fun a _ => q1 a) q2] at this
      exact this
  · rintro ⟨e1, e2⟩ agent hag n hU ho
    simp only [List.mem_cons, List.not_mem_nil, or_false] at hag
    rcases hag with rfl | rfl
    · rw [f1] at ho
      have hB := h.move (ds := [d1]) (fun v hv => .inl (by simpa using hv)) hU ho
      rw [hB.EU1, h.EU1, payoff_congr (x' := n.chooses d1) (y' := net.answers d1 d2) (fun _ _ => rfl) (fun a _ b _ => by
        unfold answers; rw [ho.kernel (by simpa using n1.symm)])]
      exact e1 _ hB.mix1
    · rw [f2] at ho
      have hB := h.move (ds := [d2]) (fun v hv => .inr (by simpa using hv)) hU ho
      rw [hB.EU2, h.EU2, payoff_congr (x' := net.chooses d1) (y' := n.answers d1 d2) (fun a _ => by
        unfold chooses; rw [ho.kernel (by simpa using n1)]) (fun _ _ _ _ => rfl)]
      exact e2 _ hB.reply2

end Board
end Net
end Verif

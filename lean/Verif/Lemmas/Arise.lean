import Verif.Spec.Arise
import Verif.Spec.Analyze
import Verif.Lemmas.Backward
import Verif.Lemmas.Revise
import Verif.Lemmas.Support
import Verif.Props.Policy

/-!
# Which observations are possible under which policies
-/

namespace Verif

open Graph Relation Macid Net

namespace Net

theorem has_dependsOn {ps : List Node} {vals : List Outcome} {S : Node → Prop} (h : ∀ p ∈ ps, S p) :
    DependsOn (fun c => if Has ps vals c then (1 : Rat) else 0) S := by
  intro c c' hc
  have : ps.map c = ps.map c' := List.map_congr_left (fun p hp => hc p (h p hp))
  have e : Has ps vals c = Has ps vals c' := by unfold Has; rw [this]
  simp only [e]

theorem Rolled.pos {net : Net} (hG : net.Good) {d : Node} (hd : d ∈ net.g.nodes) (h : net.Rolled d) {a : Assign} (ha : net.InDom a) : 0 < net.kernel d a := by
  obtain ⟨c, _, _, h⟩ := h
  rw [h a ha]
  have := List.length_pos_iff.2 (dom_props hG hd).2
  positivity

theorem Rolled.own {net : Net} {d : Node} (h : net.Rolled d) : net.Own d := by
  obtain ⟨c, h1, h2, _⟩ := h
  intro c' hc'
  rw [h1] at hc'
  cases hc'
  rw [h2]
  simp

theorem Rolled.decided {net : Net} {d : Node} (h : net.Rolled d) : net.undecided d = false := by
  obtain ⟨c, h1, h2, _⟩ := h
  simp [undecided, h1, h2]

/-- random rules at all decisions -/
theorem mixed_rolled {net n1 : Net} (hU : net.Usable) (h : net.imputeMixed = (n1, .ok ())) : ∀ d ∈ net.m.decisions, n1.Rolled d := by
  have hdec : ∀ d ∈ net.m.decisions, d ∈ net.g.nodes := fun d hd => hU.roles.nodes d (Or.inl hd)
  obtain ⟨net', h1, h2, h3, h4⟩ := forNet_usable (f := imputeRandom) (Q := fun net d => net.Rolled d)
    (fun net hU d hd => by
      obtain ⟨n, c, k1, k2, k3, k4, k5, k6⟩ := imputeRandom_usable hU hd
      exact ⟨n, k1, k2, k3, c, k4, k5, fun a ha => by rw [k6 a ((k3.inDom a).1 ha), k3.dom]⟩)
    (fun n n' ds d hO hd hQ => hO.rolled hd hQ)
    net.m.decisions hU hdec
  unfold imputeMixed at h
  rw [h1] at h
  cases h
  exact h4

/-- some outcome of everything agrees with `b` about what `d` observes and is excluded by no variable that is not a decision -/
def Feasible (net : Net) (d : Node) (b : Assign) : Prop :=
  ∃ c, net.InDom c ∧ (∀ p, net.g.Edge p d → c p = b p) ∧ ∀ v ∈ net.g.nodes, v ∉ net.m.decisions → 0 < net.kernel v c

theorem feasible_of_pos {net n' : Net} (hU' : n'.Usable) (hO : OnlyRules net net.m.decisions n') {d : Node} {b : Assign}
    (h : 0 < n'.P (Has (net.g.parents d) ((net.g.parents d).map b))) : net.Feasible d b := by
  rw [P_eq_W] at h
  have hB := bn_prob hU'.good hU'.normalised
  obtain ⟨c, hc, hE⟩ : ∃ c, n'.bn.Possible c ∧ Has (net.g.parents d) ((net.g.parents d).map b) c = true := by
    by_contra hc
    push Not at hc
    rw [BN.W_impossible hB (fun a ha => by simp [hc a ha])] at h
    exact lt_irrefl _ h
  refine ⟨c, (hO.inDom c).1 hc.1, fun p hp => ?_, fun v hv hd => ?_⟩
  · simp only [Has, decide_eq_true_eq, List.map_inj_left] at hE
    exact hE p (Graph.mem_parents.2 hp)
  · rw [← hO.kernel hd]
    exact hc.2 v (by show v ∈ n'.g.nodes; rw [hO.g]; exact hv)

theorem Feasible.pos {n1 : Net} (hU1 : n1.Usable) (hr : ∀ d ∈ n1.m.decisions, n1.Rolled d) {d : Node} {b : Assign}
    (h : n1.Feasible d b) : 0 < n1.P (Has (n1.g.parents d) ((n1.g.parents d).map b)) := by
  obtain ⟨c, h1, h2, h3⟩ := h
  rw [P_eq_W]
  refine BN.W_pos (bn_prob hU1.good hU1.normalised) (fun a _ => by split <;> norm_num)
    (has_dependsOn (fun p hp => (hU1.good.wf.edgeNodes p d (Graph.mem_parents.1 hp)).1)) (a := c) ⟨h1, fun v hv => ?_⟩ ?_
  · by_cases q : v ∈ n1.m.decisions
    · exact (hr v q).pos hU1.good hv h1
    · exact h3 v hv q
  · rw [if_pos]
    · norm_num
    · simp only [Has, decide_eq_true_eq, List.map_inj_left]
      exact fun p hp => h2 p (Graph.mem_parents.1 hp)

theorem OnlyRules.feasible {n n' : Net} (h : OnlyRules n n.m.decisions n') {d : Node} {b : Assign} : n'.Feasible d b ↔ n.Feasible d b := by
  unfold Feasible
  rw [h.g, h.m]
  refine exists_congr fun c => and_congr (h.inDom c) (and_congr_right fun _ => forall₃_congr fun v _ hv => ?_)
  rw [h.kernel hv]

/-- what can arise does not depend on the policy -/
theorem arises_iff {net : Net} (hU : net.Usable) {d : Node} {b : Assign} : net.Arises d b ↔ net.Feasible d b := by
  constructor
  · rintro ⟨n', h1, h2, h3⟩
    exact feasible_of_pos h1 h2 h3
  · intro h
    obtain ⟨n1, h1, hU1, hO1, _⟩ := C49_fully_mixed hU
    refine ⟨n1, hU1, hO1, ?_⟩
    have := Feasible.pos hU1 (by rw [hO1.m]; exact mixed_rolled hU h1) (hO1.feasible.2 h)
    rw [hO1.g] at this
    exact this

theorem SameWorld.feasible {n n' : Net} (h : SameWorld (· ∈ n.m.decisions) n n') (hE : ∀ u v, n'.g.Edge u v ↔ n.g.Edge u v)
    (hd : ∀ v, v ∈ n'.m.decisions ↔ v ∈ n.m.decisions) {d : Node} {b : Assign} (hf : n.Feasible d b) : n'.Feasible d b := by
  obtain ⟨c, h1, h2, h3⟩ := hf
  refine ⟨c, fun v hv => ?_, fun p hp => h2 p ((hE p d).1 hp), fun v hv hvd => ?_⟩
  · have := (h.nodes v).1 hv
    rw [h.outcomes v this]
    exact h1 v this
  · have hv' := (h.nodes v).1 hv
    have hvd' := fun q => hvd ((hd v).2 q)
    rw [h.kernels v hv' hvd' c h1]
    exact h3 v hv' hvd'

theorem SameWorld.optimisable {n n' : Net} (hU : n.Usable) (hU' : n'.Usable) (h : SameWorld (· ∈ n.m.decisions) n n')
    (hE : ∀ u v, n'.g.Edge u v ↔ n.g.Edge u v) {a : Agent} (ho : n.Optimisable a) : n'.Optimisable a := by
  have hd : ∀ v, v ∈ n'.m.decisions ↔ v ∈ n.m.decisions := fun v => by
    rw [decisions_role, decisions_role]
    simp only [h.roles]
  intro d hdd
  obtain ⟨⟨u, k1, k2⟩, k3⟩ := ho d ((hd d).1 hdd)
  refine ⟨⟨u, by rw [h.roles]; exact k1, TransGen.mono (fun x y q => (hE x y).2 q) _ _ k2⟩, fun b hb => ?_⟩
  rw [arises_iff hU']
  refine h.feasible hE hd ((arises_iff hU).1 (k3 b (fun v hv => ?_)))
  rw [← h.outcomes v hv]
  exact hb v ((h.nodes v).2 hv)

/-- rules that are not upstream do not matter for the probability of an observation -/
theorem upstream {n1 n2 : Net} (hU1 : n1.Usable) (hU2 : n2.Usable) {ds : List Node} (hO : OnlyRules n1 ds n2) {ps : List Node}
    (hps : ∀ p ∈ ps, p ∈ n1.g.nodes) (hup : ∀ e ∈ ds, ∀ p ∈ ps, ¬ n1.g.DescEq e p) (vals : List Outcome) :
    n2.P (Has ps vals) = n1.P (Has ps vals) := by
  have hB1 := bn_prob hU1.good hU1.normalised
  have hB2 := bn_prob hU2.good hU2.normalised
  have hw := hU1.good.wf
  let U : List Node := (n1.g.ancestorsOf ps).dedup
  have hU : ∀ v, v ∈ U ↔ ∃ p ∈ ps, n1.g.DescEq v p := fun v => by
    simp only [U, List.mem_dedup, mem_ancestorsOf hw]
  have hnode : ∀ v ∈ U, v ∈ n1.g.nodes := by
    intro v hv
    obtain ⟨p, hp, q⟩ := (hU v).1 hv
    rcases ReflTransGen.cases_head q with rfl | ⟨c, q, _⟩
    · exact hps _ hp
    · exact (hw.edgeNodes v c q).1
  have hcl : ∀ p v, n1.g.Edge p v → v ∈ U → p ∈ U := by
    intro p v he hv
    obtain ⟨q, hq, hd⟩ := (hU v).1 hv
    exact (hU p).2 ⟨q, hq, .head he hd⟩
  have hdep : DependsOn (fun c => if Has ps vals c then (1 : Rat) else 0) (· ∈ U) :=
    has_dependsOn (fun p hp => (hU p).2 ⟨p, hp, .refl⟩)
  rw [P_eq_W, P_eq_W, BN.W_ancestral hB1 (U := U) (List.nodup_dedup _) hnode hcl hdep (fun _ => 0),
    BN.W_ancestral hB2 (U := U) (List.nodup_dedup _) (by show ∀ v ∈ U, v ∈ n2.g.nodes; rw [hO.g]; exact hnode)
      (by show ∀ p v, n2.g.Edge p v → v ∈ U → p ∈ U; rw [hO.g]; exact hcl) hdep (fun _ => 0)]
  show sumOver n2.dom _ _ _ = sumOver n1.dom _ _ _
  rw [hO.dom]
  congr 1
  funext b
  congr 1
  unfold BN.prod
  congr 1
  refine List.map_congr_left (fun v hv => ?_)
  show n2.kernel v b = n1.kernel v b
  rw [hO.kernel]
  intro q
  obtain ⟨p, hp, hd⟩ := (hU v).1 hv
  exact hup v q p hp hd

end Net
end Verif

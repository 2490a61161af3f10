import Verif.Spec.Motives
import Verif.Lemmas.Backdoor
import Verif.Lemmas.Relay

/-!
# Nodes that pay no attention to their parents
-/

namespace Verif
open Relation Graph

namespace BN

/-- the network in which the nodes of `N` act as if their parents had the values of `z` -/
def deaf (B : BN) (N : List Node) (z : Assign) : BN :=
  ⟨Net.CutGraph B.g N, B.dom, fun v a => if v ∈ N then B.k v (Assign.upd z v (a v)) else B.k v a⟩

theorem deaf_prob {B : BN} (hB : B.Prob) (N : List Node) {z : Assign} (hz : B.InDom z) : (B.deaf N z).Prob := by
  have hE : ∀ {u v}, (Net.CutGraph B.g N).Edge u v ↔ B.g.Edge u v ∧ v ∉ N := Net.mem_cutGraph
  refine ⟨⟨Net.cutGraph_wf hB.wf N, hB.nodup, fun v hv a b hab => ?_⟩, fun v hv a ha => ?_, fun v hv a ha => ?_⟩
  · show (if v ∈ N then _ else _) = (if v ∈ N then _ else _)
    split
    · rw [hab v (Or.inl rfl)]
    · rename_i h
      exact hB.scope v hv a b (fun u hu => hab u (hu.imp id (fun e => hE.2 ⟨e, h⟩)))
  · show ((B.dom v).map (fun y => if v ∈ N then B.k v (Assign.upd z v (Assign.upd a v y v)) else B.k v (Assign.upd a v y))).sum = 1
    by_cases h : v ∈ N
    · simp only [if_pos h, Assign.upd_same]
      exact hB.norm v hv z (fun p hp => hz p (hB.wf.edgeNodes p v hp).1)
    · simp only [if_neg h]
      exact hB.norm v hv a (fun p hp => ha p (hE.2 ⟨hp, h⟩))
  · show 0 ≤ (if v ∈ N then _ else _)
    split
    · refine hB.nonneg v hv _ (fun u hu => ?_)
      by_cases e : u = v
      · subst e; rw [Assign.upd_same]; exact ha u (Or.inl rfl)
      · rw [Assign.upd_ne _ _ e]
        exact hz u (hu.elim (fun q => absurd q e) (fun q => (hB.wf.edgeNodes u v q).1))
    · rename_i h
      exact hB.nonneg v hv a (fun u hu => ha u (hu.imp id (fun e => hE.2 ⟨e, h⟩)))

end BN

namespace Net

/-- Where every route from `d` to `u` is cut by a node that ignores its parents, the choice at `d` does not matter for `u`. -/
theorem deaf_do {net : Net} (hG : net.Good) (hN : net.Normalised) {d : Node} (hd : d ∈ net.g.nodes) {x y : Outcome} (hx : x ∈ net.dom d) (hy : y ∈ net.dom d)
    {N : List Node} (hdN : d ∉ N) (hign : ∀ e ∈ N, e ∈ net.g.nodes → net.Ignores e) {u : Node} (hu : u ∈ net.g.nodes)
    (hno : ¬ (CutGraph net.g N).DescEq d u) {f : Assign → Rat} (hf : DependsOn f (· = u)) : (net.doBN [(d, x)]).W f = (net.doBN [(d, y)]).W f := by
  have hB := bn_prob hG hN
  obtain ⟨z, hz⟩ := BN.exists_possible hB
  have hM := BN.deaf_prob hB N hz.1
  have key : ∀ x, (net.doBN [(d, x)]).W f = ((net.bn.deaf N z).withRule d (fun a => if a d = x then 1 else 0)).W f := by
    intro x
    unfold BN.W
    show sumOver net.dom net.g.nodes _ _ = sumOver net.dom net.g.nodes _ _
    apply sumOver_congr
    intro b hb _
    congr 1
    unfold BN.prod
    show ((net.g.nodes).map _).prod = ((net.g.nodes).map _).prod
    refine congrArg List.prod (List.map_congr_left (fun v hv => ?_))
    show (if v ∈ [d] then (if ∀ p ∈ [(d, x)], p.1 = v → b v = p.2 then (1 : Rat) else 0) else net.kernel v b) =
      (if v = d then (fun a : Assign => if a d = x then (1 : Rat) else 0) else
        (fun a : Assign => if v ∈ N then net.kernel v (Assign.upd z v (a v)) else net.kernel v a)) b
    by_cases e : v = d
    · subst e; simp
    · rw [if_neg (by simpa using e), if_neg e]
      by_cases h : v ∈ N
      · rw [if_pos h]
        refine hign v h hv _ _ hb (fun w hw => ?_) (by rw [Assign.upd_same])
        by_cases e' : w = v
        · subst e'; rw [Assign.upd_same]; exact hb w hw
        · rw [Assign.upd_ne _ _ e']; exact hz.1 w hw
      · rw [if_neg h]
  rw [key x, key y]
  refine BN.W_nondesc hM (BN.isRule_ind hM hd hx) (BN.isRule_ind hM hd hy) (hf.mono (fun v hv => ?_))
  subst hv
  exact ⟨hu, hno⟩

end Net
end Verif

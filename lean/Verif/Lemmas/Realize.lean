import Verif.Lemmas.Policies
import Verif.Lemmas.SubgameNet

/-!
# Every conditional distribution is a decision rule
-/

namespace Verif

open Graph Relation Macid

namespace Net

/-- a rule given by its probabilities can be put into a network -/
theorem realize1 {net : Net} (hU : net.Usable) {d : Node} (hd : d ∈ net.g.nodes) {σ : Assign → Rat} (hσ : net.bn.IsRule d σ) :
    ∃ net', net'.Usable ∧ OnlyRules net [d] net' ∧ ∀ a, net.InDom a → net'.kernel d a = σ a := by
  have hG := hU.good
  obtain ⟨hn, hne⟩ := dom_props hG hd
  have hpn := Graph.nodup_parents hG.wf.edgesNodup d
  have hdZ : d ∉ net.g.parents d := fun h => hG.wf.acyclic d (.single (Graph.mem_parents.1 h))
  let zOf : List Outcome → Assign := fun vals p => (pvOf (net.g.parents d) vals p).getD 0
  have hz : ∀ z : Assign, ∀ p ∈ net.g.parents d, zOf ((net.g.parents d).map z) p = z p := by
    intro z p hp
    simp only [zOf, pvOf_map, restrict, hp, if_true, Option.getD_some]
  let w : List Outcome → Outcome → Rat := fun vals x => σ (Assign.upd (zOf vals) d x)
  have hw : ∀ a x, w ((net.g.parents d).map a) x = σ (Assign.upd a d x) := by
    intro a x
    refine hσ.scope _ _ (fun u hu => ?_)
    rcases hu with rfl | hu
    · simp
    · have hud : u ≠ d := by rintro rfl; exact hG.wf.acyclic u (.single hu)
      rw [Assign.upd_ne _ _ hud, Assign.upd_ne _ _ hud, hz a u (Graph.mem_parents.2 hu)]
  let f : Func := fun pv => .ok (.dist ((net.dom d).map (fun x => (x, some (σ (Assign.upd (fun p => (pv p).getD 0) d x))))))
  have hkeys : ∀ h : Outcome → Option Rat, Dict.keys ((net.dom d).map (fun x => (x, h x))) = net.dom d := by
    intro h; simp [Dict.keys, Function.comp_def]
  have hin : ∀ vals, Instantiation (net.g.parents d) net.domain vals → ∃ a, vals = (net.g.parents d).map a ∧
      ∀ p, net.g.Edge p d → a p ∈ net.dom p := by
    intro vals hv
    obtain ⟨a, rfl, _⟩ := exists_assign hpn hv
    refine ⟨a, rfl, fun p hp => ?_⟩
    unfold Instantiation at hv
    rw [List.forall₂_map_right_iff, List.forall₂_same] at hv
    obtain ⟨l, h1, h2⟩ := hv p (Graph.mem_parents.2 hp)
    rw [dom_eq h1]
    exact h2
  obtain ⟨c, h1, h2, h3⟩ := mkCpd_dist (kind := .stochastic) (v := d) (f := f) (domain := net.dom d)
    (ps := net.g.parents d) (dom := net.domain) (card := cardOf net.domain) (δ := w)
    hn hne (parents_dom hG d) (fun vals _ => ⟨_, rfl, by rw [hkeys]; exact hn, fun x hx => by rw [hkeys] at hx; exact hx,
      fun x hx => by
        simp only [given, get?_map_pair (h := fun x => some (σ (Assign.upd (fun p => (pvOf (net.g.parents d) vals p).getD 0) d x))), hx,
          if_true, Option.join_some, Option.getD_some]
        rfl⟩)
    (fun vals hv x hx => by
      obtain ⟨a, rfl, ha⟩ := hin vals hv
      rw [hw]
      apply hσ.nonneg
      rintro u (rfl | hu)
      · rw [Assign.upd_same]; exact hx
      · have hud : u ≠ d := by rintro rfl; exact hG.wf.acyclic u (.single hu)
        rw [Assign.upd_ne _ _ hud]; exact ha u hu)
    (fun vals hv => by
      obtain ⟨a, rfl, ha⟩ := hin vals hv
      rw [List.map_congr_left (fun x _ => hw a x)]
      exact hσ.norm a ha)
  obtain ⟨net', k1, k2, k3, k4, k5⟩ := set_newRule hG hd h1 h2
  have hk : ∀ a, net.InDom a → net'.kernel d a = σ a := by
    intro a ha
    rw [kernel_rule k3 k4 h1, h3 _ (inst_of_inDom hG ha d) _ (ha d hd), hw, Assign.upd_self]
    rfl
  refine ⟨net', k3.usable hU k2 (k3.normalised hU.normalised ?_), k3, hk⟩
  intro e he _ a ha
  rw [List.mem_singleton] at he
  subst he
  refine ⟨by rw [hk a ha]; exact hσ.nonneg a (by
    rintro u (rfl | hu)
    · exact ha u hd
    · exact ha u (hG.wf.edgeNodes u e hu).1), ?_⟩
  rw [List.map_congr_left (fun x hx => hk _ (inDom_upd ha hx))]
  exact hσ.norm a (fun p hp => ha p (hG.wf.edgeNodes p e hp).1)

/-- the same for several decisions -/
theorem realize : ∀ (L : List Node) {net : Net}, net.Usable → L.Nodup → (∀ d ∈ L, d ∈ net.g.nodes) → ∀ {σ : Node → Assign → Rat},
    (∀ d ∈ L, net.bn.IsRule d (σ d)) →
    ∃ net', net'.Usable ∧ OnlyRules net L net' ∧ ∀ d ∈ L, ∀ a, net.InDom a → net'.kernel d a = σ d a
  | [], net, hU, _, _, _, _ => ⟨net, hU, .rfl' _ _, by simp⟩
  | d :: L, net, hU, hnd, hL, σ, hσ => by
    obtain ⟨hdL, hnd'⟩ := List.nodup_cons.1 hnd
    obtain ⟨n1, h1, h2, h3⟩ := realize1 hU (hL d (by simp)) (hσ d (by simp))
    obtain ⟨n2, k1, k2, k3⟩ := realize L h1 hnd' (fun e he => by rw [h2.g]; exact hL e (by simp [he])) (σ := σ) (fun e he => by
      obtain ⟨q1, q2, q3⟩ := hσ e (by simp [he])
      refine ⟨?_, ?_, ?_⟩
      · show DependsOn (σ e) (fun u => u = e ∨ n1.g.Edge u e)
        rw [h2.g]; exact q1
      · show ∀ a : Assign, (∀ p, n1.g.Edge p e → a p ∈ n1.dom p) → ((n1.dom e).map (fun x => σ e (Assign.upd a e x))).sum = 1
        rw [h2.g, h2.dom]; exact q2
      · show ∀ a : Assign, (∀ u, u = e ∨ n1.g.Edge u e → a u ∈ n1.dom u) → 0 ≤ σ e a
        rw [h2.g, h2.dom]; exact q3)
    refine ⟨n2, k1, h2.trans k2 (by simp) (fun w hw => by simp [hw]), ?_⟩
    intro e he a ha
    rcases List.mem_cons.1 he with rfl | he
    · rw [k2.kernel hdL, h3 a ha]
    · exact k3 e he a ((h2.inDom a).2 ha)

end Net
end Verif

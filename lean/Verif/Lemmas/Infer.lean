import Verif.Lemmas.Markov
import Verif.Props.Intervene
import Verif.Spec.Prob

/-!
# Networks as factorised distributions
-/

namespace Verif
open Relation
namespace Net

/-- the factorised distribution of a network -/
def bn (net : Net) : BN := ⟨net.g, net.dom, net.kernel⟩

theorem kernel_depends {net : Net} (hG : Good net) {v : Node} (hv : v ∈ net.g.nodes) :
    DependsOn (net.kernel v) (fun u => u = v ∨ net.g.Edge u v) := by
  intro a b hab
  obtain ⟨c, hc, _⟩ := hG.complete v hv
  unfold kernel
  rw [hc]
  simp only
  rw [hab v (Or.inl rfl), List.map_congr_left (fun p hp => hab p (Or.inr (((hG.fits v c hc).parents p).1 hp)))]

theorem dom_props {net : Net} (hG : Good net) {v : Node} (hv : v ∈ net.g.nodes) :
    (net.dom v).Nodup ∧ net.dom v ≠ [] := by
  obtain ⟨c, hc, hd⟩ := hG.complete v hv
  rw [dom_eq hd]
  exact ⟨(hG.cpdOk v c hc).nodup, (hG.cpdOk v c hc).nonempty⟩

theorem bn_local {net : Net} (hG : Good net) : net.bn.Local :=
  ⟨hG.wf, fun _ hv => (dom_props hG hv).1, fun _ hv => kernel_depends hG hv⟩

/-- an assignment can be completed outside any set of variables -/
theorem exists_inDom {net : Net} (hG : Good net) (a : Assign) (S : Node → Prop)
    (hS : ∀ u, S u → u ∈ net.g.nodes → a u ∈ net.dom u) : ∃ b, net.InDom b ∧ ∀ u, S u → b u = a u := by
  classical
  refine ⟨fun u => if S u then a u else (net.dom u).headD 0, fun u hu => ?_, fun u hu => by simp [hu]⟩
  simp only
  split
  · rename_i h; exact hS u h hu
  · have := (dom_props hG hu).2
    cases h : net.dom u with
    | nil => exact absurd h this
    | cons x l => simp

theorem kernel_ext {net net' : Net} (hG : Good net) (hG' : Good net') {v : Node} (hv : v ∈ net.g.nodes) (hv' : v ∈ net'.g.nodes)
    (he : ∀ u, net'.g.Edge u v → net.g.Edge u v)
    (h : ∀ a, net.InDom a → net'.kernel v a = net.kernel v a) (a : Assign)
    (ha : ∀ u, u = v ∨ net.g.Edge u v → a u ∈ net.dom u) : net'.kernel v a = net.kernel v a := by
  obtain ⟨b, hb1, hb2⟩ := exists_inDom hG a _ (fun u hu _ => ha u hu)
  rw [kernel_depends hG hv a b (fun u hu => (hb2 u hu).symm),
    kernel_depends hG' hv' a b (fun u hu => (hb2 u (hu.imp id (he u))).symm)]
  exact h b hb1

theorem bn_prob {net : Net} (hG : Good net) (hN : net.Normalised) : net.bn.Prob := by
  refine ⟨bn_local hG, fun v hv a ha => ?_, fun v hv a ha => ?_⟩
  · obtain ⟨b, hb1, hb2⟩ := exists_inDom hG a (fun p => net.g.Edge p v) (fun p hp _ => ha p hp)
    rw [← (hN v hv b hb1).2]
    show ((net.dom v).map (fun x => net.kernel v (Assign.upd a v x))).sum = _
    congr 1
    apply List.map_congr_left
    intro x _
    apply kernel_depends hG hv
    rintro u (rfl | hu)
    · simp
    · have : u ≠ v := fun e => hG.wf.acyclic v (TransGen.single (e ▸ hu))
      rw [Assign.upd_ne _ _ this, Assign.upd_ne _ _ this, hb2 u hu]
  · obtain ⟨b, hb1, hb2⟩ := exists_inDom hG a (fun u => u = v ∨ net.g.Edge u v) (fun u hu _ => ha u hu)
    have := (hN v hv b hb1).1
    rwa [kernel_depends hG hv b a (fun u hu => hb2 u hu)] at this

theorem P_eq_W (net : Net) (E : Assign → Bool) : net.P E = net.bn.W (fun a => if E a then 1 else 0) := by
  unfold P BN.W BN.prod bn
  congr 1
  funext a
  simp only
  split <;> simp

theorem mass_eq_P (net : Net) (ev : List (Node × Outcome)) : net.mass ev = net.P (Ctx ev) := rfl

theorem ctx_append (c1 c2 : List (Node × Outcome)) (a : Assign) : Ctx (c1 ++ c2) a = (Ctx c1 a && Ctx c2 a) := by
  simp [Ctx]

theorem ctx_zip {vars : List Node} {xs : List Outcome} (h : vars.length = xs.length) (a : Assign) :
    Ctx (vars.zip xs) a = Has vars xs a := by
  unfold Ctx Has
  induction vars generalizing xs with
  | nil =>
    cases xs with
    | nil => simp
    | cons => simp at h
  | cons v vs ih =>
    cases xs with
    | nil => simp at h
    | cons x xs =>
      simp only [List.zip_cons_cons, List.all_cons, List.map_cons, List.cons.injEq, Bool.decide_and]
      rw [ih (by simpa using h)]

theorem P_congr {net : Net} {E F : Assign → Bool} (h : ∀ a, net.InDom a → E a = F a) : net.P E = net.P F := by
  rw [P_eq_W, P_eq_W]
  apply BN.W_congr
  intro a ha
  rw [h a ha]

/-- equal probabilities in networks with the same mechanisms -/
theorem P_equiv {net net' : Net} (hn : net'.g.nodes = net.g.nodes) (hd : ∀ v ∈ net.g.nodes, (net'.dom v).Perm (net.dom v))
    (hk : ∀ v ∈ net.g.nodes, ∀ a, net.InDom a → net'.kernel v a = net.kernel v a) (E : Assign → Bool) :
    net'.P E = net.P E := by
  unfold P
  rw [hn, sumOver_dom_perm hd]
  apply sumOver_congr
  intro b hb _
  rw [List.map_congr_left (fun v hv => hk v hv b hb)]

theorem PDo_equiv {net net' : Net} (hn : net'.g.nodes = net.g.nodes) (hd : ∀ v ∈ net.g.nodes, (net'.dom v).Perm (net.dom v))
    (hk : ∀ v ∈ net.g.nodes, ∀ a, net.InDom a → net'.kernel v a = net.kernel v a) (ints : List (Node × Outcome))
    (E : Assign → Bool) : net'.PDo ints E = net.PDo ints E := by
  unfold PDo
  rw [hn, sumOver_dom_perm hd]
  apply sumOver_congr
  intro b hb _
  rw [List.map_congr_left (fun v hv => hk v (List.mem_filter.1 hv).1 b hb)]

theorem prod_indicator {l : List Node} {f : Node → Rat} {p : Node → Bool} (h : ∀ v ∈ l, p v = true → f v = 1) :
    (l.map f).prod = ((l.filter (fun v => !p v)).map f).prod := by
  induction l with
  | nil => rfl
  | cons v l ih =>
    simp only [List.map_cons, List.prod_cons, List.filter_cons]
    rw [ih (fun w hw => h w (by simp [hw]))]
    cases hp : p v with
    | true => simp [h v (by simp) hp]
    | false => simp

theorem prod_zero_of_mem {l : List Node} {f : Node → Rat} {v : Node} (hv : v ∈ l) (h : f v = 0) : (l.map f).prod = 0 := by
  apply List.prod_eq_zero
  rw [← h]
  exact List.mem_map_of_mem hv

/-- the truncated factorisation -/
theorem P_cut {net net' : Net} {ints : List (Node × Outcome)} (hc : Cut net ints net')
    (hi : ∀ p ∈ ints, p.1 ∈ net.g.nodes) (E : Assign → Bool) : net'.P E = net.PDo ints E := by
  unfold P PDo
  rw [hc.nodes, sumOver_dom_perm hc.domain]
  apply sumOver_congr
  intro b hb _
  have hb' : net.InDom b := hb
  by_cases hE : E b = true
  · simp only [hE, if_true, true_and]
    by_cases ha : ∀ p ∈ ints, b p.1 = p.2
    · rw [if_pos ha, prod_indicator (p := fun v => decide (v ∈ ints.map (·.1)))]
      · simp only [decide_not]
        congr 1
        apply List.map_congr_left
        intro v hv
        simp only [List.mem_filter, Bool.not_eq_true', decide_eq_false_iff_not] at hv
        exact hc.others v hv.1 hv.2 b hb'
      · intro v hv hp
        simp only [decide_eq_true_eq, List.mem_map] at hp
        obtain ⟨p, hp, rfl⟩ := hp
        rw [hc.fixed p.1 p.2 hp b hb', if_pos (ha p hp)]
    · rw [if_neg ha]
      push Not at ha
      obtain ⟨p, hp, hne⟩ := ha
      exact prod_zero_of_mem (hi p hp) (by rw [hc.fixed p.1 p.2 hp b hb', if_neg hne])
  · simp [hE]

end Net
end Verif

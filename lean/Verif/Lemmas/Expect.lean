import Verif.Lemmas.Build

/-!
# Conditional expectations
-/

namespace Verif

open Graph

namespace Net

/-- a sum over all combinations of outcomes -/
theorem W_product (B : BN) (dom' : Node → List Outcome) (hd : ∀ v ∈ B.g.nodes, (dom' v).Perm (B.dom v))
    (hnd : ∀ v ∈ B.g.nodes, (B.dom v).Nodup) {vars : List Node} (hv : ∀ v ∈ vars, v ∈ B.g.nodes) (F : Assign → Rat)
    (G : List Outcome → Rat) :
    ((product (vars.map dom')).map (fun xs => G xs * B.W (fun a => if vars.map a = xs then F a else 0))).sum =
      B.W (fun a => G (vars.map a) * F a) := by
  rw [List.map_congr_left (fun xs _ => (BN.W_mul_const B (G xs) _).symm), ← BN.W_sum]
  apply BN.W_congr
  intro a ha
  have hnd' : (product (vars.map dom')).Nodup := by
    apply nodup_product
    intro l hl
    obtain ⟨v, hvv, rfl⟩ := List.mem_map.1 hl
    exact (hd v (hv v hvv)).nodup_iff.2 (hnd v (hv v hvv))
  have hm : vars.map a ∈ product (vars.map dom') := by
    rw [mem_product, List.forall₂_map_left_iff, List.forall₂_map_right_iff, List.forall₂_same]
    intro v hvv
    exact (hd v (hv v hvv)).mem_iff.2 (ha v (hv v hvv))
  generalize product (vars.map dom') = L at hnd' hm
  induction L with
  | nil => simp at hm
  | cons x L ih =>
    obtain ⟨h1, h2⟩ := List.nodup_cons.1 hnd'
    simp only [List.map_cons, List.sum_cons]
    rcases List.mem_cons.1 hm with rfl | hm
    · have : (L.map (fun xs => G xs * if vars.map a = xs then F a else 0)).sum = 0 := by
        apply List.sum_eq_zero
        intro y hy
        obtain ⟨xs, hxs, rfl⟩ := List.mem_map.1 hy
        have : vars.map a ≠ xs := fun e => h1 (e ▸ hxs)
        simp [this]
      rw [this]
      simp
    · have : vars.map a ≠ x := fun e => h1 (e ▸ hm)
      rw [ih h2 hm]
      simp [this]

end Net

namespace Net

/-- conditional expectation of a function of the assignment -/
def EW (net : Net) (int ctx : List (Node × Outcome)) (F : Assign → Rat) : Rat :=
  (net.doBN int).W (fun a => F a * if Ctx ctx a then 1 else 0) / net.PDo int (Ctx ctx)

theorem Mean_eq {net : Net} (hG : Good net) {int ctx : List (Node × Outcome)} (hi : ∀ p ∈ int, p.1 ∈ net.g.nodes) {v : Node}
    (hv : v ∈ net.g.nodes) : net.Mean int ctx v = net.EW int ctx (fun a => a v) := by
  have := W_product (net.doBN int) net.dom (fun _ _ => .refl _) (fun v hv => (dom_props hG hv).1) (vars := [v])
    (fun w hw => by rw [List.mem_singleton] at hw; subst hw; exact hv) (fun a => if Ctx ctx a then 1 else 0) (fun xs => xs.getD 0 0 / net.PDo int (Ctx ctx))
  unfold Mean EW
  simp only [List.map_cons, List.map_nil, product, List.map_flatMap] at this
  refine Eq.trans ?_ (this.trans ?_)
  · rw [← List.map_eq_flatMap]
    congr 1
    apply List.map_congr_left
    intro x _
    rw [PDo_eq_W hi (fun a => decide (a v = x) && Ctx ctx a), mul_div_assoc', div_mul_eq_mul_div]
    simp only [List.getD_cons_zero]
    congr 3
    funext a
    by_cases h1 : a v = x <;> simp [h1]
  · rw [div_eq_mul_inv, mul_comm, ← BN.W_mul_const]
    congr 1
    funext a
    simp only [List.getD_cons_zero]
    ring

theorem EW_add (net : Net) (int ctx : List (Node × Outcome)) (F G : Assign → Rat) :
    net.EW int ctx (fun a => F a + G a) = net.EW int ctx F + net.EW int ctx G := by
  unfold EW
  rw [← add_div, ← BN.W_add]
  congr 2
  funext a
  ring

theorem EW_zero (net : Net) (int ctx : List (Node × Outcome)) : net.EW int ctx (fun _ => 0) = 0 := by
  unfold EW
  have := (net.doBN int).W_mul_const 0 (fun _ => 0)
  simp only [zero_mul] at this
  simp [this]

theorem EW_sum (net : Net) (int ctx : List (Node × Outcome)) {α : Type} (l : List α) (F : α → Assign → Rat) :
    net.EW int ctx (fun a => (l.map (fun i => F i a)).sum) = (l.map (fun i => net.EW int ctx (F i))).sum := by
  induction l with
  | nil => simpa using EW_zero net int ctx
  | cons x l ih => simp only [List.map_cons, List.sum_cons, EW_add, ih]

theorem PDo_nonneg {net : Net} (hG : Good net) (hN : net.Normalised) {int : List (Node × Outcome)} (hi : net.IntOk int)
    (E : Assign → Bool) : 0 ≤ net.PDo int E := by
  rw [PDo_eq_W (fun p hp => (hi.2 p hp).1)]
  exact BN.W_nonneg (doBN_prob hG hN hi.1 (fun p hp => (hi.2 p hp).2.1)) (fun a _ => by split <;> norm_num)

/-- expectations are monotone -/
theorem EW_le {net : Net} (hG : Good net) (hN : net.Normalised) {int ctx : List (Node × Outcome)} (hi : net.IntOk int)
    {F G : Assign → Rat} (h : ∀ a, net.InDom a → Ctx ctx a = true → F a ≤ G a) : net.EW int ctx F ≤ net.EW int ctx G := by
  unfold EW
  apply div_le_div_of_nonneg_right _ (PDo_nonneg hG hN hi _)
  refine BN.W_le (doBN_prob hG hN hi.1 (fun p hp => (hi.2 p hp).2.1)) (fun a ha => ?_)
  by_cases hc : Ctx ctx a = true
  · simp only [hc, if_true, mul_one]
    exact h a ha hc
  · simp [hc]

theorem EW_const {net : Net} {int ctx : List (Node × Outcome)} (hi : ∀ p ∈ int, p.1 ∈ net.g.nodes)
    (hpos : net.PDo int (Ctx ctx) ≠ 0) (c : Rat) : net.EW int ctx (fun _ => c) = c := by
  unfold EW
  rw [BN.W_mul_const, ← PDo_eq_W hi]
  field_simp

/-- what the loop of `expected_value` computes -/
theorem evOf_conditional {net : Net} (hG : Good net) {int ctx : List (Node × Outcome)} (hi : ∀ p ∈ int, p.1 ∈ net.g.nodes)
    (hpos : net.PDo int (Ctx ctx) ≠ 0) {f : Factor} {q : List Node} (hq : ∀ v ∈ q, v ∈ net.g.nodes) {dom' : Node → List Outcome}
    (hd : ∀ v ∈ net.g.nodes, (dom' v).Perm (net.dom v)) (hf : IsConditional f q dom' (net.PDo int) (Ctx ctx)) :
    evOf f = .ok (f.vars.map (net.Mean int ctx)) := by
  obtain ⟨hf1, hf2, hf3⟩ := hf
  have hq' : ∀ v ∈ f.vars, v ∈ net.g.nodes := fun v hv => hq v (hf1.mem_iff.1 hv)
  have hf3' : f.values = (product f.states).map (fun xs =>
      some (net.PDo int (fun a => Has f.vars xs a && Ctx ctx a) / net.PDo int (Ctx ctx))) := by
    rw [hf3]
    simp [hpos]
  unfold evOf
  rw [if_neg (by rw [hf3']; simp)]
  congr 1
  rw [hf3']
  apply List.ext_getElem
  · simp
  · intro i h1 h2
    simp only [List.length_map, List.length_zipIdx] at h1
    rw [List.getElem_map, List.getElem_map, List.getElem_zipIdx]
    simp only [Nat.zero_add]
    rw [Mean_eq hG hi (hq' _ (List.getElem_mem h1))]
    have := W_product (net.doBN int) dom' hd (fun v hv => (dom_props hG hv).1) (vars := f.vars) hq'
      (fun a => if Ctx ctx a then 1 else 0) (fun xs => xs.getD i 0 / net.PDo int (Ctx ctx))
    rw [← hf2] at this
    have hz : ∀ l : List (List Outcome), (l.zip (l.map (fun xs =>
        some (net.PDo int (fun a => Has f.vars xs a && Ctx ctx a) / net.PDo int (Ctx ctx))))).map
        (fun e => e.2.getD 0 * e.1.getD i 0) = l.map (fun xs => xs.getD i 0 / net.PDo int (Ctx ctx) *
        (net.doBN int).W (fun a => if f.vars.map a = xs then (if Ctx ctx a then 1 else 0) else 0)) := by
      intro l
      induction l with
      | nil => rfl
      | cons xs l ih =>
        simp only [List.map_cons, List.zip_cons_cons, ih, Option.getD_some]
        congr 1
        rw [PDo_eq_W hi (fun a => Has f.vars xs a && Ctx ctx a), div_mul_eq_mul_div, div_mul_eq_mul_div, mul_comm]
        congr 3
        funext a
        unfold Has
        by_cases h1 : f.vars.map a = xs <;> simp [h1]
    rw [hz, this]
    unfold EW
    rw [div_eq_mul_inv, mul_comm, ← BN.W_mul_const]
    congr 1
    funext a
    simp only [List.getD_eq_getElem?_getD, List.getElem?_map, List.getElem?_eq_getElem h1, Option.map_some, Option.getD_some]
    ring

end Net
end Verif

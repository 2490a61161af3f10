import Verif.Lemmas.Support

/-!
# Comparing the probabilities of two events, up to a factor
-/

namespace Verif

open Graph Relation

variable {dom : Node → List Outcome}

theorem sumOver_le_const {vs : List Node} {f : Assign → Rat} {a : Assign} {c : Rat} {L : Nat} (hc : 0 ≤ c) (hL : ∀ v ∈ vs, (dom v).length ≤ L)
    (hf : ∀ b : Assign, (∀ v ∈ vs, b v ∈ dom v) → (∀ v, v ∉ vs → b v = a v) → f b ≤ c) : sumOver dom vs f a ≤ (L : Rat) ^ vs.length * c := by
  refine le_trans (sumOver_le (h := fun _ => c) hf) ?_
  clear hf
  induction vs generalizing a with
  | nil => simp [sumOver]
  | cons v vs ih =>
    simp only [sumOver, List.length_cons]
    have h0 : 0 ≤ (L : Rat) ^ vs.length * c := by positivity
    have key : ∀ l : List Outcome, (l.map (fun x => sumOver dom vs (fun _ => c) (Assign.upd a v x))).sum ≤ (l.length : Rat) * ((L : Rat) ^ vs.length * c) := by
      intro l
      induction l with
      | nil => simp
      | cons x l ihl =>
        simp only [List.map_cons, List.sum_cons, List.length_cons]
        have := ih (a := Assign.upd a v x) (fun w hw => hL w (by simp [hw]))
        push_cast
        linarith
    refine le_trans (key _) ?_
    have : ((dom v).length : Rat) ≤ L := by exact_mod_cast hL v (by simp)
    have := mul_le_mul_of_nonneg_right this h0
    rw [pow_succ]
    linarith

theorem sumOver_ge_term {vs : List Node} {f : Assign → Rat} {a : Assign}
    (hf : ∀ b : Assign, (∀ v ∈ vs, b v ∈ dom v) → (∀ v, v ∉ vs → b v = a v) → 0 ≤ f b) {b : Assign} (hb : ∀ v ∈ vs, b v ∈ dom v)
    (hba : ∀ v, v ∉ vs → b v = a v) : f b ≤ sumOver dom vs f a := by
  induction vs generalizing a with
  | nil =>
    have : b = a := funext (fun v => hba v (by simp))
    simp [sumOver, this]
  | cons v vs ih =>
    have hup : ∀ x ∈ dom v, ∀ b : Assign, (∀ w ∈ vs, b w ∈ dom w) → (∀ w, w ∉ vs → b w = (Assign.upd a v x) w) → 0 ≤ f b := by
      intro x hx b h1 h2
      apply hf
      · intro w hw
        by_cases hwv : w ∈ vs
        · exact h1 w hwv
        · have hwe : w = v := by simpa [hwv] using hw
          subst hwe
          rw [h2 w hwv, Assign.upd_same]
          exact hx
      · intro w hw
        simp only [List.mem_cons, not_or] at hw
        rw [h2 w hw.2, Assign.upd_ne _ _ hw.1]
    simp only [sumOver]
    refine le_trans (ih (a := Assign.upd a v (b v)) (hup _ (hb v (by simp))) (fun w hw => hb w (by simp [hw])) (fun w hw => ?_)) ?_
    · by_cases e : w = v
      · subst e; simp
      · rw [Assign.upd_ne _ _ e]; exact hba w (by simp [e, hw])
    · refine List.single_le_sum (fun y hy => ?_) _ (List.mem_map.2 ⟨b v, hb v (by simp), rfl⟩)
      obtain ⟨x, hx, rfl⟩ := List.mem_map.1 hy
      exact sumOver_nonneg (hup x hx)

namespace BN

theorem Prob.k_le_one {B : BN} (hB : B.Prob) {v : Node} (hv : v ∈ B.g.nodes) {a : Assign} (ha : B.InDom a) : B.k v a ≤ 1 := by
  rw [← hB.norm v hv a (fun p hp => ha p (hB.wf.edgeNodes p v hp).1)]
  refine List.single_le_sum (fun y hy => ?_) _ (List.mem_map.2 ⟨a v, ha v hv, by rw [Assign.upd_self]⟩)
  obtain ⟨x, hx, rfl⟩ := List.mem_map.1 hy
  refine hB.k_nonneg hv (fun w hw => ?_)
  by_cases e : w = v
  · subst e; simpa using hx
  · rw [Assign.upd_ne _ _ e]; exact ha w hw

theorem W_ge {B : BN} (hB : B.Prob) {f : Assign → Rat} (hf : ∀ a, B.InDom a → 0 ≤ f a) (hd : DependsOn f (· ∈ B.g.nodes)) {a : Assign}
    (ha : B.InDom a) : B.prod B.g.nodes a * f a ≤ B.W f := by
  let b : Assign := fun v => if v ∈ B.g.nodes then a v else 0
  have hbv : ∀ v ∈ B.g.nodes, b v = a v := fun v hv => by simp [b, hv]
  have hbd : B.InDom b := fun v hv => by rw [hbv v hv]; exact ha v hv
  have hp : B.prod B.g.nodes b = B.prod B.g.nodes a := prod_depends hB.toLocal (fun _ h => h) (fun u v h _ => (hB.wf.edgeNodes u v h).1) b a hbv
  rw [← hp, ← hd b a hbv]
  exact sumOver_ge_term (f := fun a => B.prod B.g.nodes a * f a) (a := fun _ => 0)
    (fun b hb _ => mul_nonneg (prod_nonneg hB (fun v hv => hv) hb) (hf b hb)) hbd (fun v hv => by simp [b, hv])

/-- If every possible assignment with `F` has a counterpart with `G` in which `d` is as likely, and the other factors are not below
`1 / L`, then `F` is not much more likely than `G`. -/
theorem rare {B : BN} (hB : B.Prob) {d : Node} (hdn : d ∈ B.g.nodes) {L : Nat} (hL0 : 0 < L) (hL : ∀ v ∈ B.g.nodes, (B.dom v).length ≤ L)
    (hk : ∀ v ∈ B.g.nodes, v ≠ d → ∀ a, B.Possible a → 1 / (L : Rat) ≤ B.k v a) {F G : Assign → Bool} (hG : DependsOn G (· ∈ B.g.nodes))
    (hFG : ∀ a, B.Possible a → F a = true → ∃ a', B.Possible a' ∧ G a' = true ∧ B.k d a' = B.k d a) :
    B.W (fun a => if F a then 1 else 0) ≤ (L : Rat) ^ (2 * B.g.nodes.length) * B.W (fun a => if G a then 1 else 0) := by
  have hLr : (1 : Rat) ≤ L := by exact_mod_cast hL0
  have hpow : 0 < (L : Rat) ^ B.g.nodes.length := by positivity
  have hWG : 0 ≤ B.W (fun a => if G a then 1 else 0) := W_nonneg hB (fun a _ => by split <;> norm_num)
  have up : ∀ a, B.Possible a → B.prod B.g.nodes a ≤ B.k d a := by
    intro a ha
    have key : ∀ l : List Node, (∀ v ∈ l, v ∈ B.g.nodes) → (d ∈ l → B.prod l a ≤ B.k d a) ∧ B.prod l a ≤ 1 ∧ 0 ≤ B.prod l a := by
      intro l
      induction l with
      | nil => intro _; simp [prod]
      | cons v l ih =>
        intro hl
        obtain ⟨i1, i2, i3⟩ := ih (fun w hw => hl w (by simp [hw]))
        have h1 := hB.k_le_one (hl v (by simp)) ha.1
        have h0 := hB.k_nonneg (hl v (by simp)) ha.1
        have e : B.prod (v :: l) a = B.k v a * B.prod l a := by simp [prod]
        rw [e]
        refine ⟨fun hd => ?_, mul_le_one₀ h1 i3 i2, mul_nonneg h0 i3⟩
        rcases List.mem_cons.1 hd with rfl | hd
        · exact mul_le_of_le_one_right h0 i2
        · exact le_trans (mul_le_of_le_one_left i3 h1) (i1 hd)
    exact (key _ (fun _ h => h)).1 hdn
  have low : ∀ a, B.Possible a → B.k d a ≤ (L : Rat) ^ B.g.nodes.length * B.prod B.g.nodes a := by
    intro a ha
    have hd0 := ha.2 d hdn
    have key : ∀ l : List Node, l.Nodup → (∀ v ∈ l, v ∈ B.g.nodes) →
        (d ∈ l → B.k d a ≤ (L : Rat) ^ l.length * B.prod l a) ∧ (d ∉ l → 1 ≤ (L : Rat) ^ l.length * B.prod l a) := by
      intro l
      induction l with
      | nil => intro _ _; simp [prod]
      | cons v l ih =>
        intro hn hl
        obtain ⟨n1, n2⟩ := List.nodup_cons.1 hn
        obtain ⟨i1, i2⟩ := ih n2 (fun w hw => hl w (by simp [hw]))
        have hvp := ha.2 v (hl v (by simp))
        have e : (L : Rat) ^ (v :: l).length * B.prod (v :: l) a = (L * B.k v a) * ((L : Rat) ^ l.length * B.prod l a) := by
          simp only [prod, List.map_cons, List.prod_cons, List.length_cons, pow_succ]; ring
        rw [e]
        by_cases hvd : v = d
        · subst hvd
          refine ⟨fun _ => ?_, fun h => absurd (List.mem_cons_self ..) h⟩
          have := i2 n1
          have h2 : B.k v a ≤ L * B.k v a := le_mul_of_one_le_left hvp.le hLr
          calc B.k v a ≤ L * B.k v a := h2
            _ ≤ _ := le_mul_of_one_le_right (by positivity) this
        · have h1 : 1 ≤ (L : Rat) * B.k v a := by
            have := hk v (hl v (by simp)) hvd a ha
            have := mul_le_mul_of_nonneg_left this (by linarith : (0 : Rat) ≤ L)
            rwa [mul_one_div_cancel (by linarith)] at this
          refine ⟨fun hd => ?_, fun hd => ?_⟩
          · have := i1 ((List.mem_cons.1 hd).resolve_left (Ne.symm hvd))
            exact le_trans this (le_mul_of_one_le_left (le_trans hd0.le this) h1)
          · have := i2 (fun q => hd (List.mem_cons_of_mem _ q))
            exact le_trans this (le_mul_of_one_le_left (by linarith) h1)
    exact (key _ hB.wf.nodesNodup (fun _ h => h)).1 hdn
  have hterm : ∀ a, B.InDom a → B.prod B.g.nodes a * (if F a then 1 else 0) ≤ (L : Rat) ^ B.g.nodes.length * B.W (fun a => if G a then 1 else 0) := by
    intro a ha
    have h0 : 0 ≤ (L : Rat) ^ B.g.nodes.length * B.W (fun a => if G a then 1 else 0) := mul_nonneg hpow.le hWG
    by_cases hp : B.Possible a
    · cases hF : F a with
      | false => simpa using h0
      | true =>
        obtain ⟨a', p1, p2, p3⟩ := hFG a hp hF
        have h1 := W_ge hB (f := fun a => if G a then 1 else 0) (fun a _ => by split <;> norm_num) (fun x y h => by simp only [hG x y h]) p1.1
        simp only [p2, if_true, mul_one] at h1
        simp only [if_true, mul_one]
        refine le_trans (up a hp) ?_
        rw [← p3]
        exact le_trans (low a' p1) (mul_le_mul_of_nonneg_left h1 hpow.le)
    · rw [prod_zero hB ha hp, zero_mul]; exact h0
  have := sumOver_le_const (dom := B.dom) (vs := B.g.nodes) (f := fun a => B.prod B.g.nodes a * (if F a then 1 else 0)) (a := fun _ => 0)
    (mul_nonneg hpow.le hWG) hL (fun b hb _ => hterm b hb)
  refine le_trans this (le_of_eq ?_)
  rw [two_mul, pow_add]
  ring

end BN
end Verif

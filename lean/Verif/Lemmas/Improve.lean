import Verif.Lemmas.Expect

/-!
# Changing one factor of a network: best responses
-/

namespace Verif

open Graph Relation

namespace BN

/-- replace the factor of one node -/
def withRule (B : BN) (d : Node) (σ : Assign → Rat) : BN := ⟨B.g, B.dom, fun v => if v = d then σ else B.k v⟩

/-- a conditional probability distribution for node `d` -/
structure IsRule (B : BN) (d : Node) (σ : Assign → Rat) : Prop where
  scope : DependsOn σ (fun u => u = d ∨ B.g.Edge u d)
  norm : ∀ a : Assign, (∀ p, B.g.Edge p d → a p ∈ B.dom p) → ((B.dom d).map (fun x => σ (Assign.upd a d x))).sum = 1
  nonneg : ∀ a : Assign, (∀ u, u = d ∨ B.g.Edge u d → a u ∈ B.dom u) → 0 ≤ σ a

theorem withRule_prob {B : BN} (hB : B.Prob) {d : Node} {σ : Assign → Rat} (hσ : B.IsRule d σ) : (B.withRule d σ).Prob := by
  refine ⟨⟨hB.wf, hB.nodup, fun v hv => ?_⟩, fun v hv a ha => ?_, fun v hv a ha => ?_⟩
  · show DependsOn (if v = d then σ else B.k v) _
    split
    · rename_i e; subst e; exact hσ.scope
    · exact hB.scope v hv
  · show ((B.dom v).map (fun x => (if v = d then σ else B.k v) (Assign.upd a v x))).sum = 1
    split
    · rename_i e; subst e; exact hσ.norm a ha
    · exact hB.norm v hv a ha
  · show 0 ≤ (if v = d then σ else B.k v) a
    split
    · rename_i e; subst e; exact hσ.nonneg a ha
    · exact hB.nonneg v hv a ha

theorem isRule_k {B : BN} (hB : B.Prob) {d : Node} (hd : d ∈ B.g.nodes) : B.IsRule d (B.k d) :=
  ⟨hB.scope d hd, hB.norm d hd, hB.nonneg d hd⟩

theorem withRule_self (B : BN) (d : Node) : B.withRule d (B.k d) = B := by
  obtain ⟨g, dom, k⟩ := B
  unfold withRule
  congr 1
  funext v
  split
  · rename_i e; rw [e]
  · rfl

theorem withRule_withRule (B : BN) (d : Node) (σ τ : Assign → Rat) : (B.withRule d σ).withRule d τ = B.withRule d τ := by
  unfold withRule
  congr 1
  funext v
  by_cases e : v = d
  · simp [e]
  · simp [e]

theorem prod_ite {l : List Node} (hn : l.Nodup) {d : Node} (hd : d ∈ l) (s : Rat) (f : Node → Rat) :
    (l.map (fun v => if v = d then s else f v)).prod = s * (l.map (fun v => if v = d then 1 else f v)).prod := by
  induction l with
  | nil => simp at hd
  | cons w l ih =>
    obtain ⟨h1, h2⟩ := List.nodup_cons.1 hn
    simp only [List.map_cons, List.prod_cons]
    by_cases e : w = d
    · subst e
      have : ∀ t : Rat, l.map (fun v => if v = w then t else f v) = l.map f := by
        intro t
        apply List.map_congr_left
        intro v hv
        rw [if_neg (by rintro rfl; exact h1 hv)]
      rw [this, this]
      simp
    · rw [if_neg e, if_neg e, ih h2 ((List.mem_cons.1 hd).resolve_left (Ne.symm e))]
      ring

/-- the factor of a node can be moved into the summand -/
theorem W_withRule {B : BN} (hn : B.g.nodes.Nodup) {d : Node} (hd : d ∈ B.g.nodes) (σ F : Assign → Rat) :
    (B.withRule d σ).W F = (B.withRule d (fun _ => 1)).W (fun a => σ a * F a) := by
  unfold W
  show sumOver B.dom B.g.nodes _ _ = sumOver B.dom B.g.nodes _ _
  congr 1
  funext a
  have h1 : (B.withRule d σ).prod B.g.nodes a = σ a * (B.withRule d (fun _ => 1)).prod B.g.nodes a := by
    have e := prod_ite hn hd (σ a) (fun v => B.k v a)
    unfold prod withRule
    simp only
    refine Eq.trans ?_ (e.trans ?_)
    · congr 1
      apply List.map_congr_left
      intro v _
      split <;> rfl
    · congr 2
      apply List.map_congr_left
      intro v _
      split <;> rfl
  show (B.withRule d σ).prod B.g.nodes a * F a = (B.withRule d (fun _ => 1)).prod B.g.nodes a * (σ a * F a)
  rw [h1]
  ring

/-- nodes that are not affected by `d` -/
noncomputable def nondesc (g : Graph) (d : Node) : List Node := by
  classical
  exact g.nodes.filter (fun v => decide (¬ g.DescEq d v))

theorem mem_nondesc {g : Graph} {d v : Node} : v ∈ nondesc g d ↔ v ∈ g.nodes ∧ ¬ g.DescEq d v := by
  classical
  simp [nondesc]

/-- the rule of a node does not influence non-descendants -/
theorem W_nondesc {B : BN} (hB : B.Prob) {d : Node} {σ τ : Assign → Rat} (hσ : B.IsRule d σ)
    (hτ : B.IsRule d τ) {h : Assign → Rat} (hh : DependsOn h (fun v => v ∈ B.g.nodes ∧ ¬ B.g.DescEq d v)) :
    (B.withRule d σ).W h = (B.withRule d τ).W h := by
  classical
  have hU : (nondesc B.g d).Nodup := by unfold nondesc; exact hB.wf.nodesNodup.filter _
  have hUn : ∀ v ∈ nondesc B.g d, v ∈ B.g.nodes := fun v hv => (mem_nondesc.1 hv).1
  have ha : ∀ u v, B.g.Edge u v → v ∈ nondesc B.g d → u ∈ nondesc B.g d := by
    intro u v huv hv
    exact mem_nondesc.2 ⟨(hB.wf.edgeNodes u v huv).1, fun h => (mem_nondesc.1 hv).2 (h.tail huv)⟩
  have hh' : DependsOn h (· ∈ nondesc B.g d) := hh.mono (fun v hv => mem_nondesc.2 hv)
  rw [W_ancestral (withRule_prob hB hσ) hU hUn ha hh' (fun _ => 0), W_ancestral (withRule_prob hB hτ) hU hUn ha hh' (fun _ => 0)]
  show sumOver B.dom _ _ _ = sumOver B.dom _ _ _
  congr 1
  funext a
  congr 1
  unfold prod withRule
  simp only
  congr 1
  apply List.map_congr_left
  intro v hv
  have : v ≠ d := by
    rintro rfl
    exact (mem_nondesc.1 hv).2 .refl
  rw [if_neg this, if_neg this]

/-- comparing sums context by context -/
theorem W_le_ctx {B B' : BN} (hg : B'.g = B.g) (hd : B'.dom = B.dom) (hnd : ∀ v ∈ B.g.nodes, (B.dom v).Nodup)
    {Z : List Node} (hZ : ∀ v ∈ Z, v ∈ B.g.nodes) (hZn : Z.Nodup) {h : Assign → Rat}
    (hle : ∀ z : Assign, (∀ v ∈ Z, z v ∈ B.dom v) → B.W (at_ Z z h) ≤ B'.W (at_ Z z h)) : B.W h ≤ B'.W h := by
  have e1 := Net.W_product B B.dom (fun _ _ => .refl _) hnd hZ h (fun _ => 1)
  have e2 := Net.W_product B' B.dom (fun v _ => by rw [hd]) (by rw [hg, hd]; exact hnd) (by rw [hg]; exact hZ) h (fun _ => 1)
  simp only [one_mul] at e1 e2
  rw [← e1, ← e2]
  apply List.sum_le_sum
  intro xs hxs
  -- an assignment with these values
  have hz : Z.map (fun v => (Dict.get? (Z.zip xs) v).getD 0) = xs := by
    have hl : Z.length = xs.length := by
      have := (mem_product.1 hxs).length_eq
      simp only [List.length_map] at this
      exact this.symm
    apply List.ext_getElem
    · simpa using hl
    · intro i h1 h2
      simp only [List.getElem_map]
      rw [get?_zip hZn (by simpa using h1) h2]
      rfl
  have hiff : ∀ a : Assign, (Z.map a = xs) ↔ ∀ v ∈ Z, a v = (fun v => (Dict.get? (Z.zip xs) v).getD 0) v := by
    intro a
    conv_lhs => rw [← hz]
    exact List.map_inj_left
  have := hle (fun v => (Dict.get? (Z.zip xs) v).getD 0) (by
    intro v hv
    have hm := mem_product.1 hxs
    rw [← hz, List.forall₂_map_left_iff, List.forall₂_map_right_iff, List.forall₂_same] at hm
    exact hm v hv)
  unfold at_ at this
  simpa only [hiff] using this

/-- the weight of an action in a context, with the rule of `d` left out -/
def act (B : BN) (d : Node) (Z : List Node) (z : Assign) (x : Outcome) (h : Assign → Rat) : Rat :=
  (B.withRule d (fun _ => 1)).W (at_ (d :: Z) (Assign.upd z d x) h)

theorem act_congr {B : BN} {d : Node} {Z : List Node} (hdZ : d ∉ Z) {z z' : Assign} (h : ∀ v ∈ Z, z v = z' v) (x : Outcome)
    (f : Assign → Rat) : B.act d Z z x f = B.act d Z z' x f := by
  unfold act
  congr 1
  funext a
  unfold at_
  have : (∀ v ∈ d :: Z, a v = Assign.upd z d x v) ↔ ∀ v ∈ d :: Z, a v = Assign.upd z' d x v := by
    refine forall₂_congr (fun v hv => ?_)
    rcases List.mem_cons.1 hv with rfl | hv'
    · simp
    · have hvd : v ≠ d := by rintro rfl; exact hdZ hv'
      rw [Assign.upd_ne _ _ hvd, Assign.upd_ne _ _ hvd, h v hv']
  simp only [this]

theorem at_cons {d : Node} {Z : List Node} (hdZ : d ∉ Z) {z : Assign} {x : Outcome} {h : Assign → Rat} {a : Assign} :
    at_ (d :: Z) (Assign.upd z d x) h a = if a d = x then at_ Z z h a else 0 := by
  unfold at_
  have : (∀ v ∈ d :: Z, a v = Assign.upd z d x v) ↔ a d = x ∧ ∀ v ∈ Z, a v = z v := by
    simp only [List.forall_mem_cons, Assign.upd_same]
    refine and_congr Iff.rfl (forall₂_congr (fun v hv => ?_))
    have hvd : v ≠ d := by rintro rfl; exact hdZ hv
    rw [Assign.upd_ne _ _ hvd]
  simp only [this]
  by_cases h1 : a d = x <;> by_cases h2 : ∀ v ∈ Z, a v = z v <;> simp [h1, h2]

set_option linter.unusedSectionVars false
variable {B : BN} (hB : B.Prob) {d : Node} (hd : d ∈ B.g.nodes) {Z : List Node} (hZ : ∀ v, v ∈ Z ↔ B.g.Edge v d)
include hB hd hZ

omit hd in
theorem not_mem_parents : d ∉ Z := fun h => hB.wf.acyclic d (.single ((hZ d).1 h))

/-- a rule on the event "context z and action x" is a constant -/
theorem rule_at {σ : Assign → Rat} (hσ : DependsOn σ (fun u => u = d ∨ B.g.Edge u d)) (z : Assign) (x : Outcome) (h : Assign → Rat) (a : Assign) :
    σ a * at_ (d :: Z) (Assign.upd z d x) h a = σ (Assign.upd z d x) * at_ (d :: Z) (Assign.upd z d x) h a := by
  unfold at_
  split
  · rename_i hc
    rw [hσ a (Assign.upd z d x) (fun u hu => hc u (by
      rcases hu with rfl | hu
      · simp
      · exact List.mem_cons_of_mem _ ((hZ u).2 hu)))]
  · simp

theorem W_fam {σ : Assign → Rat} (hσ : DependsOn σ (fun u => u = d ∨ B.g.Edge u d)) (z : Assign) (x : Outcome) (h : Assign → Rat) :
    (B.withRule d σ).W (at_ (d :: Z) (Assign.upd z d x) h) = σ (Assign.upd z d x) * B.act d Z z x h := by
  rw [W_withRule hB.wf.nodesNodup hd]
  unfold act
  rw [← W_mul_const]
  congr 1
  funext a
  exact rule_at hB hd hZ hσ z x h a

/-- total weight of a context as a mixture over the actions -/
theorem W_ctx {σ : Assign → Rat} (hσ : DependsOn σ (fun u => u = d ∨ B.g.Edge u d)) (z : Assign) (h : Assign → Rat) :
    (B.withRule d σ).W (at_ Z z h) = ((B.dom d).map (fun x => σ (Assign.upd z d x) * B.act d Z z x h)).sum := by
  rw [← List.map_congr_left (fun x _ => W_fam hB hd hZ hσ z x h), ← W_sum]
  apply W_congr
  intro a ha
  have hdZ := not_mem_parents hB hZ
  simp only [at_cons hdZ]
  have := sum_indicator_mul (l := B.dom d) (hB.nodup d hd) (ha d hd) (fun _ => at_ Z z h a)
  simp only [eq_comm (b := a d)] at this
  exact this.symm

omit hZ in
/-- the rule "always x" -/
theorem isRule_ind {x : Outcome} (hx : x ∈ B.dom d) : B.IsRule d (fun a => if a d = x then 1 else 0) := by
  refine ⟨fun a b hab => by simp only [hab d (Or.inl rfl)], fun a _ => ?_, fun a _ => by split <;> norm_num⟩
  simp only [Assign.upd_same]
  exact sum_indicator (hB.nodup d hd) hx

/-- the probability of a context does not depend on the action -/
theorem act_one {x y : Outcome} (hx : x ∈ B.dom d) (hy : y ∈ B.dom d) (z : Assign) :
    B.act d Z z x (fun _ => 1) = B.act d Z z y (fun _ => 1) := by
  have key : ∀ x ∈ B.dom d, (B.withRule d (fun a => if a d = x then 1 else 0)).W (at_ Z z (fun _ => 1)) = B.act d Z z x (fun _ => 1) := by
    intro x hx
    rw [W_ctx hB hd hZ (isRule_ind hB hd hx).scope]
    have := sum_indicator_mul (hB.nodup d hd) hx (fun y => B.act d Z z y (fun _ => 1))
    rw [← this]
    congr 1
    apply List.map_congr_left
    intro y _
    simp
  rw [← key x hx, ← key y hy]
  apply W_nondesc hB (isRule_ind hB hd hx) (isRule_ind hB hd hy)
  intro a b hab
  have : ∀ v ∈ Z, a v = b v := fun v hv => hab v ⟨(hB.wf.edgeNodes v d ((hZ v).1 hv)).1, fun h =>
    hB.wf.acyclic d (TransGen.tail'_iff.2 ⟨v, h, (hZ v).1 hv⟩)⟩
  unfold at_
  have e : (∀ v ∈ Z, a v = z v) ↔ ∀ v ∈ Z, b v = z v := forall₂_congr (fun v hv => by rw [this v hv])
  simp only [e]

theorem act_nonneg {x : Outcome} (hx : x ∈ B.dom d) (z : Assign) {h : Assign → Rat} (hh : ∀ a, 0 ≤ h a) :
    0 ≤ B.act d Z z x h := by
  have e := W_fam hB hd hZ (isRule_ind hB hd hx).scope z x h
  simp only [Assign.upd_same, if_true, one_mul] at e
  rw [← e]
  apply W_nonneg (withRule_prob hB (isRule_ind hB hd hx))
  intro a _
  unfold at_
  split
  · exact hh a
  · exact le_refl _

/-- If in every context a pure rule picks an action of maximal weight, no rule does better. -/
theorem best_response {h : Assign → Rat} (hZn : Z.Nodup) {φ : Assign → Outcome} (hφ : DependsOn φ (· ∈ Z))
    (hφd : ∀ z : Assign, (∀ v ∈ Z, z v ∈ B.dom v) → φ z ∈ B.dom d)
    (hmax : ∀ z : Assign, (∀ v ∈ Z, z v ∈ B.dom v) → ∀ x ∈ B.dom d, B.act d Z z x h ≤ B.act d Z z (φ z) h)
    {σ : Assign → Rat} (hσ : B.IsRule d σ) :
    (B.withRule d σ).W h ≤ (B.withRule d (fun a => if a d = φ a then 1 else 0)).W h := by
  have hdZ := not_mem_parents hB hZ
  have hφs : DependsOn (fun a : Assign => if a d = φ a then (1 : Rat) else 0) (fun u => u = d ∨ B.g.Edge u d) := by
    intro a b hab
    simp only [hab d (Or.inl rfl), hφ a b (fun v hv => hab v (Or.inr ((hZ v).1 hv)))]
  have hle : ∀ z : Assign, (∀ v ∈ Z, z v ∈ B.dom v) → (B.withRule d σ).W (at_ Z z h) ≤
      (B.withRule d (fun a => if a d = φ a then 1 else 0)).W (at_ Z z h) := by
    intro z hz
    rw [W_ctx hB hd hZ hσ.scope, W_ctx hB hd hZ hφs]
    have hφu : ∀ x, φ (Assign.upd z d x) = φ z := fun x => hφ _ _ (fun v hv => Assign.upd_ne _ _ (by rintro rfl; exact hdZ hv))
    have e := sum_indicator_mul (hB.nodup d hd) (hφd z hz) (fun x => B.act d Z z x h)
    have e2 : ((B.dom d).map (fun x => (if Assign.upd z d x d = φ (Assign.upd z d x) then (1 : Rat) else 0) * B.act d Z z x h)).sum =
        B.act d Z z (φ z) h := by
      rw [← e]
      congr 1
      apply List.map_congr_left
      intro x _
      rw [hφu, Assign.upd_same]
      split <;> simp
    rw [e2]
    have hz' : ∀ p, B.g.Edge p d → z p ∈ B.dom p := fun p hp => hz p ((hZ p).2 hp)
    calc ((B.dom d).map (fun x => σ (Assign.upd z d x) * B.act d Z z x h)).sum
        ≤ ((B.dom d).map (fun x => σ (Assign.upd z d x) * B.act d Z z (φ z) h)).sum := by
          apply List.sum_le_sum
          intro x hx
          apply mul_le_mul_of_nonneg_left (hmax z hz x hx)
          apply hσ.nonneg
          rintro u (rfl | hu)
          · simpa using hx
          · have : u ≠ d := fun e => hdZ (e ▸ (hZ u).2 hu)
            rw [Assign.upd_ne _ _ this]
            exact hz' u hu
      _ = B.act d Z z (φ z) h := by
          rw [List.sum_map_mul_right, hσ.norm z hz', one_mul]
  exact W_le_ctx (B := B.withRule d σ) (B' := B.withRule d (fun a => if a d = φ a then 1 else 0)) rfl rfl hB.nodup (Z := Z)
    (fun v hv => (hB.wf.edgeNodes v d ((hZ v).1 hv)).1) hZn hle

end BN
end Verif

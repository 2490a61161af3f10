import Verif.Lemmas.Parameterise
import Verif.Lemmas.Optimal

/-!
# Possible assignments

Zero and non-zero probabilities, and networks given by what is possible.
-/

namespace Verif

open Graph Relation Macid

namespace BN

/-- every factor is positive -/
def Possible (B : BN) (a : Assign) : Prop := B.InDom a ∧ ∀ v ∈ B.g.nodes, 0 < B.k v a

theorem prod_pos {B : BN} {U : List Node} {a : Assign} (h : ∀ v ∈ U, 0 < B.k v a) : 0 < B.prod U a := by
  unfold prod
  induction U with
  | nil => simp
  | cons v U ih =>
    simp only [List.map_cons, List.prod_cons]
    exact mul_pos (h v (by simp)) (ih (fun w hw => h w (by simp [hw])))

theorem Prob.k_nonneg {B : BN} (hB : B.Prob) {v : Node} (hv : v ∈ B.g.nodes) {a : Assign} (ha : B.InDom a) : 0 ≤ B.k v a := by
  refine hB.nonneg v hv a ?_
  rintro u (rfl | h)
  · exact ha _ hv
  · exact ha u (hB.wf.edgeNodes u v h).1

theorem prod_zero {B : BN} (hB : B.Prob) {a : Assign} (ha : B.InDom a) (h : ¬ B.Possible a) : B.prod B.g.nodes a = 0 := by
  have : ∃ v ∈ B.g.nodes, B.k v a = 0 := by
    by_contra hc
    push Not at hc
    exact h ⟨ha, fun v hv => lt_of_le_of_ne (hB.k_nonneg hv ha) (Ne.symm (hc v hv))⟩
  obtain ⟨v, hv, h0⟩ := this
  exact Net.prod_zero_of_mem hv h0

theorem W_possible {B : BN} (hB : B.Prob) {f h : Assign → Rat} (hf : ∀ a, B.Possible a → f a = h a) : B.W f = B.W h := by
  unfold W
  apply sumOver_congr
  intro b hb _
  by_cases hp : B.Possible b
  · rw [hf b hp]
  · rw [prod_zero hB hb hp, zero_mul, zero_mul]

theorem W_le_possible {B : BN} (hB : B.Prob) {f h : Assign → Rat} (hf : ∀ a, B.Possible a → f a ≤ h a) : B.W f ≤ B.W h := by
  classical
  have e : B.W h = B.W (fun a => if B.Possible a then h a else f a) := W_possible hB (fun a ha => by simp [ha])
  rw [e]
  refine W_le hB (fun a _ => ?_)
  split
  · rename_i hp; exact hf a hp
  · exact le_refl _

theorem W_impossible {B : BN} (hB : B.Prob) {f : Assign → Rat} (hf : ∀ a, B.Possible a → f a = 0) : B.W f = 0 := by
  rw [W_possible hB (h := fun _ => 0 * 1) (by simpa using hf), W_mul_const, zero_mul]

theorem exists_possible {B : BN} (hB : B.Prob) : ∃ a, B.Possible a := by
  by_contra hc
  push Not at hc
  have h1 := W_one hB
  rw [W_impossible hB (fun a ha => absurd ha (hc a))] at h1
  norm_num at h1

theorem W_const {B : BN} (hB : B.Prob) (c : Rat) : B.W (fun _ => c) = c := by
  have := W_mul_const B c (fun _ => 1)
  rw [W_one hB] at this
  simpa using this

theorem W_pos {B : BN} (hB : B.Prob) {f : Assign → Rat} (hf : ∀ a, B.Possible a → 0 ≤ f a) (hd : DependsOn f (· ∈ B.g.nodes))
    {a : Assign} (ha : B.Possible a) (h : 0 < f a) : 0 < B.W f := by
  classical
  let f' : Assign → Rat := fun a => if B.Possible a then f a else 0
  have e : B.W f = B.W f' := W_possible hB (fun a ha => by simp [f', ha])
  have hn : ∀ a, B.InDom a → 0 ≤ f' a := by
    intro a _
    simp only [f']
    split
    · rename_i hp; exact hf a hp
    · exact le_refl _
  rw [e]
  refine lt_of_le_of_ne (W_nonneg hB hn) (fun h0 => ?_)
  let b : Assign := fun v => if v ∈ B.g.nodes then a v else 0
  have hbv : ∀ v ∈ B.g.nodes, b v = a v := fun v hv => by simp [b, hv]
  have hbd : B.InDom b := fun v hv => by rw [hbv v hv]; exact ha.1 v hv
  have hk : ∀ v ∈ B.g.nodes, B.k v b = B.k v a := fun v hv => hB.scope v hv b a (fun u hu => by
    rcases hu with rfl | hu
    · exact hbv _ hv
    · exact hbv u (hB.wf.edgeNodes u v hu).1)
  have hbp : B.Possible b := ⟨hbd, fun v hv => by rw [hk v hv]; exact ha.2 v hv⟩
  have := sumOver_eq_zero (dom := B.dom) (vs := B.g.nodes) (f := fun a => B.prod B.g.nodes a * f' a) (a := fun _ => 0)
    (fun b hb _ => mul_nonneg (prod_nonneg hB (fun v hv => hv) hb) (hn b hb)) h0.symm b hbd (fun v hv => by simp [b, hv])
  rcases mul_eq_zero.1 this with q | q
  · exact absurd q (ne_of_gt (prod_pos hbp.2))
  · simp only [f', hbp, if_true] at q
    rw [hd b a hbv] at q
    exact absurd q (ne_of_gt h)

theorem W_lt {B : BN} (hB : B.Prob) {f : Assign → Rat} {c : Rat} (hf : ∀ a, B.Possible a → f a ≤ c) (hd : DependsOn f (· ∈ B.g.nodes))
    {a : Assign} (ha : B.Possible a) (h : f a < c) : B.W f < c := by
  have := W_pos hB (f := fun a => c + (-1) * f a) (fun a ha => by have := hf a ha; linarith)
    (fun x y hxy => by simp only [hd x y hxy]) ha (by linarith)
  rw [W_add, W_mul_const, W_const hB] at this
  linarith

end BN

open Classical in
/-- the uniform distribution over what `R` allows -/
noncomputable def spread (dom : Node → List Outcome) (R : Node → Assign → Prop) (v : Node) (a : Assign) : Rat :=
  if R v a ∧ a v ∈ dom v then 1 / (((dom v).filter (fun x => decide (R v (Assign.upd a v x)))).length : Rat) else 0

/-- `R v` looks at `v` and its parents and always allows something -/
structure Allows (g : Graph) (dom : Node → List Outcome) (R : Node → Assign → Prop) : Prop where
  scope : ∀ v ∈ g.nodes, ∀ a b : Assign, (∀ u, u = v ∨ g.Edge u v → a u = b u) → R v a → R v b
  some : ∀ v ∈ g.nodes, ∀ a, ∃ x ∈ dom v, R v (Assign.upd a v x)

namespace Allows

variable {g : Graph} {dom : Node → List Outcome} {R : Node → Assign → Prop}

theorem pos (_ : Allows g dom R) {v : Node} (_ : v ∈ g.nodes) {a : Assign} (ha : a v ∈ dom v) : 0 < spread dom R v a ↔ R v a := by
  classical
  unfold spread
  constructor
  · intro q
    by_contra hc
    rw [if_neg (fun k => hc k.1)] at q
    exact lt_irrefl _ q
  · intro q
    rw [if_pos ⟨q, ha⟩]
    have : 0 < ((dom v).filter (fun x => decide (R v (Assign.upd a v x)))).length := by
      rw [List.length_pos_iff_exists_mem]
      exact ⟨a v, by rw [List.mem_filter]; exact ⟨ha, by rw [Assign.upd_self]; simpa using q⟩⟩
    positivity

theorem rule (h : Allows g dom R) {v : Node} (hv : v ∈ g.nodes) (k : Node → Assign → Rat) :
    BN.IsRule ⟨g, dom, k⟩ v (spread dom R v) := by
  classical
  have hR : ∀ a b : Assign, (∀ u, u = v ∨ g.Edge u v → a u = b u) → (R v a ↔ R v b) := fun a b hab =>
    ⟨h.scope v hv a b hab, h.scope v hv b a (fun u hu => (hab u hu).symm)⟩
  have hupd : ∀ a b : Assign, (∀ u, u = v ∨ g.Edge u v → a u = b u) → ∀ x u, u = v ∨ g.Edge u v → Assign.upd a v x u = Assign.upd b v x u := by
    intro a b hab x u hu
    by_cases e : u = v
    · subst e; simp
    · rw [Assign.upd_ne _ _ e, Assign.upd_ne _ _ e]; exact hab u hu
  refine ⟨fun a b hab => ?_, fun a _ => ?_, fun a _ => ?_⟩
  · unfold spread
    have e1 : (R v a ∧ a v ∈ dom v) ↔ (R v b ∧ b v ∈ dom v) := by rw [hR a b hab, hab v (Or.inl rfl)]
    have e2 : (dom v).filter (fun x => decide (R v (Assign.upd a v x))) = (dom v).filter (fun x => decide (R v (Assign.upd b v x))) := by
      apply List.filter_congr
      intro x _
      simp only [hR _ _ (hupd a b hab x)]
    simp only [e1, e2]
  · show ((dom v).map (fun x => spread dom R v (Assign.upd a v x))).sum = 1
    set l := (dom v).filter (fun x => decide (R v (Assign.upd a v x))) with hl
    have hne : (l.length : Rat) ≠ 0 := by
      obtain ⟨x, hx1, hx2⟩ := h.some v hv a
      have : x ∈ l := by rw [hl, List.mem_filter]; exact ⟨hx1, by simpa using hx2⟩
      have := List.length_pos_of_mem this
      positivity
    have e : ∀ x ∈ dom v, spread dom R v (Assign.upd a v x) = if R v (Assign.upd a v x) then 1 / (l.length : Rat) else 0 := by
      intro x hx
      unfold spread
      have e2 : (dom v).filter (fun y => decide (R v (Assign.upd (Assign.upd a v x) v y))) = l := by
        rw [hl]
        apply List.filter_congr
        intro y _
        have : Assign.upd (Assign.upd a v x) v y = Assign.upd a v y := by
          funext u
          simp only [Assign.upd]
          split <;> rfl
        rw [this]
      rw [e2]
      simp only [Assign.upd_same, hx, and_true]
    rw [List.map_congr_left e]
    have : ∀ (m : List Outcome) (c : Rat), (m.map (fun x => if R v (Assign.upd a v x) then c else 0)).sum =
        ((m.filter (fun x => decide (R v (Assign.upd a v x)))).length : Rat) * c := by
      intro m c
      induction m with
      | nil => simp
      | cons x m ih =>
        simp only [List.map_cons, List.sum_cons, ih, List.filter_cons]
        by_cases hx : R v (Assign.upd a v x) <;> simp [hx]
        ring
    rw [this, ← hl]
    field_simp
  · unfold spread
    split
    · positivity
    · exact le_refl _

end Allows

namespace Net

/-- A network in which exactly the assignments are possible that `R` allows; the nodes in `free` get their domains only. -/
theorem allowing {net : Net} (hf : net.Fresh) (hw : net.g.WF) {dom : Node → List Outcome} {R : Node → Assign → Prop} {free : Node → Prop}
    (hs : ∀ v, (dom v).Pairwise (· < ·)) (hne : ∀ v, dom v ≠ []) (hR : Allows net.g dom R) :
    ∃ rels net', net.addCpds rels = (net', .ok ()) ∧ net'.m = net.m ∧ net'.base = net.base ∧ net'.Good ∧ net'.Normalised ∧
      (∀ v ∈ net.g.nodes, net'.dom v = dom v) ∧ (∀ v ∈ net.g.nodes, (net'.undecided v = true ↔ free v)) ∧
      (∀ v ∈ net.g.nodes, ¬ free v → ∀ a, net'.InDom a → (0 < net'.kernel v a ↔ R v a)) ∧
      (net.m.Consistent → net.base = Macid.new ∨ net.base = Macid.newCid → net.Staffed → net'.Usable) := by
  obtain ⟨rels, net', h1, h2, h3, h4, h5, h6, h7, h8, h9⟩ := parameterise hf hw (dom := dom) (σ := spread dom R) (free := free) hs hne
    (fun v hv => hR.rule hv _)
  refine ⟨rels, net', h1, h2, h3, h4, h5, h6, h7, fun v hv hnf a ha => ?_, h9⟩
  rw [h8 v hv hnf a ha, hR.pos hv]
  rw [← h6 v hv]
  exact ha v (by show v ∈ net'.m.g.nodes; rw [h2]; exact hv)

end Net
end Verif

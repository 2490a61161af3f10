import Verif.Lemmas.Sum
import Verif.Lemmas.Net
import Verif.Lemmas.Ball

/-!
# Factorised distributions over a directed acyclic graph
-/

namespace Verif
open Relation

/-- a graph, the outcomes of each node and one factor per node -/
structure BN where
  g : Graph
  dom : Node → List Outcome
  k : Node → Assign → Rat

namespace BN

/-- factors look at a node and its parents only -/
structure Local (B : BN) : Prop where
  wf : B.g.WF
  nodup : ∀ v ∈ B.g.nodes, (B.dom v).Nodup
  scope : ∀ v ∈ B.g.nodes, DependsOn (B.k v) (fun u => u = v ∨ B.g.Edge u v)

/-- factors are conditional probabilities -/
structure Prob (B : BN) : Prop extends Local B where
  norm : ∀ v ∈ B.g.nodes, ∀ a : Assign, (∀ p, B.g.Edge p v → a p ∈ B.dom p) →
    ((B.dom v).map (fun x => B.k v (Assign.upd a v x))).sum = 1
  nonneg : ∀ v ∈ B.g.nodes, ∀ a : Assign, (∀ u, u = v ∨ B.g.Edge u v → a u ∈ B.dom u) → 0 ≤ B.k v a

/-- product of the factors of listed nodes -/
def prod (B : BN) (U : List Node) (a : Assign) : Rat := (U.map (fun v => B.k v a)).prod

/-- the weighted sum of `f` over all assignments -/
def W (B : BN) (f : Assign → Rat) : Rat := sumOver B.dom B.g.nodes (fun a => B.prod B.g.nodes a * f a) (fun _ => 0)

/-- closed under parents -/
def Ancestral (B : BN) (U : Node → Prop) : Prop := ∀ u v, B.g.Edge u v → U v → U u

theorem prod_depends {B : BN} (hB : B.Local) {U : List Node} (hU : ∀ v ∈ U, v ∈ B.g.nodes)
    (ha : B.Ancestral (· ∈ U)) : DependsOn (B.prod U) (· ∈ U) := by
  apply dependsOn_prod
  intro v hv
  refine (hB.scope v (hU v hv)).mono ?_
  rintro u (rfl | h)
  · exact hv
  · exact ha u v h hv

theorem prod_perm (B : BN) {U V : List Node} (h : U.Perm V) (a : Assign) : B.prod U a = B.prod V a :=
  (h.map _).prod_eq

theorem prod_append (B : BN) (U V : List Node) (a : Assign) : B.prod (U ++ V) a = B.prod U a * B.prod V a := by
  simp [prod]

/-- the nodes outside an ancestral set, listed with parents first -/
theorem exists_extension {B : BN} (hB : B.Local) {U : List Node} (hn : U.Nodup) (hU : ∀ v ∈ U, v ∈ B.g.nodes) :
    ∃ E : List Node, (U ++ E).Perm B.g.nodes ∧
      ∀ l v r, E = l ++ v :: r → ∀ p, B.g.Edge p v → p ∈ U ++ l := by
  obtain ⟨rank, hr, _⟩ := exists_rank hB.wf
  let E := (B.g.nodes.filter (fun v => decide (v ∉ U))).insertionSort (fun a b => rank b ≤ rank a)
  have hEm : ∀ v, v ∈ E ↔ v ∈ B.g.nodes ∧ v ∉ U := fun v => by
    simp [E, List.mem_insertionSort]
  have hEn : E.Nodup := (List.perm_insertionSort _ _).nodup_iff.2 (hB.wf.nodesNodup.filter _)
  have hEs : E.Pairwise (fun a b => rank b ≤ rank a) := by
    have : Std.Total (fun a b => rank b ≤ rank a) := ⟨fun a b => le_total _ _⟩
    have : IsTrans Node (fun a b => rank b ≤ rank a) := ⟨fun a b c h1 h2 => le_trans h2 h1⟩
    exact List.pairwise_insertionSort _ _
  refine ⟨E, (List.perm_ext_iff_of_nodup ?_ hB.wf.nodesNodup).2 (fun v => ?_), ?_⟩
  · rw [List.nodup_append]
    refine ⟨hn, hEn, ?_⟩
    rintro a h1 b h2 rfl
    exact ((hEm a).1 h2).2 h1
  · rw [List.mem_append, hEm]
    by_cases h : v ∈ U
    · simp [h, hU v h]
    · simp [h]
  · intro l v r hE p hp
    have hpn := (hB.wf.edgeNodes p v hp).1
    by_cases hpU : p ∈ U
    · simp [hpU]
    · have hpE : p ∈ E := (hEm p).2 ⟨hpn, hpU⟩
      have hlt := hr p v hp
      rw [hE] at hpE hEs
      rcases List.mem_append.1 hpE with h | h
      · simp [h]
      · exfalso
        rw [List.pairwise_append] at hEs
        have h2 := hEs.2.1
        rw [List.pairwise_cons] at h2
        rcases List.mem_cons.1 h with rfl | h
        · omega
        · have := h2.1 p h
          omega

/-- Summing out a node none of the remaining factors looks at. -/
theorem sum_barren {B : BN} (hB : B.Prob) {vs : List Node} {v : Node} (hv : v ∈ B.g.nodes)
    (hp : ∀ p, B.g.Edge p v → p ∈ vs) {F : Assign → Rat} {S : Node → Prop} (hF : DependsOn F S) (hS : ¬ S v)
    (a : Assign) :
    sumOver B.dom (vs ++ [v]) (fun b => F b * B.k v b) a = sumOver B.dom vs F a := by
  rw [sumOver_append]
  apply sumOver_congr
  intro b hb _
  rw [sumOver_mul_left hF (by simpa using hS)]
  simp only [sumOver]
  rw [hB.norm v hv b (fun p h => hb p (hp p h)), mul_one]

/-- Marginalisation: only the factors of an ancestral set matter for what happens inside it. -/
theorem sum_ancestral {B : BN} (hB : B.Prob) {U : List Node} (hn : U.Nodup) (hU : ∀ v ∈ U, v ∈ B.g.nodes)
    (ha : B.Ancestral (· ∈ U)) {f : Assign → Rat} (hf : DependsOn f (· ∈ U)) (a : Assign) :
    sumOver B.dom B.g.nodes (fun b => B.prod B.g.nodes b * f b) a =
      sumOver B.dom U (fun b => B.prod U b * f b) a := by
  obtain ⟨E, hE, hpar⟩ := exists_extension hB.toLocal hn hU
  have hEn : (U ++ E).Nodup := hE.nodup_iff.2 hB.wf.nodesNodup
  have hEm : ∀ v ∈ U ++ E, v ∈ B.g.nodes := fun v hv => hE.mem_iff.1 hv
  rw [← sumOver_perm hE]
  have : (fun b => B.prod B.g.nodes b * f b) = fun b => B.prod (U ++ E) b * f b := by
    funext b; rw [B.prod_perm hE]
  rw [this]
  clear this hE
  induction E using List.reverseRecOn with
  | nil => simp
  | append_singleton E v ih =>
    rw [← List.append_assoc] at hEn hEm
    have hvn : v ∉ U ++ E := by
      intro h
      rw [List.nodup_append] at hEn
      exact hEn.2.2 v h v (by simp) rfl
    have hanc : B.Ancestral (· ∈ U ++ E) := by
      intro p w hpw hw
      rcases List.mem_append.1 hw with h | h
      · exact List.mem_append_left _ (ha p w hpw h)
      · obtain ⟨l, r, e⟩ := List.append_of_mem h
        have := hpar l w (r ++ [v]) (by rw [e]; simp) p hpw
        rw [e]
        rcases List.mem_append.1 this with h | h
        · simp [h]
        · simp [h]
    rw [← List.append_assoc]
    have hF : DependsOn (fun b => B.prod (U ++ E) b * f b) (· ∈ U ++ E) :=
      (prod_depends hB.toLocal (fun w hw => hEm w (List.mem_append_left _ hw)) hanc).mul
        (hf.mono (fun w hw => List.mem_append_left _ hw))
    have : (fun b => B.prod (U ++ E ++ [v]) b * f b) = fun b => (B.prod (U ++ E) b * f b) * B.k v b := by
      funext b
      rw [prod_append]
      simp only [prod, List.map_cons, List.map_nil, List.prod_cons, List.prod_nil]
      ring
    rw [this, sum_barren hB (hEm v (by simp)) (hpar E v [] rfl) hF hvn]
    refine ih (fun l w r e p hp => hpar l w (r ++ [v]) (by rw [e]; simp) p hp) ?_ ?_
    · rw [List.nodup_append] at hEn; exact hEn.1
    · exact fun w hw => hEm w (List.mem_append_left _ hw)

theorem W_ancestral {B : BN} (hB : B.Prob) {U : List Node} (hn : U.Nodup) (hU : ∀ v ∈ U, v ∈ B.g.nodes)
    (ha : B.Ancestral (· ∈ U)) {f : Assign → Rat} (hf : DependsOn f (· ∈ U)) (a : Assign) :
    B.W f = sumOver B.dom U (fun b => B.prod U b * f b) a := by
  unfold W
  rw [sum_ancestral hB hn hU ha hf]
  apply sumOver_depends ((prod_depends hB.toLocal hU ha).mul hf)
  rintro v ⟨h1, h2⟩
  exact absurd h1 h2

theorem W_one {B : BN} (hB : B.Prob) : B.W (fun _ => 1) = 1 := by
  rw [W_ancestral hB (U := []) (by simp) (by simp) (fun _ _ _ h => by simp at h) (dependsOn_const _ _) (fun _ => 0)]
  simp [sumOver, prod]

theorem W_add (B : BN) (f h : Assign → Rat) : B.W (fun a => f a + h a) = B.W f + B.W h := by
  unfold W
  rw [← sumOver_add]
  congr 1
  funext a
  ring

theorem W_mul_const (B : BN) (c : Rat) (f : Assign → Rat) : B.W (fun a => c * f a) = c * B.W f := by
  unfold W
  rw [← sumOver_mul_const]
  congr 1
  funext a
  ring

theorem W_sum {α : Type} (B : BN) (l : List α) (f : α → Assign → Rat) :
    B.W (fun a => (l.map (fun i => f i a)).sum) = (l.map (fun i => B.W (f i))).sum := by
  unfold W
  rw [← sumOver_sum]
  congr 1
  funext a
  rw [← List.sum_map_mul_left]

/-- `a` takes outcomes only -/
def InDom (B : BN) (a : Assign) : Prop := ∀ v ∈ B.g.nodes, a v ∈ B.dom v

theorem W_congr {B : BN} {f h : Assign → Rat} (hf : ∀ a, B.InDom a → f a = h a) : B.W f = B.W h := by
  unfold W
  apply sumOver_congr
  intro b hb _
  rw [hf b hb]

theorem prod_nonneg {B : BN} (hB : B.Prob) {U : List Node} (hU : ∀ v ∈ U, v ∈ B.g.nodes) {a : Assign} (ha : B.InDom a) :
    0 ≤ B.prod U a := by
  unfold prod
  induction U with
  | nil => simp
  | cons v U ih =>
    simp only [List.map_cons, List.prod_cons]
    refine mul_nonneg (hB.nonneg v (hU v (by simp)) a ?_) (ih (fun w hw => hU w (by simp [hw])))
    rintro u (rfl | h)
    · exact ha _ (hU _ (by simp))
    · exact ha u (hB.wf.edgeNodes u v h).1

theorem W_nonneg {B : BN} (hB : B.Prob) {f : Assign → Rat} (hf : ∀ a, B.InDom a → 0 ≤ f a) : 0 ≤ B.W f := by
  unfold W
  apply sumOver_nonneg
  intro b hb _
  exact mul_nonneg (prod_nonneg hB (fun v hv => hv) hb) (hf b hb)

theorem W_le {B : BN} (hB : B.Prob) {f h : Assign → Rat} (hf : ∀ a, B.InDom a → f a ≤ h a) : B.W f ≤ B.W h := by
  have := W_nonneg hB (f := fun a => h a + (-1) * f a) (fun a ha => by have := hf a ha; linarith)
  rw [W_add, W_mul_const] at this
  linarith

/-- events of probability zero carry no weight -/
theorem W_zero {B : BN} (hB : B.Prob) {f h : Assign → Rat} (hf : ∀ a, B.InDom a → 0 ≤ f a)
    (h0 : B.W f = 0) (hz : ∀ a, B.InDom a → f a = 0 → h a = 0) : B.W h = 0 := by
  unfold W at h0 ⊢
  have := sumOver_eq_zero (fun b hb _ => mul_nonneg (prod_nonneg hB (fun v hv => hv) hb) (hf b hb)) h0
  refine (sumOver_congr (h := fun _ => 0) ?_).trans (sumOver_zero _ _)
  intro b hb hb2
  rcases mul_eq_zero.1 (this b hb hb2) with h | h
  · rw [h, zero_mul]
  · rw [hz b hb h, mul_zero]

/-! ### separation -/

/-- **Factorisation.**  `A` is an ancestral set, `Z` are fixed variables, and `R` splits the others so
that no factor looks at both sides.  The weight of "Z is as in `z`" times `f · h`, with `f` looking at
one side and `h` at the other, is a product of a sum over one side and a sum over the other. -/
theorem split {B : BN} (hB : B.Prob) {A : List Node} (hn : A.Nodup) (hA : ∀ v ∈ A, v ∈ B.g.nodes)
    (ha : B.Ancestral (· ∈ A)) {Z R : Node → Prop} [DecidablePred Z] [DecidablePred R]
    (hfam : ∀ v ∈ A, (∀ u, (u = v ∨ B.g.Edge u v) → ¬ Z u → R u) ∨ (∀ u, (u = v ∨ B.g.Edge u v) → ¬ Z u → ¬ R u))
    {z : Assign} (hz : ∀ v ∈ A, Z v → z v ∈ B.dom v)
    {f h : Assign → Rat} (hf : DependsOn f (fun v => v ∈ A ∧ (Z v ∨ R v)))
    (hh : DependsOn h (fun v => v ∈ A ∧ (Z v ∨ ¬ R v))) :
    B.W (fun a => if ∀ v ∈ A, Z v → a v = z v then f a * h a else 0) =
      sumOver B.dom (A.filter (fun v => decide (¬ Z v ∧ R v)))
        (fun a => B.prod (A.filter (fun v => decide (∀ u ∈ v :: B.g.parents v, ¬ Z u → R u))) a * f a) z *
      sumOver B.dom (A.filter (fun v => decide (¬ Z v ∧ ¬ R v)))
        (fun a => B.prod (A.filter (fun v => decide (¬ ∀ u ∈ v :: B.g.parents v, ¬ Z u → R u))) a * h a) z := by
  have hQdep : DependsOn (fun a : Assign => if ∀ v ∈ A, Z v → a v = z v then f a * h a else 0) (· ∈ A) := by
    intro a b hab
    have e1 : (∀ v ∈ A, Z v → a v = z v) ↔ (∀ v ∈ A, Z v → b v = z v) :=
      forall₂_congr (fun v hv => by rw [hab v hv])
    have e2 : f a = f b := hf a b (fun v hv => hab v hv.1)
    have e3 : h a = h b := hh a b (fun v hv => hab v hv.1)
    simp only [e1, e2, e3]
  rw [W_ancestral hB hn hA ha hQdep z]
  let us := A.filter (fun v => decide (¬ Z v ∧ R v))
  let vs := A.filter (fun v => decide (¬ Z v ∧ ¬ R v))
  let zs := A.filter (fun v => decide (Z v))
  let φ := B.prod (A.filter (fun v => decide (∀ u ∈ v :: B.g.parents v, ¬ Z u → R u)))
  let ψ := B.prod (A.filter (fun v => decide (¬ ∀ u ∈ v :: B.g.parents v, ¬ Z u → R u)))
  have hperm : (zs ++ (us ++ vs)).Perm A := by
    refine (List.perm_ext_iff_of_nodup ?_ hn).2 (fun v => ?_)
    · rw [List.nodup_append, List.nodup_append]
      refine ⟨hn.filter _, ⟨hn.filter _, hn.filter _, ?_⟩, ?_⟩
      · rintro a h1 b h2 rfl
        simp only [us, vs, List.mem_filter, decide_eq_true_eq] at h1 h2
        exact h2.2.2 h1.2.2
      · rintro a h1 b h2 rfl
        simp only [us, vs, zs, List.mem_append, List.mem_filter, decide_eq_true_eq] at h1 h2
        rcases h2 with h2 | h2
        · exact h2.2.1 h1.2
        · exact h2.2.1 h1.2
    · simp only [us, vs, zs, List.mem_append, List.mem_filter, decide_eq_true_eq]
      tauto
  have hprod : ∀ a, B.prod A a = φ a * ψ a := by
    intro a
    simp only [φ, ψ, ← prod_append]
    apply prod_perm
    have := List.filter_append_perm (fun v => decide (∀ u ∈ v :: B.g.parents v, ¬ Z u → R u)) A
    refine this.symm.trans ?_
    apply List.Perm.append_left
    rw [show (fun v => decide (¬ ∀ u ∈ v :: B.g.parents v, ¬ Z u → R u)) =
      (fun x => !decide (∀ u ∈ x :: B.g.parents x, ¬ Z u → R u)) from by funext v; rw [decide_not]]
  have hfamA : ∀ v ∈ A, ∀ u, (u = v ∨ B.g.Edge u v) → u ∈ A := by
    rintro v hv u (rfl | h)
    · exact hv
    · exact ha u v h hv
  have hφ : DependsOn φ (fun v => v ∈ A ∧ (Z v ∨ R v)) := by
    apply dependsOn_prod
    intro v hv
    simp only [List.mem_filter, decide_eq_true_eq] at hv
    refine (hB.scope v (hA v hv.1)).mono (fun u hu => ⟨hfamA v hv.1 u hu, ?_⟩)
    by_cases hzu : Z u
    · exact Or.inl hzu
    · exact Or.inr (hv.2 u (by simpa [Graph.mem_parents] using hu) hzu)
  have hψ : DependsOn ψ (fun v => v ∈ A ∧ (Z v ∨ ¬ R v)) := by
    apply dependsOn_prod
    intro v hv
    simp only [List.mem_filter, decide_eq_true_eq] at hv
    refine (hB.scope v (hA v hv.1)).mono (fun u hu => ⟨hfamA v hv.1 u hu, ?_⟩)
    by_cases hzu : Z u
    · exact Or.inl hzu
    · right
      rcases hfam v hv.1 with h | h
      · exact absurd (fun u hu hz' => h u (by simpa [Graph.mem_parents] using hu) hz') hv.2
      · exact h u hu hzu
  rw [← sumOver_perm hperm, sumOver_append]
  have hin : ∀ b : Assign, sumOver B.dom (us ++ vs)
      (fun b => B.prod A b * (if ∀ v ∈ A, Z v → b v = z v then f b * h b else 0)) b =
      if ∀ v ∈ A, Z v → b v = z v then
        sumOver B.dom us (fun a => φ a * f a) b * sumOver B.dom vs (fun a => ψ a * h a) b else 0 := by
    intro b
    have hcond : ∀ b' : Assign, (∀ v, v ∉ us ++ vs → b' v = b v) →
        ((∀ v ∈ A, Z v → b' v = z v) ↔ (∀ v ∈ A, Z v → b v = z v)) := by
      intro b' hb'
      refine forall₂_congr (fun v hv => forall_congr' (fun hzv => ?_))
      rw [hb' v (by simp [us, vs, hzv])]
    split
    · rename_i hc
      rw [← sumOver_mul (hφ.mul hf) (hψ.mul hh)]
      · apply sumOver_congr
        intro b' _ hb'
        rw [if_pos ((hcond b' hb').2 hc), hprod]
        ring
      · intro v hv hv'
        simp only [vs, List.mem_filter, decide_eq_true_eq] at hv
        rcases hv'.2 with h' | h'
        · exact hv.2.1 h'
        · exact hv.2.2 h'
      · intro v hv hv'
        simp only [us, List.mem_filter, decide_eq_true_eq] at hv
        rcases hv'.2 with h' | h'
        · exact hv.2.1 h'
        · exact h' hv.2.2
    · rename_i hc
      refine (sumOver_congr (h := fun _ => 0) ?_).trans (sumOver_zero _ _)
      intro b' _ hb'
      rw [if_neg (fun h' => hc ((hcond b' hb').1 h')), mul_zero]
  rw [sumOver_congr (fun b _ _ => hin b)]
  have hzn : zs.Nodup := hn.filter _
  have hzm : ∀ v, v ∈ zs ↔ v ∈ A ∧ Z v := fun v => by simp [zs]
  exact sumOver_fix (Q := fun b => ∀ v ∈ A, Z v → b v = z v) hzn
    (fun v hv => hB.nodup v (hA v ((hzm v).1 hv).1)) (fun v hv => hz v ((hzm v).1 hv).1 ((hzm v).1 hv).2)
    (fun b hb v hv => hb v ((hzm v).1 hv).1 ((hzm v).1 hv).2) (fun v _ _ => rfl) _

end BN
end Verif

import Verif.Spec.Tolerance
import Verif.Lemmas.Do

/-! Rescaling the columns of a network. -/

namespace Verif
open Graph Relation Net
namespace Net

theorem colSum_col {net : Net} (hG : Good net) {v : Node} (hv : v ∈ net.g.nodes) {a : Assign} (ha : net.InDom a) :
    ∃ c, net.cpds.get? v = some c ∧ ∃ col ∈ c.table, net.colSum v a = col.sum ∧ ((∀ y ∈ col, 0 ≤ y) → 0 ≤ net.kernel v a) := by
  obtain ⟨c, hc, hd⟩ := hG.complete v hv
  have hf := hG.fits v c hc
  have hw := hG.cpdOk v c hc
  have hcol : ∃ col ∈ c.table,
      c.col (c.evidence.map (fun p => (net.domain.get? p).getD [])) (c.evidence.map a) = some col := by
    unfold Cpd.col
    apply get?_zip_mem
    · rw [mem_product, List.forall₂_map_left_iff, List.forall₂_map_right_iff, List.forall₂_same]
      intro p hp
      exact ha p (hG.wf.edgeNodes p v ((hf.parents p).1 hp)).1
    · rw [hw.columns, hf.cards, Verif.length_product, List.map_map]
      rfl
  have hker : ∀ b : Assign, net.kernel v b = (c.prob net.domain (c.evidence.map b) (b v)).getD 0 := by
    intro b
    unfold kernel
    rw [hc]
  obtain ⟨col, hm, e⟩ := hcol
  refine ⟨c, hc, col, hm, ?_, fun h => ?_⟩
  · have hev : ∀ x, c.evidence.map (Assign.upd a v x) = c.evidence.map a := by
      intro x
      apply List.map_congr_left
      intro p hp
      have : p ≠ v := fun e => hG.wf.acyclic v (.single (e ▸ (hf.parents p).1 hp))
      exact Assign.upd_ne _ _ this
    unfold colSum
    simp only [hker, hev]
    unfold Cpd.prob Cpd.entry
    rw [e, dom_eq hd]
    simp only [Option.bind_some]
    have hself : ∀ x, Assign.upd a v x v = x := fun x => by simp
    simp only [hself]
    rw [sum_get?_zip hw.nodup (hw.column col hm)]
  · rw [hker]
    unfold Cpd.prob Cpd.entry
    rw [e]
    simp only [Option.bind_some]
    cases hg : Dict.get? (c.domain.zip col) (a v) with
    | none => simp
    | some y =>
      have := Dict.mem_of_get? hg
      exact h y (List.of_mem_zip this).2

theorem colSum_near {net : Net} (hG : Good net) {v : Node} (hv : v ∈ net.g.nodes) {a : Assign} (ha : net.InDom a) :
    99 / 100 ≤ net.colSum v a ∧ net.colSum v a ≤ 101 / 100 ∧ (v ∉ net.inexact → net.colSum v a = 1) := by
  obtain ⟨c, hc, col, hm, e, _⟩ := colSum_col hG hv ha
  have := List.all_eq_true.1 (hG.fits v c hc).sums col hm
  unfold colClose at this
  rw [decide_eq_true_eq] at this
  rw [e]
  refine ⟨by linarith [this.2], by linarith [this.1], fun h => ?_⟩
  by_contra hs
  apply h
  refine List.mem_filter.2 ⟨hv, ?_⟩
  unfold isInexact
  rw [hc]
  exact List.any_eq_true.2 ⟨col, hm, by simpa using hs⟩

theorem colSum_depends {net : Net} (hG : Good net) {v : Node} (hv : v ∈ net.g.nodes) :
    DependsOn (net.colSum v) (fun u => net.g.Edge u v) := by
  intro a b hab
  unfold colSum
  congr 1
  apply List.map_congr_left
  intro x _
  apply kernel_depends hG hv
  rintro u (rfl | hu)
  · simp
  · have : u ≠ v := fun e => hG.wf.acyclic v (TransGen.single (e ▸ hu))
    rw [Assign.upd_ne _ _ this, Assign.upd_ne _ _ this, hab u hu]

/-- the network with rescaled columns -/
def scaled (net : Net) : BN := ⟨net.g, net.dom, fun v a => net.kernel v a / net.colSum v a⟩

theorem scaled_prob {net : Net} (hG : Good net) (hn : net.NoNegative) : net.scaled.Prob := by
  refine ⟨⟨hG.wf, fun _ hv => (dom_props hG hv).1, fun v hv a b hab => ?_⟩, fun v hv a ha => ?_, fun v hv a ha => ?_⟩
  · show net.kernel v a / net.colSum v a = net.kernel v b / net.colSum v b
    rw [kernel_depends hG hv a b hab, colSum_depends hG hv a b (fun u hu => hab u (Or.inr hu))]
  · obtain ⟨b, hb1, hb2⟩ := exists_inDom hG a (fun p => net.g.Edge p v) (fun p hp _ => ha p hp)
    have h0 : net.colSum v a ≠ 0 := by
      rw [colSum_depends hG hv a b (fun u hu => (hb2 u hu).symm)]
      have := (colSum_near hG hv hb1).1
      intro e
      rw [e] at this
      norm_num at this
    have hup : ∀ x, net.colSum v (Assign.upd a v x) = net.colSum v a := fun x => by
      apply colSum_depends hG hv
      intro u hu
      exact Assign.upd_ne _ _ (fun e => hG.wf.acyclic v (TransGen.single (e ▸ hu)))
    show ((net.dom v).map (fun x => net.kernel v (Assign.upd a v x) / net.colSum v (Assign.upd a v x))).sum = 1
    simp only [hup, div_eq_mul_inv]
    rw [List.sum_map_mul_right]
    exact mul_inv_cancel₀ h0
  · obtain ⟨b, hb1, hb2⟩ := exists_inDom hG a (fun u => u = v ∨ net.g.Edge u v) (fun u hu _ => ha u hu)
    obtain ⟨c, hc, col, hm, e, hk⟩ := colSum_col hG hv hb1
    show 0 ≤ net.kernel v a / net.colSum v a
    rw [← kernel_depends hG hv b a (fun u hu => hb2 u hu), ← colSum_depends hG hv b a (fun u hu => hb2 u (Or.inr hu))]
    exact div_nonneg (hk (hn v c hc col hm)) (by linarith [(colSum_near hG hv hb1).1])

theorem PRescaled_eq_W (net : Net) (E : Assign → Bool) : net.PRescaled E = net.scaled.W (fun a => if E a then 1 else 0) := by
  unfold PRescaled BN.W BN.prod scaled
  congr 1
  funext a
  simp only
  split <;> simp

theorem prod_near {net : Net} (hG : Good net) {a : Assign} (ha : net.InDom a) : ∀ (U : List Node), (∀ v ∈ U, v ∈ net.g.nodes) →
    (99 / 100 : Rat) ^ (U.filter (fun v => decide (v ∈ net.inexact))).length ≤ (U.map (fun v => net.colSum v a)).prod ∧
    (U.map (fun v => net.colSum v a)).prod ≤ (101 / 100 : Rat) ^ (U.filter (fun v => decide (v ∈ net.inexact))).length
  | [], _ => by simp
  | v :: U, hU => by
    obtain ⟨h1, h2⟩ := prod_near hG ha U (fun w hw => hU w (by simp [hw]))
    obtain ⟨k1, k2, k3⟩ := colSum_near hG (hU v (by simp)) ha
    have hpos : (0 : Rat) ≤ (99 / 100 : Rat) ^ (U.filter (fun v => decide (v ∈ net.inexact))).length := by positivity
    by_cases hv : v ∈ net.inexact
    · simp only [List.filter_cons, hv, decide_true, if_true, List.length_cons, List.map_cons, List.prod_cons, pow_succ']
      exact ⟨mul_le_mul k1 h1 hpos (by linarith), mul_le_mul k2 h2 (le_trans hpos h1) (by norm_num)⟩
    · simp only [List.filter_cons, hv, decide_false, List.map_cons, List.prod_cons, k3 hv, one_mul]
      exact ⟨h1, h2⟩

theorem P_near {net : Net} (hG : Good net) (hn : net.NoNegative) (E : Assign → Bool) :
    (99 / 100 : Rat) ^ net.inexact.length * net.PRescaled E ≤ net.P E ∧
    net.P E ≤ (101 / 100 : Rat) ^ net.inexact.length * net.PRescaled E := by
  have hB := scaled_prob hG hn
  have hlen : (net.g.nodes.filter (fun v => decide (v ∈ net.inexact))).length = net.inexact.length := by
    congr 1
    unfold inexact
    apply List.filter_congr
    intro v hv
    simp only [List.mem_filter, hv, true_and]
    simp
  have key : ∀ a, net.InDom a →
      (net.g.nodes.map (fun v => net.kernel v a)).prod =
        (net.g.nodes.map (fun v => net.kernel v a / net.colSum v a)).prod * (net.g.nodes.map (fun v => net.colSum v a)).prod ∧
      0 ≤ (net.g.nodes.map (fun v => net.kernel v a / net.colSum v a)).prod := by
    intro a ha
    refine ⟨?_, BN.prod_nonneg hB (fun v hv => hv) ha⟩
    rw [← List.prod_map_mul]
    congr 1
    apply List.map_congr_left
    intro v hv
    have := (colSum_near hG hv ha).1
    rw [div_mul_cancel₀]
    intro e
    rw [e] at this
    norm_num at this
  unfold PRescaled P
  constructor
  · rw [← sumOver_mul_const]
    apply sumOver_le
    intro b hb _
    obtain ⟨k1, k2⟩ := key b hb
    have := (prod_near hG hb net.g.nodes (fun v hv => hv)).1
    rw [hlen] at this
    split
    · rw [k1, mul_comm]
      exact mul_le_mul_of_nonneg_left this k2
    · simp
  · rw [← sumOver_mul_const]
    apply sumOver_le
    intro b hb _
    obtain ⟨k1, k2⟩ := key b hb
    have := (prod_near hG hb net.g.nodes (fun v hv => hv)).2
    rw [hlen] at this
    split
    · rw [k1, mul_comm]
      exact mul_le_mul_of_nonneg_right this k2
    · simp

theorem PRescaled_prune {net : Net} (hG : Good net) (hn : net.NoNegative) {K : List Node} (hK : Closed net.g K)
    {E : Assign → Bool} (hE : DependsOn E (fun v => v ∈ net.g.nodes ∧ v ∈ K)) : (net.prune K).PRescaled E = net.PRescaled E := by
  have hU : ∀ v, v ∈ (net.prune K).g.nodes ↔ v ∈ net.g.nodes ∧ v ∈ K := fun v => mem_prune
  rw [PRescaled_eq_W, PRescaled_eq_W, BN.W_ancestral (scaled_prob hG hn) (U := (net.prune K).g.nodes)
    (prune_wf hG.wf K).nodesNodup (fun v hv => ((hU v).1 hv).1)
    (fun u v huv hv => (hU u).2 ⟨(hG.wf.edgeNodes u v huv).1, hK v u (Or.inr huv) ((hU v).1 hv).2⟩)
    (f := fun a => if E a then 1 else 0)
    ((hE.mono (fun v hv => (hU v).2 hv)).comp (fun b : Bool => if b then (1 : Rat) else 0)) (fun _ => 0)]
  unfold BN.W
  apply sumOver_congr
  intro b _ _
  congr 1
  unfold BN.prod
  congr 1
  apply List.map_congr_left
  intro v hv
  have hk := fun a => prune_kernel (net := net) ((hU v).1 hv).2 a
  show (net.prune K).kernel v b / (net.prune K).colSum v b = net.kernel v b / net.colSum v b
  rw [hk]
  unfold colSum
  simp only [hk]
  rfl

theorem noNegative_prune {net : Net} (hn : net.NoNegative) (K : List Node) : (net.prune K).NoNegative := by
  intro v c hc
  rw [prune_cpds] at hc
  split at hc
  · exact hn v c hc
  · cases hc

theorem inexact_prune (net : Net) (K : List Node) : (net.prune K).inexact.length ≤ net.inexact.length := by
  have hU : ∀ v, v ∈ (net.prune K).g.nodes ↔ v ∈ net.g.nodes ∧ v ∈ K := fun v => mem_prune
  have : (net.prune K).inexact = (net.prune K).g.nodes.filter net.isInexact := by
    unfold inexact
    apply List.filter_congr
    intro v hv
    unfold isInexact
    rw [prune_cpds, if_pos (Or.inr ((hU v).1 hv).2)]
  rw [this]
  exact (List.Sublist.filter _ List.filter_sublist).length_le

end Net
end Verif

import Verif.Model.Structural
import Verif.Lemmas.Improve
import Verif.Lemmas.Optimal
import Verif.Props.Witness

/-!
# C89: `is_structural_causal_model`
-/

namespace Verif

open Graph Relation Net

/-- numpy takes the number for 0 or for 1 -/
def Binary (p : Rat) : Prop := |p| ≤ 1 / 100000000 ∨ |p - 1| ≤ 1001 / 100000000

private theorem npClose_iff (p : Rat) : (npClose p 0 || npClose p 1) = true ↔ Binary p := by
  unfold npClose Binary
  rw [Bool.or_eq_true, decide_eq_true_iff, decide_eq_true_iff]
  norm_num

/-! ### Entries of the table and values of the kernel -/

private theorem get?_zip_some {α β : Type} [DecidableEq α] {ks : List α} {vs : List β} {k : α} {y : β}
    (h : Dict.get? (ks.zip vs) k = some y) : y ∈ vs := by
  have := Dict.mem_of_get? h
  exact (List.of_mem_zip this).2

theorem entries_binary {net : Net} (hG : Good net) {v : Node} (hv : v ∈ net.g.nodes) {c : Cpd} (hc : net.cpds.get? v = some c)
    (S : Rat → Prop) (h0 : S 0) : (∀ p ∈ c.table.flatten, S p) ↔ ∀ a, net.InDom a → S (net.kernel v a) := by
  constructor
  · intro h a ha
    unfold kernel
    rw [hc]
    simp only
    cases hp : c.prob net.domain (c.evidence.map a) (a v) with
    | none => exact h0
    | some p =>
      apply h
      unfold Cpd.prob Cpd.entry at hp
      obtain ⟨col, h1, h2⟩ := Option.bind_eq_some_iff.1 hp
      exact List.mem_flatten.2 ⟨col, get?_zip_some h1, get?_zip_some h2⟩
  · intro h p hp
    obtain ⟨col, h1, h2⟩ := List.mem_flatten.1 hp
    obtain ⟨i, hi, rfl⟩ := List.getElem_of_mem h1
    obtain ⟨j, hj, rfl⟩ := List.getElem_of_mem h2
    have hw := hG.cpdOk v c hc
    have hf := hG.fits v c hc
    have hen : ∀ p ∈ c.evidence, p ∈ net.g.nodes := fun p hp => (hG.wf.edgeNodes p v ((hf.parents p).1 hp)).1
    let doms := c.evidence.map (fun p => (net.domain.get? p).getD [])
    have hlen : (product doms).length = c.table.length := by
      rw [Verif.length_product, hw.columns, hf.cards, List.map_map]
      rfl
    have hdn : (product doms).Nodup := nodup_product (fun l hl => by
      obtain ⟨p, hp, rfl⟩ := List.mem_map.1 hl
      exact (dom_props hG (hen p hp)).1)
    have hi' : i < (product doms).length := by omega
    have hmem : (product doms)[i] ∈ product doms := List.getElem_mem hi'
    have hinst : Instantiation c.evidence net.domain (product doms)[i] := by
      refine (inst_iff (ds := doms) ?_).1 hmem
      rw [List.forall₂_map_right_iff, List.forall₂_same]
      intro p hp
      obtain ⟨cp, _, e⟩ := hG.complete p (hen p hp)
      simp [e]
    obtain ⟨a, ha1, ha2⟩ := exists_assign hw.evidence hinst
    have hjc : j < c.domain.length := by rw [← hw.column _ h1]; exact hj
    have hvd : net.dom v = c.domain := by
      obtain ⟨c', e1, e2⟩ := hG.complete v hv
      rw [hc] at e1
      cases e1
      exact dom_eq e2
    have hve : v ∉ c.evidence := fun hm => hG.wf.acyclic v (TransGen.single ((hf.parents v).1 hm))
    obtain ⟨b, hb1, hb2⟩ := exists_inDom hG (Assign.upd a v c.domain[j]) (fun u => u = v ∨ u ∈ c.evidence) (by
      intro u hu hun
      by_cases e : u = v
      · subst e
        rw [Assign.upd_same, hvd]
        exact List.getElem_mem _
      · rw [Assign.upd_ne _ _ e]
        obtain ⟨l, e1, e2⟩ := ha2 u (hu.resolve_left e)
        rw [dom_eq e1]
        exact e2)
    have hbe : c.evidence.map b = (product doms)[i] := by
      rw [ha1]
      apply List.map_congr_left
      intro p hp
      rw [hb2 p (.inr hp), Assign.upd_ne _ _ (fun e => hve (by rw [← e]; exact hp))]
    have hbv : b v = c.domain[j] := by rw [hb2 v (.inl rfl), Assign.upd_same]
    have := h b hb1
    unfold kernel at this
    rw [hc] at this
    simp only [Cpd.prob, Cpd.entry, Cpd.col] at this
    rw [hbe, hbv, get?_zip hdn hi' hi] at this
    simp only [Option.bind_some] at this
    rw [get?_zip hw.nodup hjc hj] at this
    exact this

private theorem loop_spec {net : Net} (hG : Good net) : ∀ {vs : List Node}, (∀ v ∈ vs, v ∈ net.g.nodes) →
    ∃ b, structuralLoop net vs = .ok b ∧
      (b = true ↔ ∀ v ∈ vs, (∃ p, net.g.Edge p v) → ∀ a, net.InDom a → Binary (net.kernel v a))
  | [], _ => ⟨true, rfl, by simp⟩
  | v :: vs, hvs => by
    obtain ⟨b, h1, h2⟩ := loop_spec hG (vs := vs) (fun w hw => hvs w (by simp [hw]))
    have hv := hvs v (by simp)
    unfold structuralLoop
    by_cases hp : net.g.parents v = []
    · rw [if_pos hp]
      refine ⟨b, h1, h2.trans ?_⟩
      rw [List.forall_mem_cons]
      refine (and_iff_right ?_).symm
      rintro ⟨p, hpe⟩
      have := mem_parents.2 hpe
      rw [hp] at this
      simp at this
    · rw [if_neg hp]
      obtain ⟨c, hc, _⟩ := hG.complete v hv
      have hex : ∃ p, net.g.Edge p v := by
        obtain ⟨p, hpm⟩ := List.exists_mem_of_ne_nil _ hp
        exact ⟨p, mem_parents.1 hpm⟩
      have key := entries_binary hG hv hc Binary (.inl (by norm_num))
      rw [show net.getCpd v = .ok (some c) from by unfold getCpd; rw [if_pos hv, hc]]
      simp only
      by_cases hall : c.table.flatten.all (fun p => npClose p 0 || npClose p 1) = true
      · rw [if_pos hall]
        refine ⟨b, h1, h2.trans ?_⟩
        rw [List.forall_mem_cons]
        refine (and_iff_right fun _ => key.1 fun p hp => (npClose_iff p).1 ?_).symm
        exact List.all_eq_true.1 hall p hp
      · rw [if_neg hall]
        refine ⟨false, rfl, iff_of_false (by simp) fun h => hall ?_⟩
        rw [List.all_eq_true]
        intro p hp
        exact (npClose_iff p).2 (key.2 (h v (by simp) hex) p hp)

/-- **C89** On a parameterised network the check always succeeds, and it says True exactly if every variable with parents
takes each outcome with a probability that numpy takes for 0 or 1, whatever the values of its parents. -/
theorem C89_structural {net : Net} (hG : Good net) :
    ∃ b, net.isStructural = .ok b ∧
      (b = true ↔ ∀ v ∈ net.g.nodes, (∃ p, net.g.Edge p v) → ∀ a, net.InDom a →
        |net.kernel v a| ≤ 1 / 100000000 ∨ |net.kernel v a - 1| ≤ 1001 / 100000000) :=
  loop_spec hG (fun _ h => h)

private theorem loop_error {net : Net} : ∀ {vs : List Node}, (∀ v ∈ vs, v ∈ net.g.nodes) →
    (∀ e, structuralLoop net vs = .error e → e = .attribute ∧ ∃ v ∈ vs, (∃ p, net.g.Edge p v) ∧ net.cpds.get? v = none) ∧
    ((∃ v ∈ vs, (∃ p, net.g.Edge p v) ∧ net.cpds.get? v = none) → structuralLoop net vs ≠ .ok true)
  | [], _ => by simp [structuralLoop]
  | v :: vs, hvs => by
    obtain ⟨h1, h2⟩ := loop_error (net := net) (vs := vs) (fun w hw => hvs w (by simp [hw]))
    have hv := hvs v (by simp)
    unfold structuralLoop
    by_cases hp : net.g.parents v = []
    · rw [if_pos hp]
      refine ⟨fun e he => ⟨(h1 e he).1, ?_⟩, ?_⟩
      · obtain ⟨w, hw, k⟩ := (h1 e he).2
        exact ⟨w, by simp [hw], k⟩
      · rintro ⟨w, hw, ⟨p, k1⟩, k2⟩
        rcases List.mem_cons.1 hw with rfl | hw
        · have := mem_parents.2 k1
          rw [hp] at this
          simp at this
        · exact h2 ⟨w, hw, ⟨p, k1⟩, k2⟩
    · rw [if_neg hp, show net.getCpd v = .ok (net.cpds.get? v) from by unfold getCpd; rw [if_pos hv]]
      cases hc : net.cpds.get? v with
      | none =>
        obtain ⟨p, hpm⟩ := List.exists_mem_of_ne_nil _ hp
        refine ⟨fun e he => ?_, fun _ => by simp⟩
        cases he
        exact ⟨rfl, v, by simp, ⟨p, mem_parents.1 hpm⟩, hc⟩
      | some c =>
        simp only
        split
        · refine ⟨fun e he => ⟨(h1 e he).1, ?_⟩, ?_⟩
          · obtain ⟨w, hw, k⟩ := (h1 e he).2
            exact ⟨w, by simp [hw], k⟩
          · rintro ⟨w, hw, k1, k2⟩
            rcases List.mem_cons.1 hw with rfl | hw
            · rw [hc] at k2
              simp at k2
            · exact h2 ⟨w, hw, k1, k2⟩
        · exact ⟨by simp, by simp⟩

/-- **C89** On a network that is not fully parameterised: the only exception is an AttributeError, it means that a variable
with parents has no CPD; and if a variable with parents has no CPD the answer is never True. -/
theorem C89_missing_cpd (net : Net) :
    (∀ e, net.isStructural = .error e → e = .attribute ∧ ∃ v ∈ net.g.nodes, (∃ p, net.g.Edge p v) ∧ net.cpds.get? v = none) ∧
    ((∃ v ∈ net.g.nodes, (∃ p, net.g.Edge p v) ∧ net.cpds.get? v = none) → net.isStructural ≠ .ok true) :=
  loop_error (fun _ h => h)

/-! ### What the answer means -/

namespace BN

private theorem isRule_uniform {B : BN} {d : Node} (hne : B.dom d ≠ []) :
    B.IsRule d (fun _ => 1 / ((B.dom d).length : Rat)) := by
  refine ⟨fun a b _ => rfl, fun a _ => ?_, fun a _ => by positivity⟩
  have : ((B.dom d).length : Rat) ≠ 0 := by
    have := List.length_pos_of_ne_nil hne
    positivity
  rw [List.map_const', List.sum_replicate, nsmul_eq_mul]
  field_simp

/-- a set of rare outcomes -/
theorem W_rare {B : BN} (hB : B.Prob) {v : Node} (hv : v ∈ B.g.nodes) (hne : B.dom v ≠ []) {E : Assign → Bool} {ε : Rat}
    (hε : ∀ a, B.InDom a → E a = true → B.k v a ≤ ε) (h0 : 0 ≤ ε) :
    B.W (fun a => if E a then 1 else 0) ≤ ε * (B.dom v).length := by
  have hpos : (0 : Rat) < (B.dom v).length := by
    have := List.length_pos_of_ne_nil hne
    positivity
  have hτ := isRule_uniform (B := B) hne
  have hP := withRule_prob hB hτ
  have e1 : B.W (fun a => if E a then 1 else 0) =
      (B.withRule v (fun _ => 1 / ((B.dom v).length : Rat))).W (fun a => (B.dom v).length * (B.k v a * (if E a then 1 else 0))) := by
    conv_lhs => rw [← withRule_self B v]
    rw [W_withRule hB.wf.nodesNodup hv, W_withRule hB.wf.nodesNodup hv (fun _ => 1 / ((B.dom v).length : Rat))]
    congr 1
    funext a
    field_simp
  rw [e1]
  have hle : (B.withRule v (fun _ => 1 / ((B.dom v).length : Rat))).W (fun a => (B.dom v).length * (B.k v a * (if E a then 1 else 0))) ≤
      (B.withRule v (fun _ => 1 / ((B.dom v).length : Rat))).W (fun _ => ε * (B.dom v).length * 1) := by
    refine W_le hP (fun a ha => ?_)
    have ha' : B.InDom a := ha
    have : B.k v a * (if E a then 1 else 0) ≤ ε := by
      by_cases he : E a = true
      · rw [if_pos he, mul_one]; exact hε a ha' he
      · rw [if_neg he, mul_zero]; exact h0
    nlinarith
  refine hle.trans (le_of_eq ?_)
  rw [W_mul_const, W_one hP, mul_one]

/-- several sets of rare outcomes -/
theorem W_never {B : BN} (hB : B.Prob) {S : List Node} (hS : ∀ v ∈ S, v ∈ B.g.nodes) (hne : ∀ v ∈ S, B.dom v ≠ [])
    {E : Node → Assign → Bool} {ε : Rat} (hε : ∀ v ∈ S, ∀ a, B.InDom a → E v a = true → B.k v a ≤ ε) (h0 : 0 ≤ ε) :
    1 - ε * (S.map (fun v => ((B.dom v).length : Rat))).sum ≤ B.W (fun a => if S.all (fun v => !E v a) then 1 else 0) := by
  induction S with
  | nil => simp [W_one hB]
  | cons v S ih =>
    have ih := ih (fun w hw => hS w (by simp [hw])) (fun w hw => hne w (by simp [hw])) (fun w hw => hε w (by simp [hw]))
    have hr := W_rare hB (hS v (by simp)) (hne v (by simp)) (hε v (by simp)) h0
    have hle : B.W (fun a => if S.all (fun v => !E v a) then 1 else 0) ≤
        B.W (fun a => (if (v :: S).all (fun v => !E v a) then 1 else 0) + (if E v a then 1 else 0)) := by
      refine W_le hB (fun a _ => ?_)
      rw [List.all_cons]
      cases E v a <;> cases S.all (fun v => !E v a) <;> norm_num
    rw [W_add] at hle
    simp only [List.map_cons, List.sum_cons]
    linarith

end BN

/-- the outcome a variable with a degenerate CPD takes -/
def outcomeOf (net : Net) (v : Node) (a : Assign) : Outcome :=
  ((net.dom v).find? (fun x => decide (1 / 100000000 < net.kernel v (Assign.upd a v x)))).getD 0

theorem outcomeOf_depends {net : Net} (hG : Good net) {v : Node} (hv : v ∈ net.g.nodes) {a b : Assign}
    (h : ∀ p, net.g.Edge p v → a p = b p) : outcomeOf net v a = outcomeOf net v b := by
  unfold outcomeOf
  congr 3
  funext x
  rw [kernel_depends hG hv (Assign.upd a v x) (Assign.upd b v x)]
  rintro u (rfl | hu)
  · rw [Assign.upd_same, Assign.upd_same]
  · have : u ≠ v := by
      rintro rfl
      exact hG.wf.acyclic u (TransGen.single hu)
    rw [Assign.upd_ne _ _ this, Assign.upd_ne _ _ this, h u hu]

private theorem upd_self (a : Assign) (v : Node) : Assign.upd a v (a v) = a := by
  funext w
  unfold Assign.upd
  split
  · rename_i h; rw [h]
  · rfl

private theorem inDom_upd {net : Net} {a : Assign} (ha : net.InDom a) {v : Node} {x : Outcome} (hx : x ∈ net.dom v) :
    net.InDom (Assign.upd a v x) := by
  intro w hw
  by_cases e : w = v
  · subst e; rw [Assign.upd_same]; exact hx
  · rw [Assign.upd_ne _ _ e]; exact ha w hw

/-- two outcomes cannot both be close to certain, so anything but the outcome found is unlikely -/
private theorem rare {net : Net} (hG : Good net) (hN : net.Normalised) {ε : Rat} (h1 : ε ≤ 1 / 100000000) {v : Node} (hv : v ∈ net.g.nodes)
    (hbin : ∀ a, net.InDom a → net.kernel v a ≤ ε ∨ 99998999 / 100000000 ≤ net.kernel v a)
    {a : Assign} (ha : net.InDom a) (hne : a v ≠ outcomeOf net v a) : net.kernel v a ≤ ε := by
  refine (hbin a ha).resolve_right fun hbig => hne ?_
  have hsome : ∃ x, (net.dom v).find? (fun x => decide (1 / 100000000 < net.kernel v (Assign.upd a v x))) = some x := by
    cases h : (net.dom v).find? (fun x => decide (1 / 100000000 < net.kernel v (Assign.upd a v x))) with
    | some x => exact ⟨x, rfl⟩
    | none =>
      rw [List.find?_eq_none] at h
      have := h (a v) (ha v hv)
      rw [upd_self] at this
      exfalso
      apply this
      rw [decide_eq_true_iff]
      linarith
  obtain ⟨x, hx⟩ := hsome
  unfold outcomeOf
  rw [hx]
  simp only [Option.getD_some]
  by_contra hcon
  have hxm := List.mem_of_find?_eq_some hx
  have hxk := List.find?_some hx
  simp only [decide_eq_true_eq] at hxk
  have hxbig : 99998999 / 100000000 ≤ net.kernel v (Assign.upd a v x) :=
    (hbin _ (inDom_upd ha hxm)).resolve_left (by linarith)
  have hsum := (hN v hv a ha).2
  have hnn : ∀ y ∈ net.dom v, 0 ≤ net.kernel v (Assign.upd a v y) := fun y hy => (hN v hv _ (inDom_upd ha hy)).1
  have hnd := (dom_props hG hv).1
  have hp : (net.dom v).Perm (a v :: x :: ((net.dom v).erase (a v)).erase x) := by
    refine (List.perm_cons_erase (ha v hv)).trans (List.Perm.cons _ (List.perm_cons_erase ?_))
    exact (List.mem_erase_of_ne (Ne.symm hcon)).2 hxm
  rw [(hp.map _).sum_eq] at hsum
  simp only [List.map_cons, List.sum_cons, upd_self] at hsum
  have : 0 ≤ ((((net.dom v).erase (a v)).erase x).map (fun y => net.kernel v (Assign.upd a v y))).sum := by
    apply List.sum_nonneg
    intro r hr
    obtain ⟨y, hy, rfl⟩ := List.mem_map.1 hr
    exact hnn y (List.mem_of_mem_erase (List.mem_of_mem_erase hy))
  linarith

private theorem mechanisms {net : Net} (hG : Good net) (hN : net.Normalised) {ε : Rat} (h0 : 0 ≤ ε) (h1 : ε ≤ 1 / 100000000)
    (hbin : ∀ v ∈ net.g.nodes, (∃ p, net.g.Edge p v) → ∀ a, net.InDom a → net.kernel v a ≤ ε ∨ 99998999 / 100000000 ≤ net.kernel v a)
    {S : List Node} (hS : ∀ v ∈ S, v ∈ net.g.nodes ∧ ∃ p, net.g.Edge p v) {ints : List (Node × Outcome)} (hd : (ints.map (·.1)).Nodup)
    (hi : ∀ p ∈ ints, p.1 ∈ net.g.nodes ∧ p.2 ∈ net.dom p.1) (hSi : ∀ v ∈ S, v ∉ ints.map (·.1)) :
    1 - ε * (S.map (fun v => ((net.dom v).length : Rat))).sum ≤
      net.PDo ints (fun a => S.all (fun v => decide (a v = outcomeOf net v a))) := by
  rw [PDo_eq_W (fun p hp => (hi p hp).1)]
  have hB := doBN_prob hG hN hd (fun p hp => (hi p hp).2)
  have := BN.W_never hB (S := S) (fun v hv => (hS v hv).1) (fun v hv => (dom_props hG (hS v hv).1).2)
    (E := fun v a => !decide (a v = outcomeOf net v a)) (ε := ε) (fun v hv a ha he => by
      show (if v ∈ ints.map (·.1) then _ else net.kernel v a) ≤ ε
      rw [if_neg (hSi v hv)]
      refine rare hG hN h1 (hS v hv).1 (hbin v (hS v hv).1 (hS v hv).2) ha ?_
      simpa using he) h0
  simp only [Bool.not_not] at this
  exact this

/-- the endogenous variables: those with parents -/
def endogenous (g : Graph) : List Node := g.nodes.filter (fun v => decide (∃ e ∈ g.edges, e.2 = v))

private theorem mem_endogenous {g : Graph} {v : Node} : v ∈ endogenous g ↔ v ∈ g.nodes ∧ ∃ p, g.Edge p v := by
  unfold endogenous
  rw [List.mem_filter, decide_eq_true_iff]
  refine and_congr_right fun _ => ⟨?_, ?_⟩
  · rintro ⟨e, he, rfl⟩
    exact ⟨e.1, he⟩
  · rintro ⟨p, hp⟩
    exact ⟨(p, v), hp, rfl⟩

private theorem functions {net : Net} (hG : Good net) (hN : net.Normalised) {ε : Rat} (h0 : 0 ≤ ε) (h1 : ε ≤ 1 / 100000000)
    (hbin : ∀ v ∈ net.g.nodes, (∃ p, net.g.Edge p v) → ∀ a, net.InDom a → net.kernel v a ≤ ε ∨ 99998999 / 100000000 ≤ net.kernel v a)
    {ints : List (Node × Outcome)} (hd : (ints.map (·.1)).Nodup) (hi : ∀ p ∈ ints, p.1 ∈ net.g.nodes ∧ p.2 ∈ net.dom p.1) :
    1 - ε * ((endogenous net.g).map (fun v => ((net.dom v).length : Rat))).sum ≤
      net.PDo ints (fun a => (endogenous net.g).all (fun v => decide (v ∈ ints.map (·.1) ∨ a v = outcomeOf net v a))) := by
  let S := (endogenous net.g).filter (fun v => decide (v ∉ ints.map (·.1)))
  have hS := mechanisms hG hN h0 h1 hbin (S := S)
    (fun v hv => mem_endogenous.1 (List.mem_filter.1 hv).1) hd hi (fun v hv => by simpa using (List.mem_filter.1 hv).2)
  have e : (fun a : Assign => S.all (fun v => decide (a v = outcomeOf net v a))) =
      (fun a => (endogenous net.g).all (fun v => decide (v ∈ ints.map (·.1) ∨ a v = outcomeOf net v a))) := by
    funext a
    rw [Bool.eq_iff_iff, List.all_eq_true, List.all_eq_true]
    simp only [S, List.mem_filter, decide_eq_true_eq]
    constructor
    · intro k v hv
      by_cases hm : v ∈ ints.map (·.1)
      · exact .inl hm
      · exact .inr (k v ⟨hv, hm⟩)
    · rintro k v ⟨hv, hm⟩
      exact (k v hv).resolve_left hm
  rw [e] at hS
  refine le_trans ?_ hS
  have : (S.map (fun v => ((net.dom v).length : Rat))).sum ≤ ((endogenous net.g).map (fun v => ((net.dom v).length : Rat))).sum := by
    refine List.Sublist.sum_le_sum ((List.filter_sublist).map _) ?_
    intro x hx
    obtain ⟨v, _, rfl⟩ := List.mem_map.1 hx
    positivity
  nlinarith

/-- **C89** What True means: there is one function per variable, of the values of its parents only, such that
under every intervention all variables with parents that are not intervened on are the values of their functions, up to a
probability of 1e-8 per outcome of these variables. -/
theorem C89_mechanisms {net : Net} (hG : Good net) (hN : net.Normalised) (h : net.isStructural = .ok true) :
    ∃ F : Node → Assign → Outcome,
      (∀ v ∈ net.g.nodes, ∀ a b, (∀ p, net.g.Edge p v → a p = b p) → F v a = F v b) ∧
      ∀ ints, (ints.map (·.1)).Nodup → (∀ p ∈ ints, p.1 ∈ net.g.nodes ∧ p.2 ∈ net.dom p.1) →
        1 - 1 / 100000000 * ((endogenous net.g).map (fun v => ((net.dom v).length : Rat))).sum ≤
          net.PDo ints (fun a => (endogenous net.g).all (fun v => decide (v ∈ ints.map (·.1) ∨ a v = F v a))) := by
  obtain ⟨b, h1, h2⟩ := C89_structural hG
  rw [h] at h1
  cases h1
  have hbin : ∀ v ∈ net.g.nodes, (∃ p, net.g.Edge p v) → ∀ a, net.InDom a →
      net.kernel v a ≤ 1 / 100000000 ∨ 99998999 / 100000000 ≤ net.kernel v a := by
    intro v hv hp a ha
    rcases h2.1 rfl v hv hp a ha with k | k
    · exact .inl (abs_le.1 k).2
    · right
      have := (abs_le.1 k).1
      linarith
  exact ⟨outcomeOf net, fun v hv a b hab => outcomeOf_depends hG hv hab, fun ints hd hi =>
    functions hG hN (by norm_num) le_rfl hbin hd hi⟩

/-- **C89** If the probabilities of the variables with parents are exactly 0 and 1, the answer is True and the functions
hold with probability exactly 1, under every intervention. -/
theorem C89_exact {net : Net} (hG : Good net) (hN : net.Normalised)
    (hex : ∀ v ∈ net.g.nodes, (∃ p, net.g.Edge p v) → ∀ a, net.InDom a → net.kernel v a = 0 ∨ net.kernel v a = 1) :
    net.isStructural = .ok true ∧ ∃ F : Node → Assign → Outcome,
      (∀ v ∈ net.g.nodes, ∀ a b, (∀ p, net.g.Edge p v → a p = b p) → F v a = F v b) ∧
      ∀ ints, (ints.map (·.1)).Nodup → (∀ p ∈ ints, p.1 ∈ net.g.nodes ∧ p.2 ∈ net.dom p.1) →
        net.PDo ints (fun a => (endogenous net.g).all (fun v => decide (v ∈ ints.map (·.1) ∨ a v = F v a))) = 1 := by
  constructor
  · obtain ⟨b, h1, h2⟩ := C89_structural hG
    rw [h1, h2.2]
    intro v hv hp a ha
    rcases hex v hv hp a ha with e | e <;> rw [e] <;> norm_num
  · refine ⟨outcomeOf net, fun v hv a b hab => outcomeOf_depends hG hv hab, fun ints hd hi => le_antisymm ?_ ?_⟩
    · have hB := doBN_prob hG hN hd (fun p hp => (hi p hp).2)
      rw [PDo_eq_W (fun p hp => (hi p hp).1)]
      exact (BN.W_le hB (h := fun _ => 1) (fun a _ => by split <;> norm_num)).trans (BN.W_one hB).le
    · have := functions hG hN (ε := 0) le_rfl (by norm_num) (fun v hv hp a ha => by
        rcases hex v hv hp a ha with e | e <;> rw [e] <;> norm_num) hd hi
      simpa using this

/-! ### Examples -/

namespace ExSc

/-- `B` and `C` depend on `A` -/
def edges : List (Node × Node) := [("A", "B"), ("A", "C"), ("B", "C")]
def m : Macid := ⟨⟨["A", "B", "C"], edges⟩, [], [], [], []⟩
/-- a copy of `A` that is wrong with the given probability -/
def copying (ε : Rat) : Func := fun pv => .ok (.dist (if pv "A" = some 1 then [(0, some ε), (1, some (1 - ε))] else [(0, some (1 - ε)), (1, some ε)]))
/-- the sum of `A` and `B` -/
def adding : Func := fun pv => .ok (.val ((pv "A").getD 0 + (pv "B").getD 0))
def rels (ε : Rat) : List (Node × Rel) :=
  [("A", .dist [(0, some (1 / 2)), (1, some (1 / 2))]), ("B", .func (copying ε)), ("C", .func adding)]
def net (ε : Rat) : Net := ((Net.mk m [] [] [] Macid.new).addCpds (rels ε)).1

theorem honest (ε : Rat) : ∀ p ∈ rels ε, Honest p.2 := by
  intro p hp
  simp only [rels, List.mem_cons, List.not_mem_nil, or_false] at hp
  rcases hp with rfl | rfl | rfl
  · trivial
  · intro pv; simp [copying]
  · intro pv; simp [adding]

theorem usable_sharp : (net 0).Usable ∧ (net 0).m = m :=
  usable_of_build (edges := edges) (ad := []) (au := []) (rels := rels 0) (by decide +kernel)
    (by rw [← show ((Net.mk m [] [] [] Macid.new).addCpds (rels 0)).2 = .ok () by decide +kernel]; rfl) (honest 0) (by decide +kernel)

theorem usable_tiny : (net (1 / 1000000000)).Usable ∧ (net (1 / 1000000000)).m = m :=
  usable_of_build (edges := edges) (ad := []) (au := []) (rels := rels (1 / 1000000000)) (by decide +kernel)
    (by rw [← show ((Net.mk m [] [] [] Macid.new).addCpds (rels (1 / 1000000000))).2 = .ok () by decide +kernel]; rfl)
    (honest _) (by decide +kernel)

theorem usable_coarse : (net (1 / 10)).Usable ∧ (net (1 / 10)).m = m :=
  usable_of_build (edges := edges) (ad := []) (au := []) (rels := rels (1 / 10)) (by decide +kernel)
    (by rw [← show ((Net.mk m [] [] [] Macid.new).addCpds (rels (1 / 10))).2 = .ok () by decide +kernel]; rfl)
    (honest _) (by decide +kernel)

/-- the hypothesis of `C89_exact` -/
theorem sharp : ∀ v ∈ (net 0).g.nodes, (∃ p, (net 0).g.Edge p v) → ∀ a, (net 0).InDom a →
    (net 0).kernel v a = 0 ∨ (net 0).kernel v a = 1 := by
  intro v hv hp
  have hg : (net 0).g = m.g := by show (net 0).m.g = _; rw [usable_sharp.2]
  obtain ⟨c, hc, _⟩ := usable_sharp.1.good.complete v hv
  refine (entries_binary usable_sharp.1.good hv hc (fun p => p = 0 ∨ p = 1) (.inl rfl)).1 ?_
  have key : ∀ v ∈ ["B", "C"], ∀ c, (net 0).cpds.get? v = some c → ∀ p ∈ c.table.flatten, p = 0 ∨ p = 1 := by
    intro v hv c hc
    have : (match (net 0).cpds.get? v with
      | some c => c.table.flatten.all (fun p => decide (p = 0 ∨ p = 1))
      | none => true) = true := by
      simp only [List.mem_cons, List.not_mem_nil, or_false] at hv
      rcases hv with rfl | rfl <;> decide +kernel
    rw [hc] at this
    intro p hp
    simpa using List.all_eq_true.1 this p hp
  refine key v ?_ c hc
  obtain ⟨p, hp⟩ := hp
  rw [hg] at hp
  have : ∀ e ∈ m.g.edges, e.2 ∈ ["B", "C"] := by decide
  exact this _ hp

end ExSc

/-- a structural causal model; one that is accepted although a variable is not a function of its parents (it deviates with
probability 1e-9); and one that is rejected -/
theorem C89_example : (ExSc.net 0).isStructural = .ok true ∧
    (ExSc.net (1 / 1000000000)).isStructural = .ok true ∧
    (ExSc.net (1 / 1000000000)).P (fun a => decide (a "B" ≠ a "A")) = 1 / 1000000000 ∧
    (ExSc.net (1 / 10)).isStructural = .ok false :=
  ⟨(C89_exact ExSc.usable_sharp.1.good ExSc.usable_sharp.1.normalised ExSc.sharp).1, by decide +kernel, by decide +kernel, by decide +kernel⟩

/-- without CPDs -/
example : (Net.mk ExSc.m [] [] [] Macid.new).isStructural = .error .attribute := by decide +kernel

end Verif

import Verif.Spec.Graph
import Mathlib.Data.List.Dedup
import Mathlib.Data.List.Perm.Subperm
import Mathlib.Tactic.Common
import Mathlib.Tactic.Linarith

/-! Lemmas about graphs: reachability by breadth first search, preservation of well-formedness. -/

namespace Verif
open Relation

theorem exists_nodup_chain {α : Type} {R : α → α → Prop} {a b : α} (h : ReflTransGen R a b) :
    ∃ p, List.IsChain R (a :: p) ∧ (a :: p).getLast? = some b ∧ (a :: p).Nodup := by
  classical
  induction h using ReflTransGen.head_induction_on with
  | refl => exact ⟨[], by simp⟩
  | @head a c hac _ ih =>
    obtain ⟨p, hp, hl, hn⟩ := ih
    by_cases ha : a ∈ c :: p
    · obtain ⟨l, r, hlr⟩ := List.append_of_mem ha
      refine ⟨r, ?_, ?_, ?_⟩
      · rw [hlr] at hp; exact (List.isChain_append.1 hp).2.1
      · rw [hlr] at hl; simpa [List.getLast?_append] using hl
      · rw [hlr] at hn; exact (List.nodup_append.1 hn).2.1
    · refine ⟨c :: p, ?_, ?_, ?_⟩
      · exact List.isChain_cons_cons.2 ⟨hac, hp⟩
      · simpa [List.getLast?_cons_cons] using hl
      · exact List.nodup_cons.2 ⟨ha, hn⟩

theorem length_le_of_nodup_subset {α : Type} {l₁ l₂ : List α} (hn : l₁.Nodup) (h : l₁ ⊆ l₂) :
    l₁.length ≤ l₂.length := (List.subperm_of_subset hn h).length_le

theorem getLast?_mem' {α : Type} {l : List α} {a : α} (h : l.getLast? = some a) : a ∈ l :=
  List.mem_of_getLast? h

theorem chain_transGen {α : Type} {R : α → α → Prop} {a b : α} {p : List α}
    (hp : List.IsChain R (a :: p)) (hl : (a :: p).getLast? = some b) : ReflTransGen R a b := by
  induction p generalizing a with
  | nil => simp at hl; subst hl; exact ReflTransGen.refl
  | cons c p ih =>
    rw [List.isChain_cons_cons] at hp
    exact ReflTransGen.head hp.1 (ih hp.2 (by simpa [List.getLast?_cons_cons] using hl))

namespace Graph

theorem mem_expand {α : Type} [DecidableEq α] {nbrs : α → List α} {s : List α} {x : α} :
    x ∈ expand nbrs s ↔ x ∈ s ∨ ∃ y ∈ s, x ∈ nbrs y := by
  unfold expand
  simp only [List.mem_append, List.mem_filter, List.mem_flatMap, decide_eq_true_eq]
  constructor
  · rintro (h | ⟨h, _⟩)
    · exact Or.inl h
    · exact Or.inr h
  · rintro (h | h)
    · exact Or.inl h
    · by_cases hx : x ∈ s
      · exact Or.inl hx
      · exact Or.inr ⟨h, hx⟩


theorem closure_sound {α : Type} [DecidableEq α] {nbrs : α → List α} {n : Nat} {s : List α} {x : α}
    (h : x ∈ closure nbrs n s) : ∃ y ∈ s, ReflTransGen (fun a b => b ∈ nbrs a) y x := by
  induction n generalizing s with
  | zero => exact ⟨x, h, ReflTransGen.refl⟩
  | succ n ih =>
    obtain ⟨y, hy, hr⟩ := ih h
    rw [List.mem_dedup, mem_expand] at hy
    rcases hy with hy | ⟨z, hz, hzy⟩
    · exact ⟨y, hy, hr⟩
    · exact ⟨z, hz, ReflTransGen.head hzy hr⟩

theorem closure_complete {α : Type} [DecidableEq α] {nbrs : α → List α} {n : Nat} {s : List α} {y x : α}
    {p : List α} (hy : y ∈ s) (hp : List.IsChain (fun a b => b ∈ nbrs a) (y :: p))
    (hl : (y :: p).getLast? = some x) (hlen : p.length ≤ n) : x ∈ closure nbrs n s := by
  induction n generalizing s y p with
  | zero =>
    have : p = [] := List.length_eq_zero_iff.1 (Nat.le_zero.1 hlen)
    subst this
    simp at hl; subst hl; exact hy
  | succ n ih =>
    cases p with
    | nil =>
      refine ih (p := []) (y := y) ?_ (by simp) hl (Nat.zero_le _)
      exact List.mem_dedup.2 (mem_expand.2 (Or.inl hy))
    | cons c p =>
      rw [List.isChain_cons_cons] at hp
      refine ih (y := c) (p := p) ?_ hp.2 ?_ (by simpa using hlen)
      · exact List.mem_dedup.2 (mem_expand.2 (Or.inr ⟨y, hy, hp.1⟩))
      · simpa [List.getLast?_cons_cons] using hl

theorem mem_children {g : Graph} {u v : Node} : v ∈ g.children u ↔ g.Edge u v := by
  unfold children Edge
  simp only [List.mem_map, List.mem_filter, beq_iff_eq, Prod.exists, exists_eq_right]

theorem mem_parents {g : Graph} {u v : Node} : u ∈ g.parents v ↔ g.Edge u v := by
  unfold parents Edge
  simp only [List.mem_map, List.mem_filter, beq_iff_eq, Prod.exists, exists_and_right, exists_eq_right]

theorem nodup_children {g : Graph} (h : g.edges.Nodup) (u : Node) : (g.children u).Nodup := by
  unfold children
  refine List.Nodup.map_on ?_ (h.filter _)
  rintro ⟨a, b⟩ ha ⟨c, d⟩ hc hbd
  simp at ha hc hbd
  simp [ha.2, hc.2, hbd]

theorem nodup_parents {g : Graph} (h : g.edges.Nodup) (u : Node) : (g.parents u).Nodup := by
  unfold parents
  refine List.Nodup.map_on ?_ (h.filter _)
  rintro ⟨a, b⟩ ha ⟨c, d⟩ hc hbd
  simp at ha hc hbd
  simp [ha.2, hc.2, hbd]

theorem reach_bounded {α : Type} [DecidableEq α] {R : α → α → Prop} {nodes : List α}
    (hc : ∀ a b, R a b → a ∈ nodes ∧ b ∈ nodes) {a b : α} (h : ReflTransGen R a b) :
    ∃ p, List.IsChain R (a :: p) ∧ (a :: p).getLast? = some b ∧ (a :: p).Nodup ∧
      p.length ≤ nodes.length := by
  obtain ⟨p, hp, hl, hn⟩ := exists_nodup_chain h
  refine ⟨p, hp, hl, hn, ?_⟩
  refine length_le_of_nodup_subset (List.nodup_cons.1 hn).2 ?_
  intro x hx
  clear hl h hn
  induction p generalizing a with
  | nil => simp at hx
  | cons c p ih =>
    rw [List.isChain_cons_cons] at hp
    rcases List.mem_cons.1 hx with rfl | hx
    · exact (hc _ _ hp.1).2
    · exact ih hp.2 hx

theorem mem_closure_children {g : Graph} (hw : g.WF) {s : List Node} {x : Node} :
    x ∈ closure g.children g.nodes.length s ↔ ∃ y ∈ s, g.DescEq y x := by
  constructor
  · intro h
    obtain ⟨y, hy, hr⟩ := closure_sound h
    exact ⟨y, hy, ReflTransGen.mono (fun a b hab => mem_children.1 hab) _ _ hr⟩
  · rintro ⟨y, hy, hr⟩
    obtain ⟨p, hp, hl, _, hlen⟩ := reach_bounded (nodes := g.nodes) (R := g.Edge) hw.edgeNodes hr
    exact closure_complete hy (hp.imp (fun a b hab => mem_children.2 hab)) hl hlen

theorem mem_closure_parents {g : Graph} (hw : g.WF) {s : List Node} {x : Node} :
    x ∈ closure g.parents g.nodes.length s ↔ ∃ y ∈ s, g.DescEq x y := by
  constructor
  · intro h
    obtain ⟨y, hy, hr⟩ := closure_sound h
    refine ⟨y, hy, ?_⟩
    have := hr.swap
    exact ReflTransGen.mono (fun a b hab => mem_parents.1 hab) _ _ this
  · rintro ⟨y, hy, hr⟩
    have hr' := hr.swap
    obtain ⟨p, hp, hl, _, hlen⟩ := reach_bounded (nodes := g.nodes) (R := Function.swap g.Edge)
      (fun a b hab => ⟨(hw.edgeNodes _ _ hab).2, (hw.edgeNodes _ _ hab).1⟩) hr'
    exact closure_complete hy (hp.imp (fun a b hab => mem_parents.2 hab)) hl hlen

theorem hasPath_iff {g : Graph} (hw : g.WF) {u v : Node} :
    g.hasPath u v = true ↔ g.DescEq u v := by
  simp [hasPath, mem_closure_children hw]

theorem mem_ancestorsOf {g : Graph} (hw : g.WF) {s : List Node} {x : Node} :
    x ∈ g.ancestorsOf s ↔ ∃ z ∈ s, g.DescEq x z := mem_closure_parents hw

theorem desc_iff {g : Graph} (hw : g.WF) {u v : Node} : g.Desc u v ↔ g.DescEq u v ∧ v ≠ u := by
  constructor
  · intro h
    refine ⟨h.to_reflTransGen, ?_⟩
    rintro rfl
    exact hw.acyclic _ h
  · rintro ⟨h, hne⟩
    rcases reflTransGen_iff_eq_or_transGen.1 h with h | h
    · exact absurd h hne
    · exact h

theorem mem_descendants {g : Graph} (hw : g.WF) {u v : Node} :
    v ∈ g.descendants u ↔ g.Desc u v := by
  rw [desc_iff hw]
  simp [descendants, mem_closure_children hw]

theorem mem_ancestors {g : Graph} (hw : g.WF) {u v : Node} :
    v ∈ g.ancestors u ↔ g.Desc v u := by
  rw [desc_iff hw]
  simp only [ancestors, List.mem_filter, mem_closure_parents hw, List.mem_singleton, exists_eq_left,
    decide_eq_true_eq]
  constructor
  · rintro ⟨h, hn⟩; exact ⟨h, fun e => hn e.symm⟩
  · rintro ⟨h, hn⟩; exact ⟨h, fun e => hn e.symm⟩

theorem descEq_mem {g : Graph} (hw : g.WF) {u v : Node} (h : g.DescEq u v) (hu : u ∈ g.nodes) :
    v ∈ g.nodes := by
  rcases reflTransGen_iff_eq_or_transGen.1 h with rfl | h
  · exact hu
  · cases h with
    | single h => exact (hw.edgeNodes _ _ h).2
    | tail _ h => exact (hw.edgeNodes _ _ h).2

theorem desc_mem {g : Graph} (hw : g.WF) {u v : Node} (h : g.Desc u v) :
    u ∈ g.nodes ∧ v ∈ g.nodes := by
  constructor
  · rcases TransGen.head'_iff.1 h with ⟨c, hc, _⟩
    exact (hw.edgeNodes _ _ hc).1
  · rcases TransGen.tail'_iff.1 h with ⟨c, _, hc⟩
    exact (hw.edgeNodes _ _ hc).2

/-! ### Preservation of well-formedness -/

theorem wf_empty : empty.WF :=
  ⟨by simp [empty], by simp [empty], by simp [empty, Edge], by
    intro v h
    rcases TransGen.head'_iff.1 h with ⟨c, hc, _⟩
    simp [empty, Edge] at hc⟩

theorem addNode_nodes {g : Graph} {v x : Node} : x ∈ (g.addNode v).nodes ↔ x ∈ g.nodes ∨ x = v := by
  unfold addNode
  split
  · constructor
    · exact Or.inl
    · rintro (h | rfl) <;> assumption
  · simp

theorem addNode_edges {g : Graph} {v : Node} : (g.addNode v).edges = g.edges := by
  unfold addNode; split <;> rfl

theorem addNode_edge {g : Graph} {v : Node} : (g.addNode v).Edge = g.Edge := by
  funext a b; simp [Edge, addNode_edges]

theorem wf_addNode {g : Graph} (hw : g.WF) (v : Node) : (g.addNode v).WF := by
  refine ⟨?_, ?_, ?_, ?_⟩
  · unfold addNode
    split
    · exact hw.nodesNodup
    · rename_i h
      exact List.nodup_append.2 ⟨hw.nodesNodup, by simp, by
        intro a ha b hb; simp at hb; subst hb; rintro rfl; exact h ha⟩
  · rw [addNode_edges]; exact hw.edgesNodup
  · intro a b hab
    rw [addNode_edge] at hab
    have := hw.edgeNodes a b hab
    exact ⟨addNode_nodes.2 (Or.inl this.1), addNode_nodes.2 (Or.inl this.2)⟩
  · intro x hx
    unfold Desc at hx
    rw [addNode_edge] at hx
    exact hw.acyclic x hx

theorem nxAddEdge_edge {g : Graph} {u v a b : Node} :
    (g.nxAddEdge u v).Edge a b ↔ g.Edge a b ∨ (a = u ∧ b = v) := by
  unfold nxAddEdge
  simp only
  split
  · rename_i h
    simp only [Edge, addNode_edges] at h ⊢
    constructor
    · exact Or.inl
    · rintro (h' | ⟨rfl, rfl⟩) <;> assumption
  · simp [Edge, addNode_edges]

theorem nxAddEdge_nodes {g : Graph} {u v x : Node} :
    x ∈ (g.nxAddEdge u v).nodes ↔ x ∈ g.nodes ∨ x = u ∨ x = v := by
  unfold nxAddEdge
  simp only
  split <;> simp [addNode_nodes, or_assoc]

/-- Reachability after adding one edge. -/
theorem reach_addEdge {R S : Node → Node → Prop} {u v : Node}
    (hS : ∀ a b, S a b → R a b ∨ (a = u ∧ b = v)) {a b : Node} (h : TransGen S a b) :
    TransGen R a b ∨ (ReflTransGen R a u ∧ ReflTransGen R v b) := by
  induction h with
  | single h =>
    rcases hS _ _ h with h | ⟨rfl, rfl⟩
    · exact Or.inl (TransGen.single h)
    · exact Or.inr ⟨ReflTransGen.refl, ReflTransGen.refl⟩
  | tail _ h ih =>
    rcases hS _ _ h with h | ⟨rfl, rfl⟩
    · rcases ih with ih | ⟨i1, i2⟩
      · exact Or.inl (TransGen.tail ih h)
      · exact Or.inr ⟨i1, ReflTransGen.tail i2 h⟩
    · rcases ih with ih | ⟨i1, i2⟩
      · exact Or.inr ⟨ih.to_reflTransGen, ReflTransGen.refl⟩
      · exact Or.inr ⟨i1, ReflTransGen.refl⟩

theorem wf_nxAddEdge {g : Graph} (hw : g.WF) {u v : Node} (huv : ¬ g.DescEq v u) :
    (g.nxAddEdge u v).WF := by
  have h2 := wf_addNode (wf_addNode hw u) v
  refine ⟨?_, ?_, ?_, ?_⟩
  · unfold nxAddEdge; simp only; split <;> exact h2.nodesNodup
  · unfold nxAddEdge; simp only; split
    · exact h2.edgesNodup
    · rename_i h
      exact List.nodup_append.2 ⟨h2.edgesNodup, by simp, by
        intro a ha b hb; simp at hb; subst hb; rintro rfl; exact h ha⟩
  · intro a b hab
    rw [nxAddEdge_nodes, nxAddEdge_nodes]
    rcases nxAddEdge_edge.1 hab with h | ⟨rfl, rfl⟩
    · have := hw.edgeNodes a b h
      exact ⟨Or.inl this.1, Or.inl this.2⟩
    · simp
  · intro x hx
    rcases reach_addEdge (R := g.Edge) (fun a b h => nxAddEdge_edge.1 h) hx with h | ⟨h1, h2⟩
    · exact hw.acyclic x h
    · exact huv (ReflTransGen.trans h2 h1)

theorem wf_addEdge {g g' : Graph} (hw : g.WF) {u v : Node} (h : g.addEdge u v = .ok g') : g'.WF := by
  unfold addEdge at h
  split at h
  · cases h
  · rename_i huv
    split at h
    · cases h
    · rename_i hp
      cases h
      refine wf_nxAddEdge hw ?_
      intro hd
      apply hp
      have hd' : g.Desc v u := (desc_iff hw).2 ⟨hd, huv⟩
      have := desc_mem hw hd'
      exact ⟨this.2, this.1, (hasPath_iff hw).2 hd⟩

theorem wf_addEdges {g g' : Graph} (hw : g.WF) {es : List (Node × Node)}
    (h : g.addEdges es = .ok g') : g'.WF := by
  induction es generalizing g with
  | nil => cases h; exact hw
  | cons e es ih =>
    obtain ⟨u, v⟩ := e
    unfold addEdges at h
    split at h
    · cases h
    · rename_i g1 h1
      exact ih (wf_addEdge hw h1) h

theorem wf_addNodes {g : Graph} (hw : g.WF) (vs : List Node) : (g.addNodes vs).WF := by
  unfold addNodes
  induction vs generalizing g with
  | nil => exact hw
  | cons v vs ih => exact ih (wf_addNode hw v)

theorem wf_sub {g g' : Graph} (hw : g.WF) (hn : g'.nodes.Nodup) (he : g'.edges.Nodup)
    (hsub : ∀ a b, g'.Edge a b → g.Edge a b)
    (hnodes : ∀ a b, g'.Edge a b → a ∈ g'.nodes ∧ b ∈ g'.nodes) : g'.WF :=
  ⟨hn, he, hnodes, fun x hx => hw.acyclic x (TransGen.mono (fun a b h => hsub a b h) _ _ hx)⟩

theorem wf_removeEdge {g g' : Graph} (hw : g.WF) {u v : Node} (h : g.removeEdge u v = .ok g') :
    g'.WF := by
  unfold removeEdge at h
  split at h
  · cases h
    refine wf_sub hw hw.nodesNodup (hw.edgesNodup.filter _) ?_ ?_
    · intro a b hab; simp [Edge] at hab ⊢; exact hab.1
    · intro a b hab; simp [Edge] at hab; exact hw.edgeNodes a b hab.1
  · cases h

theorem wf_removeNode {g g' : Graph} (hw : g.WF) {v : Node} (h : g.removeNode v = .ok g') :
    g'.WF := by
  unfold removeNode at h
  split at h
  · cases h
    refine wf_sub hw (hw.nodesNodup.filter _) (hw.edgesNodup.filter _) ?_ ?_
    · intro a b hab; simp [Edge] at hab ⊢; exact hab.1
    · intro a b hab
      simp [Edge] at hab
      have := hw.edgeNodes a b hab.1
      simp [this.1, this.2, hab.2.1, hab.2.2]
  · cases h

end Graph
end Verif

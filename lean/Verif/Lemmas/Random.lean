import Verif.Spec.Random
import Verif.Lemmas.Graph
import Mathlib.Tactic.Linarith
import Mathlib.Data.List.Perm.Basic
import Mathlib.Algebra.BigOperators.Group.List.Basic
import Mathlib.Algebra.Order.BigOperators.Group.List

/-!
# Random graphs: invariants
-/

namespace Verif

open Relation

theorem toString_inj {i j : Nat} (h : toString i = toString j) : i = j := by
  have h2 : Nat.toDigits 10 i = Nat.toDigits 10 j := by
    have := congrArg String.toList h
    simpa only [Nat.toString_eq_repr, Nat.toList_repr] using this
  rw [← Nat.ofDigitChars_ten_toDigits (n := i), h2, Nat.ofDigitChars_ten_toDigits]

theorem append_left_cancel {p a b : String} (h : p ++ a = p ++ b) : a = b := by
  have := congrArg String.toList h
  simp only [String.toList_append, List.append_cancel_left_eq] at this
  exact String.ext this

theorem choice_ok {α : Type} {l : List α} {r : Nat} {x : α} (h : choice l r = .ok x) : l[r % l.length]? = some x := by
  unfold choice at h
  split at h
  · cases h; assumption
  · cases h

theorem choice_of_ne {α : Type} {l : List α} (h : l ≠ []) (r : Nat) : ∃ x, choice l r = .ok x ∧ x ∈ l := by
  have hl : r % l.length < l.length := Nat.mod_lt _ (List.length_pos_iff.2 h)
  refine ⟨l[r % l.length], ?_, List.getElem_mem _⟩
  unfold choice
  rw [List.getElem?_eq_getElem hl]

theorem choice_reach {α : Type} {l : List α} {x : α} (h : x ∈ l) : ∃ r, choice l r = .ok x := by
  obtain ⟨i, hi, e⟩ := List.getElem_of_mem h
  refine ⟨i, ?_⟩
  unfold choice
  rw [Nat.mod_eq_of_lt hi, List.getElem?_eq_getElem hi, e]

theorem sample_ok {α : Type} : ∀ {k : Nat} {l : List α} {ω : Draws} {xs : List α} {ω' : Draws}, sample k l ω = some (.ok (xs, ω')) →
    xs.length = k ∧ ∃ rest, (xs ++ rest).Perm l
  | 0, l, ω, xs, ω', h => by
    simp only [sample, Option.some.injEq, Except.ok.injEq, Prod.mk.injEq] at h
    obtain ⟨rfl, rfl⟩ := h
    exact ⟨rfl, l, .refl _⟩
  | k + 1, l, ω, xs, ω', h => by
    unfold sample at h
    split at h
    · simp at h
    split at h
    · simp at h
    rename_i r ω1
    split at h
    · simp at h
    rename_i x hx
    split at h
    · simp at h
    · simp at h
    · rename_i ys ω2 hs
      simp only [Option.some.injEq, Except.ok.injEq, Prod.mk.injEq] at h
      obtain ⟨rfl, rfl⟩ := h
      obtain ⟨h1, rest, h2⟩ := sample_ok hs
      refine ⟨by simp [h1], rest, ?_⟩
      have hi := choice_ok hx
      rw [List.getElem?_eq_some_iff] at hi
      obtain ⟨hlt, e⟩ := hi
      have := List.getElem_cons_eraseIdx_perm hlt
      rw [e] at this
      exact (List.Perm.cons x h2).trans this

theorem sample_no_error {α : Type} : ∀ {k : Nat} {l : List α} {ω : Draws} {e : Err}, k ≤ l.length → sample k l ω ≠ some (.error e)
  | 0, l, ω, e, _ => by simp [sample]
  | k + 1, l, ω, e, hk => by
    intro h
    unfold sample at h
    rw [if_neg (by omega)] at h
    split at h
    · simp at h
    rename_i r ω1
    obtain ⟨x, hx, _⟩ := choice_of_ne (l := l) (by rintro rfl; simp at hk) r
    rw [hx] at h
    simp only at h
    split at h
    · simp at h
    · rename_i e' hs
      have hlt : r % l.length < l.length := Nat.mod_lt _ (by omega)
      exact sample_no_error (by rw [List.length_eraseIdx_of_lt hlt]; omega) hs
    · simp at h

namespace Random

theorem nodeName_inj {i j : Nat} (h : nodeName i = nodeName j) : i = j := toString_inj (append_left_cancel h)

theorem nodup_names (n : Nat) : (nodeNames n).Nodup := List.Nodup.map (fun _ _ h => nodeName_inj h) List.nodup_range

theorem mem_names {n : Nat} {v : Node} : v ∈ nodeNames n ↔ ∃ i < n, v = nodeName i := by
  unfold nodeNames
  rw [List.mem_map]
  constructor
  · rintro ⟨i, hi, rfl⟩
    exact ⟨i, List.mem_range.1 hi, rfl⟩
  · rintro ⟨i, hi, rfl⟩
    exact ⟨i, List.mem_range.2 hi, rfl⟩

theorem length_names (n : Nat) : (nodeNames n).length = n := by simp [nodeNames]

theorem idxOf_name {n i : Nat} (h : i < n) : (nodeNames n).idxOf (nodeName i) = i := by
  have hi : i < (nodeNames n).length := by rw [length_names]; exact h
  have e : (nodeNames n)[i] = nodeName i := by simp [nodeNames]
  rw [← e, (nodup_names n).idxOf_getElem]

/-- all edges lead from a lower to a higher number -/
def Ordered (n : Nat) (g : Graph) : Prop := ∀ u v, g.Edge u v → ∃ i j, i < j ∧ j < n ∧ u = nodeName i ∧ v = nodeName j

theorem ordered_descEq {n : Nat} {g : Graph} (h : Ordered n g) {i : Nat} {v : Node} (hd : g.DescEq (nodeName i) v) :
    ∃ j, i ≤ j ∧ v = nodeName j := by
  induction hd with
  | refl => exact ⟨i, le_refl _, rfl⟩
  | tail _ he ih =>
    obtain ⟨j, hj, rfl⟩ := ih
    obtain ⟨a, b, hab, _, e1, rfl⟩ := h _ _ he
    have := nodeName_inj e1
    exact ⟨b, by omega, rfl⟩

theorem wf_add {n : Nat} {g : Graph} (hw : g.WF) (ho : Ordered n g) {i j : Nat} (hij : i < j) (hj : j < n) :
    (g.nxAddEdge (nodeName i) (nodeName j)).WF ∧ Ordered n (g.nxAddEdge (nodeName i) (nodeName j)) := by
  refine ⟨Graph.wf_nxAddEdge hw ?_, ?_⟩
  · intro hd
    obtain ⟨k, hk, e⟩ := ordered_descEq ho hd
    have := nodeName_inj e
    omega
  · intro u v he
    rcases Graph.nxAddEdge_edge.1 he with he | ⟨rfl, rfl⟩
    · exact ho u v he
    · exact ⟨i, j, hij, hj, rfl, rfl⟩

theorem nxAddEdge_edges {g : Graph} {u v : Node} :
    (g.nxAddEdge u v).edges = if (u, v) ∈ g.edges then g.edges else g.edges ++ [(u, v)] := by
  unfold Graph.nxAddEdge
  simp only [Graph.addNode_edges]
  split <;> simp [Graph.addNode_edges]

theorem inDegree_add {g : Graph} {u v w : Node} :
    inDegree (g.nxAddEdge u v) w = if w = v ∧ (u, v) ∉ g.edges then inDegree g w + 1 else inDegree g w := by
  unfold inDegree Graph.parents
  rw [nxAddEdge_edges]
  by_cases h : (u, v) ∈ g.edges
  · simp [h]
  · simp only [h, if_false, not_false_eq_true, and_true, List.filter_append, List.map_append, List.length_append]
    by_cases hw : w = v
    · subst hw; simp
    · have : (v == w) = false := by simpa using fun e : v = w => hw e.symm
      simp [hw, this]

/-- the number of edges is the sum of the in-degrees -/
theorem edges_eq_sum {names : List Node} (hn : names.Nodup) {g : Graph} (he : ∀ u v, g.Edge u v → v ∈ names) :
    g.edges.length = (names.map (inDegree g)).sum := by
  unfold Graph.Edge at he
  unfold inDegree Graph.parents
  simp only [List.length_map]
  generalize g.edges = es at he
  induction es with
  | nil => simp
  | cons e es ih =>
    obtain ⟨u, v⟩ := e
    have hv := he u v (by simp)
    have ih' := ih (fun a b h => he a b (by simp [h]))
    have key : ∀ names : List Node, names.Nodup → (names.map (fun w => (((u, v) :: es).filter (fun e => e.2 == w)).length)).sum =
        (names.map (fun w => (es.filter (fun e => e.2 == w)).length)).sum + (if v ∈ names then 1 else 0) := by
      intro names hn
      induction names with
      | nil => simp
      | cons w ws ihw =>
        obtain ⟨h1, h2⟩ := List.nodup_cons.1 hn
        simp only [List.map_cons, List.sum_cons]
        rw [ihw h2]
        by_cases hvw : v = w
        · subst hvw
          simp [h1]
          omega
        · have : (v == w) = false := by simpa using hvw
          simp [this, hvw]
          omega
    rw [key names hn, ← ih', if_pos hv]
    simp

/-- a node has fewer parents than its number says -/
theorem inDegree_le {n : Nat} {g : Graph} (hw : g.WF) (ho : Ordered n g) {j : Nat} : inDegree g (nodeName j) ≤ j := by
  have hn := Graph.nodup_parents hw.edgesNodup (nodeName j)
  have hs : g.parents (nodeName j) ⊆ (List.range j).map nodeName := by
    intro u hu
    obtain ⟨a, b, hab, _, rfl, e⟩ := ho _ _ (Graph.mem_parents.1 hu)
    have := nodeName_inj e
    exact List.mem_map.2 ⟨a, List.mem_range.2 (by omega), rfl⟩
  have := length_le_of_nodup_subset hn hs
  simpa [inDegree] using this

/-- the invariant of the first loop -/
structure Conn (n : Nat) (maxIn : Int) (g : Graph) (visited unvisited : List Node) : Prop where
  wf : g.WF
  ordered : Ordered n g
  perm : (visited ++ unvisited).Perm (nodeNames n)
  nodes : ∀ v, v ∈ g.nodes ↔ v ∈ visited
  joined : ∀ u ∈ g.nodes, ∀ v ∈ g.nodes, ReflTransGen g.Adj u v
  count : g.edges.length + 1 = visited.length
  deg : ∀ v, (inDegree g v : Int) ≤ max maxIn 1

theorem adj_symm {g : Graph} {u v : Node} (h : g.Adj u v) : g.Adj v u := h.symm

theorem conn_symm {g : Graph} {u v : Node} (h : ReflTransGen g.Adj u v) : ReflTransGen g.Adj v u := by
  induction h with
  | refl => exact .refl
  | tail _ h ih => exact .head (adj_symm h) ih

theorem joined_add {g g' : Graph} {u v x y : Node} (hj : ∀ u ∈ g.nodes, ∀ v ∈ g.nodes, ReflTransGen g.Adj u v) (hx : x ∈ g.nodes)
    (he : ∀ a b, g.Edge a b → g'.Edge a b) (hxy : g'.Adj x y) (hu : u ∈ g.nodes ∨ u = y) (hv : v ∈ g.nodes ∨ v = y) :
    ReflTransGen g'.Adj u v := by
  have mono : ∀ {a b}, ReflTransGen g.Adj a b → ReflTransGen g'.Adj a b :=
    fun h => ReflTransGen.mono (fun a b h => h.imp (he a b) (he b a)) _ _ h
  have toX : ∀ {w}, (w ∈ g.nodes ∨ w = y) → ReflTransGen g'.Adj w x := by
    rintro w (hw | rfl)
    · exact mono (hj w hw x hx)
    · exact .single (adj_symm hxy)
  exact (toX hu).trans (conn_symm (toX hv))

theorem Conn.step {n : Nat} {maxIn : Int} {g g' : Graph} {visited unvisited : List Node} (h : Conn n maxIn g visited unvisited)
    {node nb : Node} (hn : node ∈ unvisited) (hb : nb ∈ visited) (hs : connectStep (nodeNames n) maxIn g node nb = some g') :
    Conn n maxIn g' (visited ++ [node]) (unvisited.erase node) := by
  have hnd : (visited ++ unvisited).Nodup := h.perm.nodup_iff.2 (nodup_names n)
  have hnv : node ∉ visited := fun hv => (List.nodup_append.1 hnd).2.2 node hv node hn rfl
  have hng : node ∉ g.nodes := fun hg => hnv ((h.nodes node).1 hg)
  obtain ⟨i, hi, rfl⟩ := mem_names.1 (h.perm.mem_iff.1 (List.mem_append_right _ hn))
  obtain ⟨j, hj, rfl⟩ := mem_names.1 (h.perm.mem_iff.1 (List.mem_append_left _ hb))
  have hperm : (visited ++ [nodeName i] ++ unvisited.erase (nodeName i)).Perm (nodeNames n) := by
    rw [List.append_assoc]
    exact (List.Perm.append_left _ (List.perm_cons_erase hn).symm).trans h.perm
  have noin : ∀ u, (u, nodeName i) ∉ g.edges := fun u he => hng (h.wf.edgeNodes _ _ he).2
  have noout : ∀ u, (nodeName i, u) ∉ g.edges := fun u he => hng (h.wf.edgeNodes _ _ he).1
  have hz : inDegree g (nodeName i) = 0 := by
    unfold inDegree
    rw [List.length_eq_zero_iff, List.eq_nil_iff_forall_not_mem]
    intro u hu
    exact noin u (Graph.mem_parents.1 hu)
  unfold connectStep at hs
  rw [idxOf_name hi, idxOf_name hj] at hs
  split at hs
  · rename_i hc
    cases hs
    obtain ⟨w1, w2⟩ := wf_add h.wf h.ordered hc.1 hj
    refine ⟨w1, w2, hperm, ?_, ?_, ?_, ?_⟩
    · intro v
      rw [Graph.nxAddEdge_nodes, h.nodes, List.mem_append, List.mem_singleton]
      constructor
      · rintro (h | h | rfl)
        · exact Or.inl h
        · exact Or.inr h
        · exact Or.inl hb
      · rintro (h | h)
        · exact Or.inl h
        · exact Or.inr (Or.inl h)
    · intro u hu v hv
      rw [Graph.nxAddEdge_nodes] at hu hv
      have fix : ∀ {w}, (w ∈ g.nodes ∨ w = nodeName i ∨ w = nodeName j) → (w ∈ g.nodes ∨ w = nodeName i) := by
        rintro w (h1 | h1 | rfl)
        · exact Or.inl h1
        · exact Or.inr h1
        · exact Or.inl ((h.nodes _).2 hb)
      exact joined_add h.joined ((h.nodes _).2 hb) (fun a b he => Graph.nxAddEdge_edge.2 (Or.inl he))
        (Or.inr (Graph.nxAddEdge_edge.2 (Or.inr ⟨rfl, rfl⟩))) (fix hu) (fix hv)
    · rw [nxAddEdge_edges, if_neg (noout _)]
      have := h.count
      simp
      omega
    · intro v
      rw [inDegree_add]
      split
      · rename_i hv
        rw [hv.1]
        have := hc.2
        push_cast
        omega
      · exact h.deg v
  · split at hs
    · rename_i hc
      cases hs
      obtain ⟨w1, w2⟩ := wf_add h.wf h.ordered hc hi
      refine ⟨w1, w2, hperm, ?_, ?_, ?_, ?_⟩
      · intro v
        rw [Graph.nxAddEdge_nodes, h.nodes, List.mem_append, List.mem_singleton]
        constructor
        · rintro (h | rfl | h)
          · exact Or.inl h
          · exact Or.inl hb
          · exact Or.inr h
        · rintro (h | h)
          · exact Or.inl h
          · exact Or.inr (Or.inr h)
      · intro u hu v hv
        rw [Graph.nxAddEdge_nodes] at hu hv
        have fix : ∀ {w}, (w ∈ g.nodes ∨ w = nodeName j ∨ w = nodeName i) → (w ∈ g.nodes ∨ w = nodeName i) := by
          rintro w (h1 | rfl | h1)
          · exact Or.inl h1
          · exact Or.inl ((h.nodes _).2 hb)
          · exact Or.inr h1
        exact joined_add h.joined ((h.nodes _).2 hb) (fun a b he => Graph.nxAddEdge_edge.2 (Or.inl he))
          (Or.inl (Graph.nxAddEdge_edge.2 (Or.inr ⟨rfl, rfl⟩))) (fix hu) (fix hv)
      · rw [nxAddEdge_edges, if_neg (noin _)]
        have := h.count
        simp
        omega
      · intro v
        rw [inDegree_add]
        split
        · rename_i hv
          rw [hv.1, hz]
          simp
        · exact h.deg v
    · cases hs

theorem connect_ok {n : Nat} {maxIn : Int} : ∀ {ω : Draws} {g : Graph} {visited unvisited : List Node} {g' : Graph} {ω' : Draws},
    Conn n maxIn g visited unvisited → connect (nodeNames n) maxIn ω g visited unvisited = some (.ok (g', ω')) →
    ∃ vis, Conn n maxIn g' vis []
  | ω, g, visited, [], g', ω', hc, h => by
    unfold connect at h
    simp only [Option.some.injEq, Except.ok.injEq, Prod.mk.injEq] at h
    exact ⟨visited, h.1 ▸ hc⟩
  | [], g, visited, x :: xs, g', ω', hc, h => by simp [connect] at h
  | [r], g, visited, x :: xs, g', ω', hc, h => by simp [connect] at h
  | r :: s :: ω, g, visited, x :: xs, g', ω', hc, h => by
    unfold connect at h
    split at h
    · simp at h
    · simp at h
    rename_i node nb h1 h2
    split at h
    · exact connect_ok hc h
    · rename_i g1 hs
      exact connect_ok (hc.step (List.mem_of_getElem? (choice_ok h1)) (List.mem_of_getElem? (choice_ok h2)) hs) h

theorem Conn.start {n : Nat} {maxIn : Int} {node : Node} (h : node ∈ nodeNames n) :
    Conn n maxIn (Graph.empty.addNode node) [node] ((nodeNames n).erase node) := by
  have hw := Graph.wf_addNode Graph.wf_empty node
  have hnode : ∀ v, v ∈ (Graph.empty.addNode node).nodes ↔ v = node := by
    intro v
    rw [Graph.addNode_nodes]
    simp [Graph.empty]
  refine ⟨hw, ?_, (List.perm_cons_erase h).symm, ?_, ?_, ?_, ?_⟩
  · intro u v he
    simp [Graph.Edge, Graph.addNode_edges, Graph.empty] at he
  · intro v
    rw [hnode, List.mem_singleton]
  · intro u hu v hv
    rw [hnode] at hu hv
    rw [hu, hv]
  · simp [Graph.addNode_edges, Graph.empty]
  · intro v
    simp [inDegree, Graph.parents, Graph.addNode_edges, Graph.empty]

/-- the invariant of the second loop -/
structure Filling (n : Nat) (bound : Int) (g : Graph) : Prop where
  wf : g.WF
  ordered : Ordered n g
  nodes : g.nodes.Perm (nodeNames n)
  joined : ∀ u ∈ g.nodes, ∀ v ∈ g.nodes, ReflTransGen g.Adj u v
  deg : ∀ v, (inDegree g v : Int) ≤ bound

theorem Conn.filling {n : Nat} {maxIn : Int} {g : Graph} {vis : List Node} (h : Conn n maxIn g vis []) :
    Filling n (max (max maxIn 4) 1) g ∧ g.edges.length + 1 = n := by
  have hp : vis.Perm (nodeNames n) := by simpa using h.perm
  refine ⟨⟨h.wf, h.ordered, ?_, h.joined, fun v => ?_⟩, ?_⟩
  · exact ((List.perm_ext_iff_of_nodup h.wf.nodesNodup (hp.nodup_iff.2 (nodup_names n))).2 h.nodes).trans hp
  · have := h.deg v
    omega
  · rw [h.count, hp.length_eq, length_names]

/-- adding an edge between two nodes -/
theorem Filling.add {n : Nat} {bound : Int} {g : Graph} (h : Filling n bound g) {i j : Nat} (hij : i < j) (hj : j < n)
    (hd : (inDegree g (nodeName j) : Int) < bound) : Filling n bound (g.nxAddEdge (nodeName i) (nodeName j)) := by
  obtain ⟨w1, w2⟩ := wf_add h.wf h.ordered hij hj
  have hmem : ∀ k, k < n → nodeName k ∈ g.nodes := fun k hk => h.nodes.mem_iff.2 (mem_names.2 ⟨k, hk, rfl⟩)
  have hn : ∀ v, v ∈ (g.nxAddEdge (nodeName i) (nodeName j)).nodes ↔ v ∈ g.nodes := by
    intro v
    rw [Graph.nxAddEdge_nodes]
    constructor
    · rintro (h | rfl | rfl)
      · exact h
      · exact hmem i (by omega)
      · exact hmem j hj
    · exact Or.inl
  refine ⟨w1, w2, ((List.perm_ext_iff_of_nodup w1.nodesNodup h.wf.nodesNodup).2 hn).trans h.nodes, ?_, ?_⟩
  · intro u hu v hv
    rw [hn] at hu hv
    exact ReflTransGen.mono (fun a b h => h.imp (fun h => Graph.nxAddEdge_edge.2 (Or.inl h)) (fun h => Graph.nxAddEdge_edge.2 (Or.inl h)))
      _ _ (h.joined u hu v hv)
  · intro v
    rw [inDegree_add]
    split
    · rename_i hv
      rw [hv.1]
      push_cast
      omega
    · exact h.deg v

theorem Filling.step {n : Nat} {bound : Int} (hb : 4 ≤ bound) {g : Graph} (h : Filling n bound g) {n1 n2 : Node} (h1 : n1 ∈ nodeNames n)
    (h2 : n2 ∈ nodeNames n) : Filling n bound (addRandomEdge (nodeNames n) 4 g n1 n2) ∧
      (addRandomEdge (nodeNames n) 4 g n1 n2).edges.length ≤ g.edges.length + 1 := by
  obtain ⟨i, hi, rfl⟩ := mem_names.1 h1
  obtain ⟨j, hj, rfl⟩ := mem_names.1 h2
  have hle : ∀ u v, (g.nxAddEdge u v).edges.length ≤ g.edges.length + 1 := by
    intro u v
    rw [nxAddEdge_edges]
    split <;> simp
  unfold addRandomEdge
  rw [idxOf_name hi, idxOf_name hj]
  split
  · rename_i hc
    exact ⟨h.add hc.1 hj (by omega), hle _ _⟩
  · split
    · rename_i hc
      exact ⟨h.add hc.1 hi (by omega), hle _ _⟩
    · exact ⟨h, by omega⟩

theorem sample_two {l : List Node} {ω ω' : Draws} {n1 n2 : Node} (h : sample 2 l ω = some (.ok ([n1, n2], ω'))) : n1 ∈ l ∧ n2 ∈ l := by
  obtain ⟨_, rest, hp⟩ := sample_ok h
  exact ⟨hp.mem_iff.1 (by simp), hp.mem_iff.1 (by simp)⟩

theorem fill_ok {n : Nat} {bound : Int} (hb : 4 ≤ bound) {target : Nat} : ∀ {ω : Draws} {g g' : Graph} {ω' : Draws},
    Filling n bound g → fill (nodeNames n) target ω g = some (.ok (g', ω')) →
    Filling n bound g' ∧ g'.edges.length = max g.edges.length target
  | [], g, g', ω', hf, h => by
    unfold fill at h
    split at h
    · simp at h
    · simp only [Option.some.injEq, Except.ok.injEq, Prod.mk.injEq] at h
      rw [← h.1]
      exact ⟨hf, by omega⟩
  | [r], g, g', ω', hf, h => by
    unfold fill at h
    split at h
    · simp at h
    · simp only [Option.some.injEq, Except.ok.injEq, Prod.mk.injEq] at h
      rw [← h.1]
      exact ⟨hf, by omega⟩
  | r :: s :: ω, g, g', ω', hf, h => by
    unfold fill at h
    split at h
    · rename_i hlt
      split at h
      · rename_i n1 n2 _ hs
        obtain ⟨m1, m2⟩ := sample_two hs
        obtain ⟨k1, k2⟩ := hf.step hb m1 m2
        obtain ⟨k3, k4⟩ := fill_ok hb k1 h
        have k5 : g.edges.length ≤ (addRandomEdge (nodeNames n) 4 g n1 n2).edges.length := by
          have hle : ∀ u v, g.edges.length ≤ (g.nxAddEdge u v).edges.length := by
            intro u v
            rw [nxAddEdge_edges]
            split <;> simp
          unfold addRandomEdge
          split
          · exact hle _ _
          · split
            · exact hle _ _
            · exact le_refl _
        exact ⟨k3, by omega⟩
      · simp at h
      · simp at h
    · simp only [Option.some.injEq, Except.ok.injEq, Prod.mk.injEq] at h
      rw [← h.1]
      exact ⟨hf, by omega⟩

theorem randomDag_ok {n : Nat} {density : Rat} {maxIn : Int} {ω : Draws} {g : Graph} {ω' : Draws}
    (h : randomDag n density maxIn ω = some (.ok (g, ω'))) :
    Filling n (max (max maxIn 4) 1) g ∧ g.edges.length = max (n - 1) (edgeTarget n density) ∧ 0 < n := by
  unfold randomDag at h
  split at h
  · split at h <;> simp at h
  · split at h
    · simp at h
    rename_i node hc
    have hm : node ∈ nodeNames n := List.mem_of_getElem? (choice_ok hc)
    split at h
    · simp at h
    · simp at h
    · rename_i g1 ω1 h1
      obtain ⟨vis, k1⟩ := connect_ok (Conn.start hm) h1
      obtain ⟨k2, k3⟩ := k1.filling
      obtain ⟨k4, k5⟩ := fill_ok (by omega) k2 h
      refine ⟨k4, by rw [k5]; congr 1; omega, by omega⟩

theorem Filling.edges_le {n : Nat} {b : Nat} {g : Graph} (h : Filling n b g) : g.edges.length ≤ capacity n b := by
  rw [edges_eq_sum (nodup_names n) (fun u v he => by
    obtain ⟨i, j, _, hj, _, rfl⟩ := h.ordered u v he
    exact mem_names.2 ⟨j, hj, rfl⟩)]
  unfold nodeNames capacity
  rw [List.map_map]
  apply List.sum_le_sum
  intro i hi
  have h1 := inDegree_le h.wf h.ordered (j := i)
  have h2 := h.deg (nodeName i)
  simp only [Function.comp]
  omega

end Random
end Verif

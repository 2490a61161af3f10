import Verif.Model.Macid
import Verif.Spec.Macid
import Verif.Lemmas.Topo
import Verif.Lemmas.Trails

/-! Copying graphs edge by edge; the mechanism graph; fresh parents. -/

namespace Verif
open Relation Graph

theorem Graph.addEdge_ok {g : Graph} (hw : g.WF) {R : Node → Node → Prop}
    (hR : ∀ a, ¬ TransGen R a a) (hg : ∀ a b, g.Edge a b → R a b) {u v : Node} (huv : R u v) :
    g.addEdge u v = .ok (g.nxAddEdge u v) := by
  unfold addEdge
  rw [if_neg, if_neg]
  · rintro ⟨_, _, h⟩
    rw [hasPath_iff hw] at h
    have : ReflTransGen R v u := ReflTransGen.mono (fun a b h => hg a b h) _ _ h
    exact hR u (TransGen.head' huv this)
  · rintro rfl
    exact hR u (TransGen.single huv)

theorem Graph.addEdges_ok {R : Node → Node → Prop} (hR : ∀ a, ¬ TransGen R a a) :
    ∀ (es : List (Node × Node)) {g : Graph}, g.WF → (∀ a b, g.Edge a b → R a b) →
    (∀ e ∈ es, R e.1 e.2) →
    ∃ g', g.addEdges es = .ok g' ∧ g'.WF ∧ (∀ a b, g'.Edge a b ↔ g.Edge a b ∨ (a, b) ∈ es) ∧
      (∀ x, x ∈ g'.nodes ↔ x ∈ g.nodes ∨ ∃ e ∈ es, x = e.1 ∨ x = e.2) := by
  intro es
  induction es with
  | nil => intro g hw _ _; exact ⟨g, rfl, hw, by simp, by simp⟩
  | cons e es ih =>
    intro g hw hg hes
    obtain ⟨u, v⟩ := e
    have h1 := addEdge_ok hw hR hg (hes (u, v) (by simp))
    have hw1 : (g.nxAddEdge u v).WF := wf_addEdge hw h1
    obtain ⟨g', h2, h3, h4, h5⟩ := ih hw1 (by
      intro a b hab
      rcases nxAddEdge_edge.1 hab with h | ⟨rfl, rfl⟩
      · exact hg a b h
      · exact hes (a, b) (by simp)) (fun e he => hes e (by simp [he]))
    refine ⟨g', ?_, h3, ?_, ?_⟩
    · unfold addEdges
      rw [h1]
      exact h2
    · intro a b
      rw [h4, nxAddEdge_edge]
      simp only [List.mem_cons, Prod.mk.injEq]
      tauto
    · intro x
      rw [h5, nxAddEdge_nodes]
      simp only [List.mem_cons, exists_eq_or_imp]
      exact or_assoc

theorem Graph.mem_edgesView {g : Graph} (hw : g.WF) {a b : Node} :
    (a, b) ∈ g.edgesView ↔ g.Edge a b := by
  unfold edgesView
  simp only [List.mem_flatMap, List.mem_map, Prod.mk.injEq, mem_children]
  constructor
  · rintro ⟨u, _, v, h, rfl, rfl⟩; exact h
  · intro h; exact ⟨a, (hw.edgeNodes _ _ h).1, b, h, rfl, rfl⟩

namespace Macid

theorem mec_inj {a b : Node} (h : mec a = mec b) : a = b := by
  unfold mec at h
  have := congrArg String.toList h
  simp only [String.toList_append] at this
  exact String.toList_inj.1 (List.append_cancel_right this)

theorem mec_ne (a : Node) : mec a ≠ a := by
  intro h
  have := congrArg (fun s : String => s.toList.length) h
  simp [mec] at this

/-- Names that the guard of `MechanismGraph` does not reject and that do not collide. -/
def MecFree (g : Graph) : Prop :=
  (∀ u ∈ g.nodes, ∀ v ∈ g.nodes, u ≠ mec v) ∧ ∀ v ∈ g.nodes, dropLast3 v ≠ "mec"

theorem mecFree_of_names {g : Graph} (h : NamesOk g) : MecFree g := by
  refine ⟨h.1, ?_⟩
  intro v hv hd
  apply h.2 v hv
  unfold dropLast3 at hd
  have h' := congrArg String.toList hd
  rw [String.toList_ofList] at h'
  have h'' : List.take (v.toList.length - 3) v.toList = ['m', 'e', 'c'] := h'
  have hl := congrArg List.length h''
  simp only [List.length_take, List.length_cons, List.length_nil] at hl
  have h6 : v.toList.length = 6 := by omega
  refine ⟨h6, ?_⟩
  rw [h6] at h''
  exact h''

theorem mechLoop_ok {R : Node → Node → Prop} (hR : ∀ a, ¬ TransGen R a a) :
    ∀ (ns : List Node) {mg : Graph}, mg.WF → (∀ a b, mg.Edge a b → R a b) →
    (∀ n ∈ ns, R (mec n) n ∧ dropLast3 n ≠ "mec") →
    ∃ mg', mechLoop mg ns = .ok mg' ∧ mg'.WF ∧
      (∀ a b, mg'.Edge a b ↔ mg.Edge a b ∨ (b ∈ ns ∧ a = mec b)) ∧
      (∀ x, x ∈ mg'.nodes ↔ x ∈ mg.nodes ∨ x ∈ ns ∨ ∃ n ∈ ns, x = mec n) := by
  intro ns
  induction ns with
  | nil => intro mg hw _ _; exact ⟨mg, rfl, hw, by simp, by simp⟩
  | cons n ns ih =>
    intro mg hw hg hns
    have hn := hns n (by simp)
    have hw0 := wf_addNode hw (mec n)
    have h1 := addEdge_ok hw0 hR (by rw [addNode_edge]; exact hg) hn.1
    have hw1 := wf_addEdge hw0 h1
    obtain ⟨mg', h2, h3, h4, h5⟩ := ih hw1 (by
      intro a b hab
      rcases nxAddEdge_edge.1 hab with h | ⟨rfl, rfl⟩
      · rw [addNode_edge] at h; exact hg a b h
      · exact hn.1) (fun k hk => hns k (by simp [hk]))
    refine ⟨mg', ?_, h3, ?_, ?_⟩
    · unfold mechLoop
      rw [if_neg hn.2, h1]
      exact h2
    · intro a b
      rw [h4, nxAddEdge_edge, addNode_edge]
      simp only [List.mem_cons]
      constructor
      · rintro ((h | ⟨rfl, rfl⟩) | ⟨h, rfl⟩)
        · exact Or.inl h
        · exact Or.inr ⟨Or.inl rfl, rfl⟩
        · exact Or.inr ⟨Or.inr h, rfl⟩
      · rintro (h | ⟨rfl | h, rfl⟩)
        · exact Or.inl (Or.inl h)
        · exact Or.inl (Or.inr ⟨rfl, rfl⟩)
        · exact Or.inr ⟨h, rfl⟩
    · intro x
      rw [h5, nxAddEdge_nodes, addNode_nodes]
      simp only [List.mem_cons, exists_eq_or_imp]
      generalize (∃ m ∈ ns, x = mec m) = A
      generalize (x ∈ ns) = B
      generalize (x ∈ mg.nodes) = C
      generalize (x = mec n) = D
      generalize (x = n) = E
      clear h1 h2 h3 h4 h5 hns hn ih
      tauto

theorem mech_acyclic {g : Graph} (hw : g.WF) (hm : MecFree g) :
    ∀ a, ¬ TransGen (fun a b => g.Edge a b ∨ (b ∈ g.nodes ∧ a = mec b)) a a := by
  have key : ∀ a b, TransGen (fun a b => g.Edge a b ∨ (b ∈ g.nodes ∧ a = mec b)) a b →
      a ∈ g.nodes → g.Desc a b := by
    intro a b h ha
    induction h with
    | single h =>
      rcases h with h | ⟨h, rfl⟩
      · exact TransGen.single h
      · exact absurd rfl (hm.1 _ ha _ h)
    | tail _ h ih =>
      rcases h with h | ⟨h, he⟩
      · exact ih.tail h
      · exact absurd he (hm.1 _ (desc_mem hw ih).2 _ h)
  intro a h
  have hb : a ∈ g.nodes := by
    rcases TransGen.tail'_iff.1 h with ⟨c, _, hc⟩
    rcases hc with hc | ⟨hc, _⟩
    · exact (hw.edgeNodes _ _ hc).2
    · exact hc
  exact hw.acyclic a (key a a h hb)

theorem mechGraph_spec {g : Graph} (hw : g.WF) (hm : MecFree g) :
    ∃ mg, mechGraph g = .ok mg ∧ mg.WF ∧
      (∀ a b, mg.Edge a b ↔ g.Edge a b ∨ (b ∈ g.nodes ∧ a = mec b)) ∧
      (∀ x, x ∈ mg.nodes ↔ x ∈ g.nodes ∨ ∃ n ∈ g.nodes, x = mec n) := by
  obtain ⟨g1, h1, h2, h3, h4⟩ := addEdges_ok (mech_acyclic hw hm) g.edgesView wf_empty
    (by intro a b h; simp [Edge, empty] at h)
    (by intro e he; exact Or.inl ((mem_edgesView hw).1 he))
  have h3' : ∀ a b, g1.Edge a b ↔ g.Edge a b := by
    intro a b
    rw [h3, mem_edgesView hw]
    simp [Edge, empty]
  obtain ⟨mg, h5, h6, h7, h8⟩ := mechLoop_ok (mech_acyclic hw hm) g.nodes h2
    (by intro a b h; exact Or.inl ((h3' a b).1 h))
    (by intro n hn; exact ⟨Or.inr ⟨hn, rfl⟩, hm.2 n hn⟩)
  refine ⟨mg, ?_, h6, ?_, ?_⟩
  · unfold mechGraph ofEdges
    rw [h1]
    exact h5
  · intro a b; rw [h7, h3']
  · intro x
    rw [h8, h4]
    constructor
    · rintro ((h | ⟨e, he, h⟩) | h | h)
      · simp [empty] at h
      · have := hw.edgeNodes _ _ ((mem_edgesView hw).1 he)
        rcases h with rfl | rfl
        · exact Or.inl this.1
        · exact Or.inl this.2
      · exact Or.inl h
      · exact Or.inr h
    · rintro (h | h)
      · exact Or.inr (Or.inl h)
      · exact Or.inr (Or.inr h)

end Macid

/-! ### a fresh parent -/

/-- `v` can be entered from above: the characterisation of d-connection from a new parent of `v`
to `u` given `Z`, without mentioning the new parent. -/
def Into (g : Graph) (Z : List Node) (v u : Node) : Prop :=
  u ∉ Z ∧ ∃ r, g.IsUndirPath v u (v :: r) ∧ g.Active Z (v :: r) ∧
    (r = [] → v ∉ Z) ∧
    ∀ c r', r = c :: r' → (g.Edge c v → ∃ z ∈ Z, g.DescEq v z) ∧ (¬ g.Edge c v → v ∉ Z)

/-- `G'` is `g` with additional source nodes, each with exactly one child. -/
structure SourceExt (g G' : Graph) (X : Node → Node → Prop) : Prop where
  edge : ∀ a b, G'.Edge a b ↔ g.Edge a b ∨ X a b
  tail : ∀ a b, X a b → a ∉ g.nodes
  head : ∀ a b, X a b → b ∈ g.nodes
  uniq : ∀ a b c, X a b → X a c → b = c

namespace SourceExt
variable {g G' : Graph} {X : Node → Node → Prop}

theorem edge_old (h : SourceExt g G' X) {a b : Node} (ha : a ∈ g.nodes) :
    G'.Edge a b ↔ g.Edge a b := by
  rw [h.edge]
  constructor
  · rintro (h' | h')
    · exact h'
    · exact absurd ha (h.tail _ _ h')
  · exact Or.inl

theorem adj_old (h : SourceExt g G' X) {a b : Node} (ha : a ∈ g.nodes) (hb : b ∈ g.nodes) :
    G'.Adj a b ↔ g.Adj a b := by
  unfold Adj
  rw [h.edge_old ha, h.edge_old hb]

theorem adj_new (h : SourceExt g G' X) (hw : g.WF) {a b : Node} (ha : a ∉ g.nodes)
    (hab : G'.Adj a b) : X a b := by
  rcases hab with hab | hab
  · rcases (h.edge _ _).1 hab with h' | h'
    · exact absurd (hw.edgeNodes _ _ h').1 ha
    · exact h'
  · rcases (h.edge _ _).1 hab with h' | h'
    · exact absurd (hw.edgeNodes _ _ h').2 ha
    · exact absurd (h.head _ _ h') ha

theorem descEq_old (h : SourceExt g G' X) (hw : g.WF) {a b : Node} (ha : a ∈ g.nodes) :
    G'.DescEq a b ↔ g.DescEq a b := by
  constructor
  · intro hd
    induction hd with
    | refl => exact ReflTransGen.refl
    | tail _ he ih => exact ih.tail ((h.edge_old (descEq_mem hw ih ha)).1 he)
  · intro hd
    exact ReflTransGen.mono (fun a b hab => (h.edge a b).2 (Or.inl hab)) _ _ hd

theorem active_old (h : SourceExt g G' X) (hw : g.WF) {Z p : List Node} (hp : ∀ x ∈ p, x ∈ g.nodes) :
    G'.Active Z p ↔ g.Active Z p := by
  unfold Active
  apply forall_congr'; intro l
  apply forall_congr'; intro a
  apply forall_congr'; intro b
  apply forall_congr'; intro c
  apply forall_congr'; intro r
  apply imp_congr_right; intro he
  subst he
  have ha : a ∈ g.nodes := hp a (by simp)
  have hb : b ∈ g.nodes := hp b (by simp)
  have hc : c ∈ g.nodes := hp c (by simp)
  simp only [h.edge_old ha, h.edge_old hc, h.descEq_old hw hb]

theorem path_old (h : SourceExt g G' X) (hw : g.WF) {v u : Node} {q : List Node}
    (hv : v ∈ g.nodes) (hu : u ∈ g.nodes) (hh : q.head? = some v) (hl : q.getLast? = some u)
    (hc : q.IsChain G'.Adj) (hn : q.Nodup) : ∀ x ∈ q, x ∈ g.nodes := by
  intro w hw'
  by_contra hwn
  obtain ⟨l, r, rfl⟩ := List.append_of_mem hw'
  rcases List.eq_nil_or_concat l with rfl | ⟨l', a, rfl⟩
  · simp at hh; subst hh; exact hwn hv
  · cases r with
    | nil => rw [List.getLast?_append] at hl; simp at hl; subst hl; exact hwn hu
    | cons c r =>
      have hc' : (l' ++ a :: w :: c :: r).IsChain G'.Adj := by simpa using hc
      have h1 := List.isChain_append.1 hc'
      have h2 := h1.2.1
      rw [List.isChain_cons_cons, List.isChain_cons_cons] at h2
      have haw : X w a := h.adj_new hw hwn h2.1.symm
      have hwc : X w c := h.adj_new hw hwn h2.2.1
      have hac := h.uniq _ _ _ haw hwc
      subst hac
      have hn' : (l' ++ a :: w :: a :: r).Nodup := by simpa using hn
      have := (List.nodup_append.1 hn').2.1
      simp at this

/-- d-connection from a new source node is entering its child from above. -/
theorem dconn_iff (h : SourceExt g G' X) (hw : g.WF) {n v u : Node} {Z : List Node}
    (hX : X n v) (hu : u ∈ g.nodes) (hZ : ∀ z ∈ Z, z ∈ g.nodes) :
    G'.DConn n u Z ↔ Into g Z v u := by
  have hn : n ∉ g.nodes := h.tail _ _ hX
  have hv : v ∈ g.nodes := h.head _ _ hX
  have hnu : n ≠ u := fun he => hn (he ▸ hu)
  constructor
  · rintro ⟨_, huZ, p, ⟨h1, h2, h3, h4⟩, hact⟩
    obtain ⟨q, rfl⟩ : ∃ q, p = n :: q := by
      cases p with
      | nil => simp at h1
      | cons a q => simp at h1; subst h1; exact ⟨q, rfl⟩
    cases q with
    | nil => simp at h2; exact absurd h2 hnu
    | cons w r =>
      rw [List.isChain_cons_cons] at h3
      have hw' := h.adj_new hw hn h3.1
      have := h.uniq _ _ _ hX hw'
      subst this
      have hl : (v :: r).getLast? = some u := by simpa [List.getLast?_cons_cons] using h2
      have hnd : (v :: r).Nodup := (List.nodup_cons.1 h4).2
      have hold := h.path_old hw hv hu rfl hl h3.2 hnd
      have hch : (v :: r).IsChain g.Adj := by
        refine List.IsChain.imp_of_mem_imp ?_ h3.2
        intro a b ha hb hab
        exact (h.adj_old (hold a ha) (hold b hb)).1 hab
      refine ⟨huZ, r, ⟨rfl, hl, hch, hnd⟩, ?_, ?_, ?_⟩
      · rw [← h.active_old hw hold]
        intro l a b c r' he
        exact hact (n :: l) a b c r' (by simp [he])
      · rintro rfl
        simp at hl; subst hl; exact huZ
      · rintro c r' rfl
        have := hact [] n v c r' rfl
        have hc := hold c (by simp)
        rw [h.edge_old hc, h.edge n v] at this
        constructor
        · intro hcv
          obtain ⟨z, hz, hd⟩ := this.1 ⟨Or.inr hX, hcv⟩
          exact ⟨z, hz, (h.descEq_old hw hv).1 hd⟩
        · intro hcv
          exact this.2 (fun h' => hcv h'.2)
  · rintro ⟨huZ, r, ⟨_, h2, h3, h4⟩, hact, hnil, hcons⟩
    have hold : ∀ x ∈ v :: r, x ∈ g.nodes := by
      intro x hx
      exact undirPath_subset hw hv ⟨rfl, h2, h3, h4⟩ hx
    refine ⟨fun h' => hn (hZ _ h'), huZ, n :: v :: r, ⟨rfl, ?_, ?_, ?_⟩, ?_⟩
    · rw [List.getLast?_cons_cons]; exact h2
    · rw [List.isChain_cons_cons]
      refine ⟨Or.inl ((h.edge _ _).2 (Or.inr hX)), ?_⟩
      refine List.IsChain.imp_of_mem_imp ?_ h3
      intro a b ha hb hab
      exact (h.adj_old (hold a ha) (hold b hb)).2 hab
    · rw [List.nodup_cons]
      exact ⟨fun h' => hn (hold _ h'), h4⟩
    · have hact' := (h.active_old hw (Z := Z) hold).2 hact
      intro l a b c r' he
      cases l with
      | nil =>
        simp at he
        obtain ⟨rfl, rfl, rfl⟩ := he
        have hc := hold c (by simp)
        rw [h.edge_old hc, h.edge n v]
        obtain ⟨hc1, hc2⟩ := hcons c r' rfl
        constructor
        · rintro ⟨_, hcv⟩
          obtain ⟨z, hz, hd⟩ := hc1 hcv
          exact ⟨z, hz, (h.descEq_old hw hv).2 hd⟩
        · intro hno
          exact hc2 (fun h' => hno ⟨Or.inr hX, h'⟩)
      | cons y l =>
        simp at he
        exact hact' l a b c r' he.2

end SourceExt

theorem sourceExt_withParent {g : Graph} {n v : Node} (hn : n ∉ g.nodes) (hv : v ∈ g.nodes) :
    SourceExt g (g.withParent n v) (fun a b => a = n ∧ b = v) := by
  refine ⟨?_, ?_, ?_, ?_⟩
  · intro a b; simp [Edge, withParent, or_comm]
  · rintro a b ⟨rfl, rfl⟩; exact hn
  · rintro a b ⟨rfl, rfl⟩; exact hv
  · rintro a b c ⟨rfl, rfl⟩ ⟨_, rfl⟩; rfl

theorem sourceExt_mech {g mg : Graph} (hm : Macid.MecFree g)
    (he : ∀ a b, mg.Edge a b ↔ g.Edge a b ∨ (b ∈ g.nodes ∧ a = Macid.mec b)) :
    SourceExt g mg (fun a b => b ∈ g.nodes ∧ a = Macid.mec b) := by
  refine ⟨he, ?_, ?_, ?_⟩
  · rintro a b ⟨h, rfl⟩ h'; exact hm.1 _ h' _ h rfl
  · rintro a b ⟨h, _⟩; exact h
  · rintro a b c ⟨_, rfl⟩ ⟨_, h⟩; exact Macid.mec_inj h

end Verif

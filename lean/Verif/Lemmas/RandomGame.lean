import Verif.Lemmas.RandomRoles
import Verif.Props.Structure

/-!
# Random games: the graph with the new names
-/

namespace Verif
namespace Random

open Relation Macid

/-- the graph `G` is the graph `g` with other names -/
structure Renamed (f : Node → Node) (g G : Graph) : Prop where
  inj : ∀ u ∈ g.nodes, ∀ v ∈ g.nodes, f u = f v → u = v
  wf : G.WF
  edge : ∀ x y, G.Edge x y ↔ ∃ u v, g.Edge u v ∧ x = f u ∧ y = f v
  nodes : ∀ x, x ∈ G.nodes ↔ ∃ v ∈ g.nodes, x = f v

theorem addEdges_fold : ∀ {es : List (Node × Node)} {h : Graph}, (∀ a b, h.Edge a b → a ∈ h.nodes) →
    (∀ a b, (es.foldl (fun h e => h.nxAddEdge e.1 e.2) h).Edge a b → a ∈ (es.foldl (fun h e => h.nxAddEdge e.1 e.2) h).nodes) ∧
    ∀ a b, (es.foldl (fun h e => h.nxAddEdge e.1 e.2) h).Edge a b ↔ h.Edge a b ∨ (a, b) ∈ es
  | [], h, hh => by simpa using hh
  | e :: es, h, hh => by
    have := addEdges_fold (es := es) (h := h.nxAddEdge e.1 e.2) (by
      intro a b hab
      rw [Graph.nxAddEdge_nodes]
      rcases Graph.nxAddEdge_edge.1 hab with hab | ⟨rfl, _⟩
      · exact Or.inl (hh a b hab)
      · exact Or.inr (Or.inl rfl))
    refine ⟨this.1, fun a b => ?_⟩
    rw [List.foldl_cons, this.2, Graph.nxAddEdge_edge, List.mem_cons, Prod.ext_iff]
    tauto

theorem relabel_edges {g : Graph} (hw : g.WF) {names : Dict Node Node} {x y : Node} :
    (x, y) ∈ (relabel g names).edgesView ↔
      ∃ u v, g.Edge u v ∧ x = (names.get? u).getD u ∧ y = (names.get? v).getD v := by
  have h0 : ∀ (l : List Node) (h : Graph), h.edges = [] → (Graph.addNodes h l).edges = [] := by
    intro l
    induction l with
    | nil => intro h he; exact he
    | cons v l ih =>
      intro h he
      refine ih (h.addNode v) ?_
      unfold Graph.addNode
      split <;> exact he
  have h1 : ∀ a b, ¬ (Graph.empty.addNodes (g.nodes.map (fun v => (names.get? v).getD v))).Edge a b := by
    intro a b he
    unfold Graph.Edge at he
    rw [h0 _ _ rfl] at he
    simp at he
  obtain ⟨k1, k2⟩ := addEdges_fold (es := g.edgesView.map (fun e => ((names.get? e.1).getD e.1, (names.get? e.2).getD e.2)))
    (h := Graph.empty.addNodes (g.nodes.map (fun v => (names.get? v).getD v))) (fun a b he => absurd he (h1 a b))
  have : (x, y) ∈ (relabel g names).edgesView ↔ (relabel g names).Edge x y := by
    unfold Graph.edgesView
    simp only [List.mem_flatMap, List.mem_map, Prod.mk.injEq, Graph.mem_children]
    constructor
    · rintro ⟨u, _, v, h, rfl, rfl⟩
      exact h
    · intro h
      exact ⟨x, k1 x y h, y, h, rfl, rfl⟩
  rw [this]
  refine (k2 x y).trans ?_
  simp only [h1, false_or, List.mem_map, Prod.mk.injEq, Prod.exists]
  constructor
  · rintro ⟨u, v, h, rfl, rfl⟩
    exact ⟨u, v, (Graph.mem_edgesView hw).1 h, rfl, rfl⟩
  · rintro ⟨u, v, h, rfl, rfl⟩
    exact ⟨u, v, (Graph.mem_edgesView hw).2 h, rfl, rfl⟩

/-- the new graph is built without an exception -/
theorem ofEdges_renamed {f : Node → Node} {g : Graph} (hw : g.WF) (hf : ∀ u ∈ g.nodes, ∀ v ∈ g.nodes, f u = f v → u = v)
    (hj : ∀ v ∈ g.nodes, ∃ c, g.Adj v c) {es : List (Node × Node)}
    (he : ∀ x y, (x, y) ∈ es ↔ ∃ u v, g.Edge u v ∧ x = f u ∧ y = f v) : ∃ G, Graph.ofEdges es = .ok G ∧ Renamed f g G := by
  have hac : ∀ a, ¬ TransGen (fun a b => (a, b) ∈ es) a a := by
    have key : ∀ x y, TransGen (fun a b => (a, b) ∈ es) x y → ∃ u v, g.Desc u v ∧ x = f u ∧ y = f v := by
      intro x y h
      induction h with
      | single h =>
        obtain ⟨u, v, k, rfl, rfl⟩ := (he _ _).1 h
        exact ⟨u, v, .single k, rfl, rfl⟩
      | tail _ h ih =>
        obtain ⟨u, v, k, e1, e2⟩ := ih
        obtain ⟨u', v', k', e3, e4⟩ := (he _ _).1 h
        have : v = u' := hf _ (Graph.descEq_mem hw k.to_reflTransGen (by
            obtain ⟨c, hc⟩ := Desc.child k
            exact (hw.edgeNodes _ _ hc).1)) _ (hw.edgeNodes _ _ k').1 (e2.symm.trans e3)
        subst this
        exact ⟨u, v', k.tail k', e1, e4⟩
    intro a h
    obtain ⟨u, v, k, e1, e2⟩ := key a a h
    have hu : u ∈ g.nodes := by
      obtain ⟨c, hc⟩ := Desc.child k
      exact (hw.edgeNodes _ _ hc).1
    have := hf _ hu _ (Graph.descEq_mem hw k.to_reflTransGen hu) (e1.symm.trans e2)
    subst this
    exact hw.acyclic _ k
  obtain ⟨G, h1, h2, h3, h4⟩ := Graph.addEdges_ok hac es Graph.wf_empty (by intro a b h; simp [Graph.Edge, Graph.empty] at h) (fun e h => h)
  refine ⟨G, h1, hf, h2, ?_, ?_⟩
  · intro x y
    rw [h3, he]
    simp [Graph.Edge, Graph.empty]
  · intro x
    rw [h4]
    constructor
    · rintro (h | ⟨⟨a, b⟩, h, hx⟩)
      · simp [Graph.empty] at h
      · obtain ⟨u, v, k, rfl, rfl⟩ := (he _ _).1 h
        rcases hx with rfl | rfl
        · exact ⟨u, (hw.edgeNodes _ _ k).1, rfl⟩
        · exact ⟨v, (hw.edgeNodes _ _ k).2, rfl⟩
    · rintro ⟨v, hv, rfl⟩
      obtain ⟨c, hc | hc⟩ := hj v hv
      · exact Or.inr ⟨(f v, f c), (he _ _).2 ⟨v, c, hc, rfl, rfl⟩, Or.inl rfl⟩
      · exact Or.inr ⟨(f c, f v), (he _ _).2 ⟨c, v, hc, rfl, rfl⟩, Or.inr rfl⟩

theorem Renamed.length {f : Node → Node} {g G : Graph} (h : Renamed f g G) (hw : g.WF) : G.nodes.length = g.nodes.length := by
  have : (g.nodes.map f).Nodup := hw.nodesNodup.map_on (fun u hu v hv e => h.inj u hu v hv e)
  have hp : G.nodes.Perm (g.nodes.map f) := (List.perm_ext_iff_of_nodup h.wf.nodesNodup this).2 (by
    intro x
    rw [h.nodes, List.mem_map]
    exact ⟨fun ⟨v, hv, e⟩ => ⟨v, hv, e.symm⟩, fun ⟨v, hv, e⟩ => ⟨v, hv, e.symm⟩⟩)
  simpa using hp.length_eq

theorem Renamed.joined {f : Node → Node} {g G : Graph} (h : Renamed f g G) (hj : ∀ u ∈ g.nodes, ∀ v ∈ g.nodes, ReflTransGen g.Adj u v) :
    ∀ x ∈ G.nodes, ∀ y ∈ G.nodes, ReflTransGen G.Adj x y := by
  intro x hx y hy
  obtain ⟨u, hu, rfl⟩ := (h.nodes x).1 hx
  obtain ⟨v, hv, rfl⟩ := (h.nodes y).1 hy
  have := hj u hu v hv
  clear hy hv
  induction this with
  | refl => exact .refl
  | tail _ he ih =>
    refine ih.tail ?_
    rcases he with he | he
    · exact Or.inl ((h.edge _ _).2 ⟨_, _, he, rfl, rfl⟩)
    · exact Or.inr ((h.edge _ _).2 ⟨_, _, he, rfl, rfl⟩)

theorem Renamed.desc {f : Node → Node} {g G : Graph} (h : Renamed f g G) {u v : Node} (hd : g.Desc u v) : G.Desc (f u) (f v) := by
  induction hd with
  | single he => exact .single ((h.edge _ _).2 ⟨_, _, he, rfl, rfl⟩)
  | tail _ he ih => exact ih.tail ((h.edge _ _).2 ⟨_, _, he, rfl, rfl⟩)

theorem Renamed.barren {f : Node → Node} {g G : Graph} (h : Renamed f g G) (hw : g.WF) {u : Node} (hu : u ∈ g.nodes) (hb : ∀ c, ¬ g.Edge u c) :
    ∀ c, ¬ G.Edge (f u) c := by
  intro c hc
  obtain ⟨u', v', k, e, _⟩ := (h.edge _ _).1 hc
  have := h.inj u hu u' (hw.edgeNodes _ _ k).1 e
  subst this
  exact hb _ k

/-! ### the dictionaries -/

theorem entry_util : ∀ {a : Nat} {l : List (List Node × List Node)} {b : Nat} {p : List Node × List Node} {i : Nat} {v : Node},
    l[b]? = some p → p.1[i]? = some v → (v, utilName (a + b) i) ∈ entries a l
  | a, [], b, p, i, v, h, _ => by simp at h
  | a, (us, ds) :: l, 0, p, i, v, h, hv => by
    simp only [List.getElem?_cons_zero, Option.some.injEq] at h
    subst h
    unfold entries
    refine List.mem_append_left _ (List.mem_append_left _ ?_)
    unfold renames
    exact List.mem_map.2 ⟨(v, i), List.mem_zipIdx_iff_getElem?.2 hv, rfl⟩
  | a, (us, ds) :: l, b + 1, p, i, v, h, hv => by
    unfold entries
    refine List.mem_append_right _ ?_
    have := entry_util (a := a + 1) (l := l) (b := b) (p := p) (by simpa using h) hv
    rwa [show a + 1 + b = a + (b + 1) by omega] at this

theorem entry_dec : ∀ {a : Nat} {l : List (List Node × List Node)} {b : Nat} {p : List Node × List Node} {i : Nat} {v : Node},
    l[b]? = some p → p.2[i]? = some v → (v, decName (a + b) i) ∈ entries a l
  | a, [], b, p, i, v, h, _ => by simp at h
  | a, (us, ds) :: l, 0, p, i, v, h, hv => by
    simp only [List.getElem?_cons_zero, Option.some.injEq] at h
    subst h
    unfold entries
    refine List.mem_append_left _ (List.mem_append_right _ ?_)
    unfold renames
    exact List.mem_map.2 ⟨(v, i), List.mem_zipIdx_iff_getElem?.2 hv, rfl⟩
  | a, (us, ds) :: l, b + 1, p, i, v, h, hv => by
    unfold entries
    refine List.mem_append_right _ ?_
    have := entry_dec (a := a + 1) (l := l) (b := b) (p := p) (by simpa using h) hv
    rwa [show a + 1 + b = a + (b + 1) by omega] at this

theorem keys_roles {name : Nat → Nat → Node} {sel : List Node × List Node → List Node} : ∀ {a : Nat} {l : List (List Node × List Node)},
    (rolesOf name sel a l).keys = List.range' a l.length
  | a, [] => rfl
  | a, p :: l => by
    have := keys_roles (name := name) (sel := sel) (a := a + 1) (l := l)
    unfold Dict.keys at this ⊢
    simp only [rolesOf, List.map_cons, this, List.length_cons, List.range'_succ]

theorem get_roles {name : Nat → Nat → Node} {sel : List Node × List Node → List Node} : ∀ {a : Nat} {l : List (List Node × List Node)} {b : Nat}
    {p : List Node × List Node}, l[b]? = some p →
    (rolesOf name sel a l).get? (a + b) = some ((List.range (sel p).length).map (name (a + b)))
  | a, [], b, p, h => by simp at h
  | a, q :: l, 0, p, h => by
    simp only [List.getElem?_cons_zero, Option.some.injEq] at h
    subst h
    simp [rolesOf, Dict.get?]
  | a, q :: l, b + 1, p, h => by
    have := get_roles (name := name) (sel := sel) (a := a + 1) (l := l) (b := b) (p := p) (by simpa using h)
    rw [show a + 1 + b = a + (b + 1) by omega] at this
    have hne : ¬ a = a + (b + 1) := by omega
    simp only [rolesOf, Dict.get?]
    rw [if_neg hne]
    exact this

theorem mem_roles {name : Nat → Nat → Node} {sel : List Node × List Node → List Node} : ∀ {a : Nat} {l : List (List Node × List Node)} {x : Node},
    x ∈ (rolesOf name sel a l).flatMap (·.2) ↔ ∃ b p, l[b]? = some p ∧ ∃ i < (sel p).length, x = name (a + b) i
  | a, [], x => by simp [rolesOf]
  | a, q :: l, x => by
    simp only [rolesOf, List.flatMap_cons, List.mem_append, mem_roles, List.mem_map, List.mem_range]
    constructor
    · rintro (⟨i, hi, rfl⟩ | ⟨b, p, h, i, hi, rfl⟩)
      · exact ⟨0, q, by simp, i, hi, rfl⟩
      · exact ⟨b + 1, p, by simpa using h, i, hi, by rw [show a + 1 + b = a + (b + 1) by omega]⟩
    · rintro ⟨b, p, h, i, hi, rfl⟩
      cases b with
      | zero =>
        simp only [List.getElem?_cons_zero, Option.some.injEq] at h
        subst h
        exact Or.inl ⟨i, hi, rfl⟩
      | succ b => exact Or.inr ⟨b, p, by simpa using h, i, hi, by rw [show a + 1 + b = a + (b + 1) by omega]⟩

theorem nodup_roles {name : Nat → Nat → Node} (hinj : ∀ {a b i j}, name a i = name b j → a = b ∧ i = j) {sel : List Node × List Node → List Node} :
    ∀ {a : Nat} {l : List (List Node × List Node)}, ((rolesOf name sel a l).flatMap (·.2)).Nodup
  | a, [] => by simp [rolesOf]
  | a, q :: l => by
    simp only [rolesOf, List.flatMap_cons]
    refine List.nodup_append.2 ⟨List.nodup_range.map (fun i j e => (hinj e).2), nodup_roles hinj, ?_⟩
    rintro x hx y hy rfl
    obtain ⟨b, p, _, j, _, rfl⟩ := mem_roles.1 hy
    obtain ⟨i, _, e⟩ := List.mem_map.1 hx
    have := (hinj e).1
    omega

end Random
end Verif

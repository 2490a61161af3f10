import Verif.Lemmas.Relevance

/-! The condensed relevance graph and the subgames. -/

namespace Verif
open Relation Graph Macid
namespace Macid

theorem decisionsInScc_get? (M : Dict Node Nat) (acc : Dict Nat (List Node)) (i : Nat) :
    (M.foldl (fun acc p => acc.set p.2 ((acc.get? p.2).getD [] ++ [p.1])) acc).get? i =
      if M.filter (fun p => decide (p.2 = i)) = [] then acc.get? i
      else some ((acc.get? i).getD [] ++ (M.filter (fun p => decide (p.2 = i))).map (·.1)) := by
  induction M generalizing acc with
  | nil => simp
  | cons p M ih =>
    rw [List.foldl_cons, ih]
    by_cases hp : p.2 = i
    · rw [List.filter_cons_of_pos (by simpa using hp)]
      simp only [reduceCtorEq, if_false, Dict.get?_set, hp, if_true]
      split
      · rename_i h; simp [h]
      · simp
    · rw [List.filter_cons_of_neg (by simpa using hp)]
      have hip : ¬ i = p.2 := fun h => hp h.symm
      simp only [Dict.get?_set, hip, if_false]

theorem zipIdx_filter_map (sccs : List (List Node)) (k i : Nat) :
    ((sccs.zipIdx k).flatMap (fun c => c.1.map (fun n => (n, c.2)))).filter
      (fun p => decide (p.2 = k + i)) = ((sccs[i]?).getD []).map (fun n => (n, k + i)) := by
  induction sccs generalizing k i with
  | nil => simp
  | cons c cs ih =>
    rw [List.zipIdx_cons, List.flatMap_cons, List.filter_append]
    cases i with
    | zero =>
      have h1 : (c.map (fun n => (n, k))).filter (fun p => decide (p.2 = k + 0)) =
          c.map (fun n => (n, k)) := by
        rw [List.filter_eq_self]; intro p hp; simp at hp; obtain ⟨_, _, rfl⟩ := hp; simp
      have h2 : ((cs.zipIdx (k + 1)).flatMap (fun c => c.1.map (fun n => (n, c.2)))).filter
          (fun p => decide (p.2 = k + 0)) = [] := by
        rw [List.filter_eq_nil_iff]
        intro p hp
        simp only [List.mem_flatMap, List.mem_map, Prod.exists] at hp
        obtain ⟨a, b, hab, n, _, rfl⟩ := hp
        have := List.le_snd_of_mem_zipIdx hab
        simp at this ⊢; omega
      simp only [h1, h2]
      simp
    | succ i =>
      have h1 : (c.map (fun n => (n, k))).filter (fun p => decide (p.2 = k + (i + 1))) = [] := by
        rw [List.filter_eq_nil_iff]; intro p hp; simp at hp; obtain ⟨_, _, rfl⟩ := hp; simp
      simp only [h1, List.nil_append]
      have := ih (k + 1) i
      rw [show k + 1 + i = k + (i + 1) by omega] at this
      simpa using this

theorem decisionsInScc_spec {sccs : List (List Node)} (hne : ∀ c ∈ sccs, c ≠ []) (i : Nat) :
    (decisionsInScc (sccMapping sccs)).get? i = sccs[i]? := by
  unfold decisionsInScc
  rw [decisionsInScc_get?]
  have h := zipIdx_filter_map sccs 0 i
  rw [Nat.zero_add] at h
  unfold sccMapping
  rw [h]
  cases hi : sccs[i]? with
  | none => simp [Dict.get?]
  | some c =>
    have := hne c (List.mem_of_getElem? hi)
    simp [this, Dict.get?, Function.comp_def]

theorem keys_sccMapping (sccs : List (List Node)) : (sccMapping sccs).keys = sccs.flatten := by
  have : ∀ k, ((sccs.zipIdx k).flatMap (fun c => c.1.map (fun n => (n, c.2)))).map (·.1) = sccs.flatten := by
    induction sccs with
    | nil => simp
    | cons c cs ih =>
      intro k
      rw [List.zipIdx_cons, List.flatMap_cons, List.map_append, ih, List.flatten_cons]
      simp [Function.comp_def]
  exact this 0

theorem sccMapping_get? {sccs : List (List Node)} (hn : sccs.flatten.Nodup) (n : Node) (i : Nat) :
    (sccMapping sccs).get? n = some i ↔ ∃ c, sccs[i]? = some c ∧ n ∈ c := by
  have hk : (sccMapping sccs).keys.Nodup := by rw [keys_sccMapping]; exact hn
  have hm : (n, i) ∈ sccMapping sccs ↔ ∃ c, sccs[i]? = some c ∧ n ∈ c := by
    unfold sccMapping
    simp only [List.mem_flatMap, List.mem_map, Prod.mk.injEq, Prod.exists,
      List.mk_mem_zipIdx_iff_getElem?]
    constructor
    · rintro ⟨c, j, hc, x, hx, rfl, rfl⟩; exact ⟨c, hc, hx⟩
    · rintro ⟨c, hc, hx⟩; exact ⟨c, i, hc, n, hx, rfl, rfl⟩
  rw [← hm]
  exact ⟨Dict.mem_of_get?, Dict.get?_of_mem hk⟩

theorem mem_sccEdges {rg : Graph} {sccs : List (List Node)} (hn : sccs.flatten.Nodup) {i j : Nat} :
    (i, j) ∈ sccEdges rg (sccMapping sccs) ↔ i ≠ j ∧ ∃ u v ci cj, rg.Edge u v ∧
      sccs[i]? = some ci ∧ sccs[j]? = some cj ∧ u ∈ ci ∧ v ∈ cj := by
  unfold sccEdges
  rw [List.mem_dedup, List.mem_filterMap]
  constructor
  · rintro ⟨⟨u, v⟩, he, h⟩
    simp only at h
    cases hu : (sccMapping sccs).get? u with
    | none => simp [hu] at h
    | some i' =>
      cases hv : (sccMapping sccs).get? v with
      | none => simp [hu, hv] at h
      | some j' =>
        simp only [hu, hv] at h
        split at h
        · cases h
        · rename_i hij
          simp only [Option.some.injEq, Prod.mk.injEq] at h
          obtain ⟨rfl, rfl⟩ := h
          obtain ⟨ci, h1, h2⟩ := (sccMapping_get? hn u i').1 hu
          obtain ⟨cj, h3, h4⟩ := (sccMapping_get? hn v j').1 hv
          exact ⟨hij, u, v, ci, cj, he, h1, h3, h2, h4⟩
  · rintro ⟨hij, u, v, ci, cj, he, h1, h3, h2, h4⟩
    refine ⟨(u, v), he, ?_⟩
    simp only [(sccMapping_get? hn u i).2 ⟨ci, h1, h2⟩, (sccMapping_get? hn v j).2 ⟨cj, h3, h4⟩]
    rw [if_neg hij]

section
variable {rg : Graph} {sccs : List (List Node)}

theorem IsSccs.flatNodup (h : IsSccs rg.nodes rg.Edge sccs) (hn : rg.nodes.Nodup) :
    sccs.flatten.Nodup := h.perm.nodup_iff.2 hn

theorem IsSccs.mem_nodes (h : IsSccs rg.nodes rg.Edge sccs) {i : Nat} {c : List Node} {x : Node}
    (hi : sccs[i]? = some c) (hx : x ∈ c) : x ∈ rg.nodes :=
  h.perm.mem_iff.1 (List.mem_flatten.2 ⟨c, List.mem_of_getElem? hi, hx⟩)

/-- An index is determined by any of its members. -/
theorem idx_unique (hn : sccs.flatten.Nodup) {i j : Nat} {ci cj : List Node} {x : Node}
    (hi : sccs[i]? = some ci) (hj : sccs[j]? = some cj) (hxi : x ∈ ci) (hxj : x ∈ cj) : i = j := by
  have h1 := (sccMapping_get? hn x i).2 ⟨ci, hi, hxi⟩
  have h2 := (sccMapping_get? hn x j).2 ⟨cj, hj, hxj⟩
  rw [h1] at h2
  simpa using h2

theorem exists_idx (h : IsSccs rg.nodes rg.Edge sccs) {x : Node} (hx : x ∈ rg.nodes) :
    ∃ (i : Nat) (c : List Node), sccs[i]? = some c ∧ x ∈ c := by
  obtain ⟨c, hc, hxc⟩ := List.mem_flatten.1 (h.perm.mem_iff.2 hx)
  obtain ⟨i, hi⟩ := List.mem_iff_getElem?.1 hc
  exact ⟨i, c, hi, hxc⟩

/-- Reachability in the condensation is reachability between members. -/
theorem cond_reach (h : IsSccs rg.nodes rg.Edge sccs) (hn : rg.nodes.Nodup) {i j : Nat}
    (hij : ReflTransGen (fun a b => (a, b) ∈ sccEdges rg (sccMapping sccs)) i j) {ci : List Node}
    {x : Node} (hi : sccs[i]? = some ci) (hx : x ∈ ci) :
    ∃ cj, sccs[j]? = some cj ∧ ∀ y ∈ cj, ReflTransGen rg.Edge x y := by
  induction hij with
  | refl =>
    exact ⟨ci, hi, fun y hy =>
      ((h.classes ci (List.mem_of_getElem? hi) x hx y (h.mem_nodes hi hy)).1 hy).1⟩
  | tail _ he ih =>
    obtain ⟨cj, h1, h2⟩ := ih
    obtain ⟨_, u, v, c1, c2, huv, e1, e2, hu, hv⟩ := (mem_sccEdges (h.flatNodup hn)).1 he
    rw [h1] at e1
    cases e1
    refine ⟨c2, e2, ?_⟩
    intro y hy
    have hvy := ((h.classes c2 (List.mem_of_getElem? e2) v hv y (h.mem_nodes e2 hy)).1 hy).1
    exact ((h2 u hu).tail huv).trans hvy

theorem reach_cond (h : IsSccs rg.nodes rg.Edge sccs) (hn : rg.nodes.Nodup)
    (hin : ∀ a b, rg.Edge a b → a ∈ rg.nodes ∧ b ∈ rg.nodes) {x y : Node}
    (hxy : ReflTransGen rg.Edge x y) {i : Nat} {ci : List Node} (hi : sccs[i]? = some ci)
    (hx : x ∈ ci) : ∃ j cj, sccs[j]? = some cj ∧ y ∈ cj ∧
      ReflTransGen (fun a b => (a, b) ∈ sccEdges rg (sccMapping sccs)) i j := by
  induction hxy with
  | refl => exact ⟨i, ci, hi, hx, ReflTransGen.refl⟩
  | @tail b c _ he ih =>
    obtain ⟨j, cj, h1, h2, h3⟩ := ih
    obtain ⟨k, ck, h4, h5⟩ := exists_idx h (hin _ _ he).2
    by_cases hjk : j = k
    · subst hjk
      exact ⟨j, ck, h4, h5, h3⟩
    · exact ⟨k, ck, h4, h5, h3.tail ((mem_sccEdges (h.flatNodup hn)).2
        ⟨hjk, b, c, cj, ck, he, h1, h4, h2, h5⟩)⟩

theorem cond_acyclic (h : IsSccs rg.nodes rg.Edge sccs) (hn : rg.nodes.Nodup) (i : Nat) :
    ¬ TransGen (fun a b => (a, b) ∈ sccEdges rg (sccMapping sccs)) i i := by
  intro hc
  obtain ⟨j, hij, hji⟩ := TransGen.head'_iff.1 hc
  obtain ⟨hne, u, v, ci, cj, huv, e1, e2, hu, hv⟩ := (mem_sccEdges (h.flatNodup hn)).1 hij
  obtain ⟨ci', e3, h3⟩ := cond_reach h hn hji e2 hv
  rw [e1] at e3
  cases e3
  have hvu := h3 u hu
  have : v ∈ ci := (h.classes ci (List.mem_of_getElem? e1) u hu v (h.mem_nodes e2 hv)).2
    ⟨ReflTransGen.single huv, hvu⟩
  exact hne (idx_unique (h.flatNodup hn) e1 e2 this hv)

theorem mapPy_ok {α β : Type} {f : α → Py β} {h : α → β} {xs : List α}
    (hf : ∀ x ∈ xs, f x = .ok (h x)) : mapPy f xs = .ok (xs.map h) := by
  induction xs with
  | nil => rfl
  | cons x xs ih =>
    unfold mapPy
    rw [hf x (by simp), ih (fun y hy => hf y (by simp [hy]))]
    rfl

theorem sccOrder_spec (h : IsSccs rg.nodes rg.Edge sccs) (hn : rg.nodes.Nodup)
    (tpick : List Nat → Nat) (hin : ∀ a b, rg.Edge a b → a ∈ rg.nodes ∧ b ∈ rg.nodes) :
    ∃ out, sccTopologicalOrdering tpick rg sccs = .ok out ∧ out.Perm sccs ∧
      out.Pairwise (fun c c' => ∀ x ∈ c', ∀ y ∈ c, ¬ TransGen rg.Edge x y) := by
  have hfn := h.flatNodup hn
  have hidx : ∀ {i j : Nat} {a b : List Node} (_ : sccs[i]? = some a) (_ : sccs[j]? = some b),
      i < sccs.length ∧ j < sccs.length := fun h1 h2 =>
    ⟨(List.getElem?_eq_some_iff.1 h1).1, (List.getElem?_eq_some_iff.1 h2).1⟩
  obtain ⟨t1, t2, _⟩ := topoSort_spec tpick (nodes := List.range sccs.length)
    (edges := sccEdges rg (sccMapping sccs)) List.nodup_range (List.nodup_dedup _)
    (by
      rintro ⟨i, j⟩ he
      obtain ⟨_, u, v, ci, cj, _, e1, e2, _⟩ := (mem_sccEdges hfn).1 he
      simpa using hidx e1 e2)
  obtain ⟨order, ho⟩ := t2 (cond_acyclic h hn)
  obtain ⟨p1, p2, _⟩ := t1 order ho
  have hlt : ∀ i ∈ order, i < sccs.length := fun i hi => by simpa using p1.mem_iff.1 hi
  refine ⟨order.map (fun i => (sccs[i]?).getD []), ?_, ?_, ?_⟩
  · unfold sccTopologicalOrdering
    rw [ho]
    apply mapPy_ok
    intro i hi
    rw [Dict.get_ok, decisionsInScc_spec h.nonempty]
    rw [List.getElem?_eq_getElem (hlt i hi)]
    rfl
  · have : (List.range sccs.length).map (fun i => (sccs[i]?).getD []) = sccs := by
      apply List.ext_getElem (by simp)
      intro i h1 h2
      simp [List.getElem?_eq_getElem h2]
    exact (p1.map _).trans (by rw [this])
  · rw [List.pairwise_map]
    have p2' : order.Pairwise (fun a b => a ∈ order ∧ b ∈ order ∧
        ¬ TransGen (fun x y => (x, y) ∈ sccEdges rg (sccMapping sccs)) b a ∧ a ≠ b) := by
      have hnd : order.Nodup := p1.nodup_iff.2 List.nodup_range
      have := List.Pairwise.and p2 hnd
      refine List.Pairwise.imp_of_mem ?_ this
      intro a b ha hb hab
      exact ⟨ha, hb, hab.1, hab.2⟩
    refine p2'.imp ?_
    rintro a b ⟨ha, hb, hnr, hne⟩ x hx y hy hxy
    have ea := List.getElem?_eq_getElem (hlt a ha)
    have eb := List.getElem?_eq_getElem (hlt b hb)
    rw [ea] at hy
    rw [eb] at hx
    simp only [Option.getD_some] at hx hy
    obtain ⟨j, cj, h1, h2, h3⟩ := reach_cond h hn hin hxy.to_reflTransGen eb hx
    have hja : j = a := idx_unique hfn h1 ea h2 hy
    subst hja
    rcases reflTransGen_iff_eq_or_transGen.1 h3 with h4 | h4
    · exact hne h4
    · exact hnr h4

/-! ### Subgames -/

theorem mem_combinations {α : Type} {l s : List α} {r : Nat} :
    s ∈ combinations l r ↔ s.Sublist l ∧ s.length = r := by
  induction l generalizing r s with
  | nil =>
    cases r with
    | zero => simp [combinations]
    | succ r =>
      simp only [combinations, List.not_mem_nil, List.sublist_nil, false_iff, not_and]
      rintro rfl
      simp
  | cons x xs ih =>
    cases r with
    | zero =>
      simp only [combinations, List.mem_singleton, List.length_eq_zero_iff]
      constructor
      · rintro rfl; simp
      · exact And.right
    | succ r =>
      simp only [combinations, List.mem_append, List.mem_map, ih, List.sublist_cons_iff]
      constructor
      · rintro (⟨t, ⟨h1, h2⟩, rfl⟩ | ⟨h1, h2⟩)
        · exact ⟨Or.inr ⟨t, rfl, h1⟩, by simp [h2]⟩
        · exact ⟨Or.inl h1, h2⟩
      · rintro ⟨h1 | ⟨t, rfl, h1⟩, h2⟩
        · exact Or.inr ⟨h1, h2⟩
        · exact Or.inl ⟨t, ⟨h1, by simpa using h2⟩, rfl⟩

theorem nodup_combinations {α : Type} {l : List α} (hl : l.Nodup) (r : Nat) :
    (combinations l r).Nodup := by
  induction l generalizing r with
  | nil => cases r <;> simp [combinations]
  | cons x xs ih =>
    rw [List.nodup_cons] at hl
    cases r with
    | zero => simp [combinations]
    | succ r =>
      simp only [combinations]
      rw [List.nodup_append]
      refine ⟨(ih hl.2 r).map (fun a b h => by simpa using h), ih hl.2 (r + 1), ?_⟩
      intro a ha b hb hab
      subst hab
      obtain ⟨t, _, rfl⟩ := List.mem_map.1 ha
      have := (mem_combinations.1 hb).1.subset (List.mem_cons_self)
      exact hl.1 this

theorem mem_powerset1 {α : Type} {l s : List α} : s ∈ powerset1 l ↔ s.Sublist l ∧ s ≠ [] := by
  unfold powerset1
  simp only [List.mem_flatMap, List.mem_range, mem_combinations]
  constructor
  · rintro ⟨r, _, h1, h2⟩
    refine ⟨h1, ?_⟩
    rintro rfl
    simp at h2
  · rintro ⟨h1, h2⟩
    have hl := h1.length_le
    have : 0 < s.length := List.length_pos_iff.2 h2
    exact ⟨s.length - 1, by omega, h1, by omega⟩

theorem nodup_powerset1 {α : Type} {l : List α} (hl : l.Nodup) : (powerset1 l).Nodup := by
  unfold powerset1
  rw [List.nodup_flatMap]
  refine ⟨fun r _ => nodup_combinations hl _, ?_⟩
  refine (List.nodup_range (n := l.length)).imp ?_
  intro a b hab s hsa hsb
  have h1 := (mem_combinations.1 hsa).2
  have h2 := (mem_combinations.1 hsb).2
  exact hab (by omega)

theorem pruneSubset_spec (desc : Nat → List Nat) (subset : List Nat) (ns : List Nat)
    (sub : List (List Nat)) (hs : sub.Nodup) :
    (pruneSubset desc subset sub ns).Nodup ∧
    ∀ s, s ∈ pruneSubset desc subset sub ns ↔ s ∈ sub ∧
      (s = subset → ∀ n ∈ ns, ∀ x ∈ desc n, x ∈ subset) := by
  induction ns generalizing sub with
  | nil => exact ⟨hs, by simp [pruneSubset]⟩
  | cons n ns ih =>
    unfold pruneSubset
    split
    · rename_i h
      obtain ⟨i1, i2⟩ := ih (sub.erase subset) (hs.erase _)
      refine ⟨i1, ?_⟩
      intro s
      rw [i2, hs.mem_erase_iff]
      have hbad : ¬ ∀ x ∈ desc n, x ∈ subset := by
        intro hall; exact h.1 (by simpa using hall)
      constructor
      · rintro ⟨⟨hne, hm⟩, _⟩; exact ⟨hm, fun e => absurd e hne⟩
      · rintro ⟨hm, hh⟩
        have hne : s ≠ subset := fun e => hbad (hh e n (by simp))
        exact ⟨⟨hne, hm⟩, fun e => absurd e hne⟩
    · rename_i h
      obtain ⟨i1, i2⟩ := ih sub hs
      refine ⟨i1, ?_⟩
      intro s
      rw [i2]
      constructor
      · rintro ⟨hm, hh⟩
        refine ⟨hm, ?_⟩
        rintro rfl k hk
        rcases List.mem_cons.1 hk with rfl | hk
        · by_contra hbad
          exact h ⟨fun hall => hbad (by simpa using hall), hm⟩
        · exact hh rfl k hk
      · rintro ⟨hm, hh⟩
        exact ⟨hm, fun e k hk => hh e k (by simp [hk])⟩

theorem prune_fold (desc : Nat → List Nat) (pw acc : List (List Nat)) (ha : acc.Nodup) :
    (pw.foldl (fun acc subset => pruneSubset desc subset acc subset) acc).Nodup ∧
    ∀ s, s ∈ pw.foldl (fun acc subset => pruneSubset desc subset acc subset) acc ↔
      s ∈ acc ∧ (s ∈ pw → ∀ n ∈ s, ∀ x ∈ desc n, x ∈ s) := by
  induction pw generalizing acc with
  | nil => exact ⟨ha, by simp⟩
  | cons p pw ih =>
    obtain ⟨p1, p2⟩ := pruneSubset_spec desc p p acc ha
    obtain ⟨i1, i2⟩ := ih (pruneSubset desc p acc p) p1
    refine ⟨i1, ?_⟩
    intro s
    rw [List.foldl_cons, i2, p2]
    constructor
    · rintro ⟨⟨hm, h1⟩, h2⟩
      refine ⟨hm, ?_⟩
      intro hs
      rcases List.mem_cons.1 hs with rfl | hs
      · exact h1 rfl
      · exact h2 hs
    · rintro ⟨hm, h1⟩
      refine ⟨⟨hm, ?_⟩, fun hs => h1 (by simp [hs])⟩
      rintro rfl
      exact h1 (by simp)

theorem mem_sccDescendants {n : Nat} {edges : List (Nat × Nat)}
    (hin : ∀ a b, (a, b) ∈ edges → a ∈ List.range n ∧ b ∈ List.range n) {i j : Nat} :
    j ∈ sccDescendants n edges i ↔
      ReflTransGen (fun a b => (a, b) ∈ edges) i j ∧ j ≠ i := by
  unfold sccDescendants
  rw [List.mem_filter, decide_eq_true_eq]
  have hch : ∀ u v, v ∈ (edges.filter (fun e => e.1 == u)).map (·.2) ↔ (u, v) ∈ edges := by
    intro u v; simp
  refine and_congr_left (fun _ => ?_)
  constructor
  · intro h
    obtain ⟨y, hy, hr⟩ := closure_sound h
    simp only [List.mem_singleton] at hy
    subst hy
    exact ReflTransGen.mono (fun a b hab => (hch a b).1 hab) _ _ hr
  · intro h
    obtain ⟨p, hp, hl, _, hlen⟩ := reach_bounded (nodes := List.range n)
      (R := fun a b => (a, b) ∈ edges) hin h
    rw [List.length_range] at hlen
    exact closure_complete (List.mem_singleton.2 rfl) (hp.imp (fun a b hab => (hch a b).2 hab)) hl hlen

theorem subgames_spec (h : IsSccs rg.nodes rg.Edge sccs) (hn : rg.nodes.Nodup)
    (hin : ∀ a b, rg.Edge a b → a ∈ rg.nodes ∧ b ∈ rg.nodes) :
    ∃ out, decsInEachSubgame rg sccs = .ok out ∧
      (∀ S ∈ out, S.Nodup ∧ S ≠ [] ∧ (∀ x ∈ S, x ∈ rg.nodes) ∧
        ∀ x ∈ S, ∀ y, rg.Edge x y → y ∈ S) ∧
      (∀ S : List Node, S ≠ [] → (∀ x ∈ S, x ∈ rg.nodes) → (∀ x ∈ S, ∀ y, rg.Edge x y → y ∈ S) →
        ∃ S' ∈ out, SameSet S' S) ∧
      out.Pairwise (fun S S' => ¬ SameSet S S') := by
  classical
  have hfn := h.flatNodup hn
  have hein : ∀ a b, (a, b) ∈ sccEdges rg (sccMapping sccs) →
      a ∈ List.range sccs.length ∧ b ∈ List.range sccs.length := by
    intro a b he
    obtain ⟨_, u, v, ci, cj, _, e1, e2, _⟩ := (mem_sccEdges hfn).1 he
    simpa using ⟨(List.getElem?_eq_some_iff.1 e1).1, (List.getElem?_eq_some_iff.1 e2).1⟩
  obtain ⟨f1, f2⟩ := prune_fold (sccDescendants sccs.length (sccEdges rg (sccMapping sccs)))
    (powerset1 (List.range sccs.length)) (powerset1 (List.range sccs.length))
    (nodup_powerset1 List.nodup_range)
  generalize hsub : (powerset1 (List.range sccs.length)).foldl (fun acc subset =>
    pruneSubset (sccDescendants sccs.length (sccEdges rg (sccMapping sccs))) subset acc subset)
    (powerset1 (List.range sccs.length)) = subgames at f1 f2
  have hsg : ∀ s ∈ subgames, s.Sublist (List.range sccs.length) ∧ s ≠ [] ∧
      ∀ i ∈ s, ∀ j, ReflTransGen (fun a b => (a, b) ∈ sccEdges rg (sccMapping sccs)) i j → j ∈ s := by
    intro s hs
    obtain ⟨h1, h2⟩ := (f2 s).1 hs
    obtain ⟨h3, h4⟩ := mem_powerset1.1 h1
    refine ⟨h3, h4, ?_⟩
    intro i hi j hr
    by_cases hji : j = i
    · rw [hji]; exact hi
    · exact h2 h1 i hi j ((mem_sccDescendants hein).2 ⟨hr, hji⟩)
  let f : List Nat → List Node := fun s => (s.map (fun i => (sccs[i]?).getD [])).flatten.dedup
  have hmemf : ∀ s ∈ subgames, ∀ x, x ∈ f s ↔ ∃ i ∈ s, ∃ c, sccs[i]? = some c ∧ x ∈ c := by
    intro s hs x
    simp only [f, List.mem_dedup, List.mem_flatten, List.mem_map]
    constructor
    · rintro ⟨c, ⟨i, hi, rfl⟩, hx⟩
      cases hc : sccs[i]? with
      | none => simp [hc] at hx
      | some c => simp only [hc, Option.getD_some] at hx; exact ⟨i, hi, c, hc, hx⟩
    · rintro ⟨i, hi, c, hc, hx⟩
      exact ⟨c, ⟨i, hi, by simp [hc]⟩, hx⟩
  refine ⟨subgames.map f, ?_, ?_, ?_, ?_⟩
  · unfold decsInEachSubgame
    simp only [hsub]
    apply mapPy_ok
    intro s hs
    have hs3 := (hsg s hs).1
    have : mapPy (fun scc => (decisionsInScc (sccMapping sccs)).get scc) s =
        .ok (s.map (fun i => (sccs[i]?).getD [])) := by
      apply mapPy_ok
      intro i hi
      have hlt : i < sccs.length := by simpa using hs3.subset hi
      rw [Dict.get_ok, decisionsInScc_spec h.nonempty, List.getElem?_eq_getElem hlt]
      rfl
    simp only [this, f]
  · intro S hS
    obtain ⟨s, hs, rfl⟩ := List.mem_map.1 hS
    obtain ⟨h1, h2, h3⟩ := hsg s hs
    refine ⟨List.nodup_dedup _, ?_, ?_, ?_⟩
    · obtain ⟨i, hi⟩ := List.exists_mem_of_ne_nil s h2
      have hlt : i < sccs.length := by simpa using h1.subset hi
      obtain ⟨x, hx⟩ := List.exists_mem_of_ne_nil _ (h.nonempty _ (List.getElem_mem hlt))
      intro he
      have : x ∈ f s := (hmemf s hs x).2 ⟨i, hi, _, List.getElem?_eq_getElem hlt, hx⟩
      rw [he] at this
      simp at this
    · intro x hx
      obtain ⟨i, _, c, hc, hxc⟩ := (hmemf s hs x).1 hx
      exact h.mem_nodes hc hxc
    · intro x hx y hxy
      obtain ⟨i, hi, c, hc, hxc⟩ := (hmemf s hs x).1 hx
      obtain ⟨j, cj, e1, e2, e3⟩ := reach_cond h hn hin (ReflTransGen.single hxy) hc hxc
      exact (hmemf s hs y).2 ⟨j, h3 i hi j e3, cj, e1, e2⟩
  · intro S hne hsub' hcl
    have hclr : ∀ x ∈ S, ∀ y, ReflTransGen rg.Edge x y → y ∈ S := by
      intro x hx y hxy
      induction hxy with
      | refl => exact hx
      | tail _ he ih => exact hcl _ ih _ he
    let s := (List.range sccs.length).filter (fun i => decide (∃ c, sccs[i]? = some c ∧ ∃ x ∈ c, x ∈ S))
    have hmem : ∀ i, i ∈ s ↔ ∃ c, sccs[i]? = some c ∧ ∃ x ∈ c, x ∈ S := by
      intro i
      simp only [s, List.mem_filter, List.mem_range, decide_eq_true_eq]
      constructor
      · exact And.right
      · rintro ⟨c, hc, hh⟩
        exact ⟨(List.getElem?_eq_some_iff.1 hc).1, c, hc, hh⟩
    have hs : s ∈ subgames := by
      rw [f2]
      have hp : s ∈ powerset1 (List.range sccs.length) := by
        rw [mem_powerset1]
        refine ⟨List.filter_sublist, ?_⟩
        obtain ⟨x, hx⟩ := List.exists_mem_of_ne_nil S hne
        obtain ⟨i, c, hc, hxc⟩ := exists_idx h (hsub' x hx)
        exact List.ne_nil_of_mem ((hmem i).2 ⟨c, hc, x, hxc, hx⟩)
      refine ⟨hp, fun _ => ?_⟩
      intro i hi j hj
      obtain ⟨hr, _⟩ := (mem_sccDescendants hein).1 hj
      obtain ⟨c, hc, x, hxc, hxS⟩ := (hmem i).1 hi
      obtain ⟨cj, e1, e2⟩ := cond_reach h hn hr hc hxc
      obtain ⟨y, hy⟩ := List.exists_mem_of_ne_nil _ (h.nonempty _ (List.mem_of_getElem? e1))
      exact (hmem j).2 ⟨cj, e1, y, hy, hclr x hxS y (e2 y hy)⟩
    refine ⟨f s, List.mem_map.2 ⟨s, hs, rfl⟩, ?_⟩
    intro x
    rw [hmemf s hs]
    constructor
    · rintro ⟨i, hi, c, hc, hx⟩
      obtain ⟨c', hc', y, hy, hyS⟩ := (hmem i).1 hi
      rw [hc] at hc'; cases hc'
      exact hclr y hyS x ((h.classes c (List.mem_of_getElem? hc) y hy x (h.mem_nodes hc hx)).1 hx).1
    · intro hx
      obtain ⟨i, c, hc, hxc⟩ := exists_idx h (hsub' x hx)
      exact ⟨i, (hmem i).2 ⟨c, hc, x, hxc, hx⟩, c, hc, hxc⟩
  · rw [List.pairwise_map]
    have f1' : subgames.Pairwise (fun a b => a ∈ subgames ∧ b ∈ subgames ∧ a ≠ b) :=
      List.Pairwise.imp_of_mem (fun ha hb hab => ⟨ha, hb, hab⟩) f1
    refine f1'.imp ?_
    rintro a b ⟨ha, hb, hab⟩ hsame
    apply hab
    have key : ∀ s t, s ∈ subgames → t ∈ subgames → SameSet (f s) (f t) → ∀ i ∈ s, i ∈ t := by
      intro s t hs ht hst i hi
      have hlt : i < sccs.length := by simpa using (hsg s hs).1.subset hi
      obtain ⟨x, hx⟩ := List.exists_mem_of_ne_nil _ (h.nonempty _ (List.getElem_mem hlt))
      have := (hst x).1 ((hmemf s hs x).2 ⟨i, hi, _, List.getElem?_eq_getElem hlt, hx⟩)
      obtain ⟨j, hj, c, hc, hxc⟩ := (hmemf t ht x).1 this
      have := idx_unique hfn hc (List.getElem?_eq_getElem hlt) hxc hx
      rw [← this]; exact hj
    have hsorted : ∀ s ∈ subgames, s.Pairwise (· < ·) := fun s hs =>
      List.Pairwise.sublist (hsg s hs).1 List.pairwise_lt_range
    have hp : a.Perm b := by
      rw [List.perm_ext_iff_of_nodup ((hsorted a ha).imp (fun h => Nat.ne_of_lt h))
        ((hsorted b hb).imp (fun h => Nat.ne_of_lt h))]
      intro i
      exact ⟨key a b ha hb hsame i, key b a hb ha (fun x => (hsame x).symm) i⟩
    exact hp.eq_of_pairwise (le := (· < ·)) (fun x y _ _ h1 h2 => absurd h1 (by omega)) (hsorted a ha) (hsorted b hb)

end

end Macid
end Verif

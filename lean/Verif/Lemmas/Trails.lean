import Verif.Lemmas.Ball

/-! Helpers for loops that may raise, motif lists, trail functions. -/

namespace Verif
open Relation

theorem anyM_ok {α : Type} {f : α → Py Bool} {xs : List α}
    (h : ∀ x ∈ xs, ∃ b, f x = .ok b) :
    ∃ v, anyM f xs = .ok v ∧ (v = true ↔ ∃ x ∈ xs, f x = .ok true) := by
  induction xs with
  | nil => exact ⟨false, rfl, by simp⟩
  | cons x xs ih =>
    obtain ⟨v, hv, hiff⟩ := ih (fun y hy => h y (by simp [hy]))
    obtain ⟨b, hb⟩ := h x (by simp)
    unfold anyM
    rw [hb]
    cases b with
    | true => exact ⟨true, rfl, by simp [hb]⟩
    | false =>
      refine ⟨v, hv, ?_⟩
      rw [hiff]
      simp [hb]

theorem mapPy_ok {α β : Type} {f : α → Py β} {xs : List α}
    (h : ∀ x ∈ xs, ∃ y, f x = .ok y) :
    ∃ ys, mapPy f xs = .ok ys ∧ List.Forall₂ (fun x y => f x = .ok y) xs ys := by
  induction xs with
  | nil => exact ⟨[], rfl, List.Forall₂.nil⟩
  | cons x xs ih =>
    obtain ⟨ys, hys, hf⟩ := ih (fun y hy => h y (by simp [hy]))
    obtain ⟨y, hy⟩ := h x (by simp)
    refine ⟨y :: ys, ?_, List.Forall₂.cons hy hf⟩
    unfold mapPy
    rw [hy, hys]

theorem mapPy_ok_iff {α β : Type} {f : α → Py β} {xs : List α} {ys : List β} :
    mapPy f xs = .ok ys ↔ List.Forall₂ (fun x y => f x = .ok y) xs ys := by
  constructor
  · intro h
    induction xs generalizing ys with
    | nil => unfold mapPy at h; cases h; exact List.Forall₂.nil
    | cons x xs ih =>
      unfold mapPy at h
      cases hx : f x with
      | error e => rw [hx] at h; cases h
      | ok y =>
        rw [hx] at h
        cases hxs : mapPy f xs with
        | error e => rw [hxs] at h; cases h
        | ok ys' =>
          rw [hxs] at h
          cases h
          exact List.Forall₂.cons hx (ih hxs)
  · intro h
    induction h with
    | nil => rfl
    | cons hx _ ih => unfold mapPy; rw [hx, ih]

namespace Graph

theorem check_ok {g : Graph} {xs : List Node} {e : Err} (h : ∀ x ∈ xs, x ∈ g.nodes) :
    checkAll xs g.hasNode e = .ok () := by
  rw [checkAll_ok]
  intro x hx
  simpa [hasNode] using h x hx

theorem check_err {g : Graph} {xs : List Node} {e : Err} (h : ¬ ∀ x ∈ xs, x ∈ g.nodes) :
    checkAll xs g.hasNode e = .error e := by
  rw [checkAll_err]
  refine ⟨rfl, ?_⟩
  by_contra hc
  apply h
  intro x hx
  by_contra hn
  exact hc ⟨x, hx, by simpa [hasNode] using hn⟩

theorem getMotif_iff {g : Graph} (ha : g.Acyclic) {l r : List Node} {a b c : Node}
    (hp : l ++ a :: b :: c :: r ⊆ g.nodes) (hab : g.Adj a b) (hbc : g.Adj b c) {m : Motif} :
    getMotif g (l ++ a :: b :: c :: r) (l.length + 1) = .ok m ↔ g.MotifOf a b c m := by
  obtain ⟨m', h1, h2⟩ := getMotif_split ha hp hab hbc
  rw [h1]
  constructor
  · intro h; cases h; exact h2
  · intro h
    have : m' = m := by
      cases m <;> cases m' <;> simp only [MotifOf] at h h2 <;>
        first
          | rfl
          | exact absurd h2.1 (fun h' => no_two_cycle ha h.1 h')
          | exact absurd h2.2 (fun h' => no_two_cycle ha h.2 h')
    rw [this]

theorem getMotif_last {g : Graph} {l : List Node} {e : Node} (hp : l ++ [e] ⊆ g.nodes) :
    getMotif g (l ++ [e]) l.length = .ok .endpoint := by
  unfold getMotif
  rw [getMotif_check hp]
  simp

/-- `get_motifs` on a path of at least two nodes. -/
theorem getMotifs_spec {g : Graph} (ha : g.Acyclic) {p : List Node} (hp : p ⊆ g.nodes)
    (hc : p.IsChain g.Adj) (hlen : 2 ≤ p.length) :
    ∃ ms, getMotifs g p = .ok ms ∧ ms.length = p.length ∧
      (∀ a b r, p = a :: b :: r → ∃ m ms', ms = m :: ms' ∧
        ((m = .forward ∧ g.Edge a b) ∨ (m = .backward ∧ ¬ g.Edge a b))) ∧
      (∀ i, 0 < i → ∀ m, ms[i]? = some m → getMotif g p i = .ok m) := by
  unfold getMotifs
  rw [getMotif_check hp]
  simp only
  have hall : ∀ i ∈ List.range p.length, ∃ y,
      (if i = 0 then
        match p[0]?, p[1]? with
        | some a, some b => .ok (if a ∈ g.parents b then Motif.forward else Motif.backward)
        | _, _ => .error .index
      else getMotif g p i : Py Motif) = .ok y := by
    intro i hi
    rw [List.mem_range] at hi
    by_cases h0 : i = 0
    · rw [if_pos h0]
      cases p with
      | nil => simp at hlen
      | cons a p =>
        cases p with
        | nil => simp at hlen
        | cons b p => exact ⟨_, rfl⟩
    · rw [if_neg h0]
      obtain ⟨k, rfl⟩ := Nat.exists_eq_succ_of_ne_zero h0
      -- split p at position k
      by_cases hlast : p.length = k + 1 + 1
      · obtain ⟨l, e, rfl⟩ := exists_snoc (l := p) (by rintro rfl; simp at hlen)
        have : l.length = k + 1 := by simpa using hlast
        rw [Nat.succ_eq_add_one, ← this]
        exact ⟨_, getMotif_last hp⟩
      · have hk : k + 2 < p.length := by simp at hi; omega
        obtain ⟨l, a, b, c, r, rfl, hl⟩ : ∃ l a b c r, p = l ++ a :: b :: c :: r ∧ l.length = k := by
          refine ⟨p.take k, p[k], p[k+1], p[k+2], p.drop (k+3), ?_, by simp; omega⟩
          conv_lhs => rw [← List.take_append_drop k p]
          rw [List.drop_eq_getElem_cons (by omega), List.drop_eq_getElem_cons (by omega),
            List.drop_eq_getElem_cons (by omega)]
        have h1 := isChain_iff_split.1 hc l a b (c :: r) rfl
        have h2 := isChain_iff_split.1 hc (l ++ [a]) b c r (by simp)
        obtain ⟨m, hm, _⟩ := getMotif_split ha hp h1 h2
        rw [Nat.succ_eq_add_one, ← hl]
        exact ⟨m, hm⟩
  obtain ⟨ms, h1, h2⟩ := mapPy_ok hall
  refine ⟨ms, h1, by rw [← h2.length_eq]; simp, ?_, ?_⟩
  · rintro a b r rfl
    have hr : List.range (a :: b :: r).length = 0 :: (List.range (b :: r).length).map Nat.succ := by
      simp [List.range_succ_eq_map]
    rw [hr] at h2
    cases h2 with
    | @cons _ m _ ms' hm _ =>
      refine ⟨m, ms', rfl, ?_⟩
      simp only [if_true, List.getElem?_cons_zero, List.getElem?_cons_succ] at hm
      by_cases hab : a ∈ g.parents b
      · rw [if_pos hab] at hm; cases hm
        exact Or.inl ⟨rfl, mem_parents.1 hab⟩
      · rw [if_neg hab] at hm; cases hm
        exact Or.inr ⟨rfl, fun h => hab (mem_parents.2 h)⟩
  · intro i hi m hm
    have hlt : i < ms.length := by
      by_contra hc
      rw [List.getElem?_eq_none (by omega)] at hm
      cases hm
    have hlt' : i < (List.range p.length).length := by rw [h2.length_eq]; exact hlt
    have := (List.forall₂_iff_get.1 h2).2 i hlt' hlt
    rw [List.getElem?_eq_getElem hlt] at hm
    cases hm
    simp only [List.get_eq_getElem, List.getElem_range] at this
    rw [if_neg (by omega)] at this
    exact this

theorem collider_mem_motifs {g : Graph} (hw : g.WF) {p : List Node} (hp : p ⊆ g.nodes)
    (hc : p.IsChain g.Adj) (hlen : 2 ≤ p.length) :
    ∃ ms, getMotifs g p = .ok ms ∧
      (Motif.collider ∈ ms ↔ ∃ l a b c r, p = l ++ a :: b :: c :: r ∧ g.Edge a b ∧ g.Edge c b) := by
  obtain ⟨ms, h1, h2, h3, h4⟩ := getMotifs_spec hw.acyclic hp hc hlen
  refine ⟨ms, h1, ?_⟩
  constructor
  · intro h
    obtain ⟨i, hi, hget⟩ := List.mem_iff_getElem.1 h
    by_cases h0 : i = 0
    · subst h0
      obtain ⟨a, p', rfl⟩ : ∃ a p', p = a :: p' := by
        cases p with
        | nil => simp at hlen
        | cons a p' => exact ⟨a, p', rfl⟩
      obtain ⟨b, r, rfl⟩ : ∃ b r, p' = b :: r := by
        cases p' with
        | nil => simp at hlen
        | cons b r => exact ⟨b, r, rfl⟩
      obtain ⟨m, ms', rfl, hm⟩ := h3 a b r rfl
      simp at hget
      rcases hm with ⟨rfl, _⟩ | ⟨rfl, _⟩ <;> cases hget
    · have hm := h4 i (by omega) Motif.collider (by rw [List.getElem?_eq_getElem hi, hget])
      obtain ⟨k, rfl⟩ := Nat.exists_eq_succ_of_ne_zero h0
      by_cases hk : k + 2 < p.length
      · obtain ⟨l, a, b, c, r, rfl, hl⟩ : ∃ l a b c r, p = l ++ a :: b :: c :: r ∧ l.length = k := by
          refine ⟨p.take k, p[k], p[k+1], p[k+2], p.drop (k+3), ?_, by simp; omega⟩
          conv_lhs => rw [← List.take_append_drop k p]
          rw [List.drop_eq_getElem_cons (by omega), List.drop_eq_getElem_cons (by omega),
            List.drop_eq_getElem_cons (by omega)]
        have e1 := isChain_iff_split.1 hc l a b (c :: r) rfl
        have e2 := isChain_iff_split.1 hc (l ++ [a]) b c r (by simp)
        rw [Nat.succ_eq_add_one, ← hl, getMotif_iff hw.acyclic hp e1 e2] at hm
        exact ⟨l, a, b, c, r, rfl, hm.1, hm.2⟩
      · have hl : p.length = k + 1 + 1 := by omega
        obtain ⟨l, e, rfl⟩ := exists_snoc (l := p) (by rintro rfl; simp at hlen)
        have : l.length = k + 1 := by simpa using hl
        rw [Nat.succ_eq_add_one, ← this, getMotif_last hp] at hm
        cases hm
  · rintro ⟨l, a, b, c, r, rfl, hab, hcb⟩
    have hlt : l.length + 1 < ms.length := by rw [h2]; simp
    have hm := h4 (l.length + 1) (by omega) _ (List.getElem?_eq_getElem hlt)
    have e1 := isChain_iff_split.1 hc l a b (c :: r) rfl
    have e2 := isChain_iff_split.1 hc (l ++ [a]) b c r (by simp)
    have := (getMotif_iff hw.acyclic hp e1 e2 (m := .collider)).2 ⟨hab, hcb⟩
    rw [this] at hm
    have : ms[l.length + 1] = Motif.collider := by injection hm with hm; exact hm.symm
    rw [← this]
    exact List.getElem_mem hlt

theorem backdoor_spec {g : Graph} (hw : g.WF) {ord : SetOrder} (ho : ord.Valid) {s t : Node}
    {Z : List Node} (hs : s ∈ g.nodes) (ht : t ∈ g.nodes) (hz : Z ⊆ g.nodes) :
    ∃ v, isActiveBackdoorTrail ord g s t Z = .ok v ∧
      (v = true ↔ ∃ n r, g.IsUndirPath s t (s :: n :: r) ∧ g.Edge n s ∧ g.Active Z (s :: n :: r)) := by
  unfold isActiveBackdoorTrail
  rw [check_ok (by intro x hx; simp at hx; rcases hx with h | rfl | rfl; exacts [hz h, hs, ht])]
  simp only
  unfold findAllUndirPaths
  rw [check_ok (by intro x hx; simp at hx; rcases hx with rfl | rfl; exacts [hs, ht])]
  simp only
  have hmem := fun p => mem_dfs_undir hw ho (t := t) hs (p := p)
  have hok : ∀ p ∈ dfsSearchPaths (fun p => ord p (undirNbrs g p)) s t g.nodes.length, ∃ b,
      (match p with
        | a :: b :: _ =>
          match isActivePath g p Z with
          | .error e => .error e
          | .ok act => .ok (decide (b ∈ g.parents a) && act)
        | _ => .ok false : Py Bool) = .ok b := by
    intro p hp
    rw [hmem] at hp
    match p with
    | [] => exact ⟨_, rfl⟩
    | [a] => exact ⟨_, rfl⟩
    | a :: b :: r =>
      obtain ⟨v, hv, _⟩ := isActivePath_spec hw (undirPath_subset hw hs hp) hz hp.2.2.1 hp.2.2.2
      simp only [hv]
      exact ⟨_, rfl⟩
  obtain ⟨v, hv, hiff⟩ := anyM_ok hok
  refine ⟨v, hv, ?_⟩
  rw [hiff]
  constructor
  · rintro ⟨p, hp, hb⟩
    rw [hmem] at hp
    match p with
    | [] => cases hb
    | [a] => cases hb
    | a :: b :: r =>
      have has : a = s := by simpa using hp.1
      subst has
      obtain ⟨v, hv, hact⟩ := isActivePath_spec hw (undirPath_subset hw hs hp) hz hp.2.2.1 hp.2.2.2
      simp only [hv] at hb
      injection hb with hb
      rw [Bool.and_eq_true, decide_eq_true_eq, mem_parents] at hb
      exact ⟨b, r, hp, hb.1, hact.1 hb.2⟩
  · rintro ⟨n, r, hp, he, ha⟩
    refine ⟨s :: n :: r, (hmem _).2 hp, ?_⟩
    obtain ⟨v, hv, hact⟩ := isActivePath_spec hw (undirPath_subset hw hs hp) hz hp.2.2.1 hp.2.2.2
    simp only [hv]
    rw [hact.2 ha]
    simp [mem_parents, he]

theorem frontdoor_spec {g : Graph} (hw : g.WF) {ord : SetOrder} (ho : ord.Valid) {s t : Node}
    {Z : List Node} (hs : s ∈ g.nodes) (ht : t ∈ g.nodes) (hz : Z ⊆ g.nodes) (hst : s ≠ t) :
    ∃ v, isActiveIndirectFrontdoorTrail ord g s t Z = .ok v ∧
      (v = true ↔ ∃ n r, g.IsUndirPath s t (s :: n :: r) ∧ g.Edge s n ∧ g.Active Z (s :: n :: r) ∧
        ∃ l a b c r', s :: n :: r = l ++ a :: b :: c :: r' ∧ g.Edge a b ∧ g.Edge c b) := by
  unfold isActiveIndirectFrontdoorTrail
  rw [check_ok (by intro x hx; simp at hx; rcases hx with h | rfl | rfl; exacts [hz h, hs, ht])]
  simp only
  unfold findAllUndirPaths
  rw [check_ok (by intro x hx; simp at hx; rcases hx with rfl | rfl; exacts [hs, ht])]
  simp only
  have hmem := fun p => mem_dfs_undir hw ho (t := t) hs (p := p)
  have hshape : ∀ p, g.IsUndirPath s t p → ∃ n r, p = s :: n :: r := by
    rintro p ⟨h1, h2, _, _⟩
    match p with
    | [] => simp at h1
    | [a] => simp at h1 h2; exact absurd (h1.symm.trans h2) hst
    | a :: b :: r => simp at h1; subst h1; exact ⟨b, r, rfl⟩
  have hok : ∀ p ∈ dfsSearchPaths (fun p => ord p (undirNbrs g p)) s t g.nodes.length, ∃ b,
      (match p with
        | a :: b :: _ =>
          match isActivePath g p Z with
          | .error e => .error e
          | .ok act =>
            match getMotifs g p with
            | .error e => .error e
            | .ok ms => .ok (decide (a ∈ g.parents b) && act && decide (Motif.collider ∈ ms))
        | _ => .error .index : Py Bool) = .ok b := by
    intro p hp
    rw [hmem] at hp
    obtain ⟨n, r, rfl⟩ := hshape p hp
    obtain ⟨v, hv, _⟩ := isActivePath_spec hw (undirPath_subset hw hs hp) hz hp.2.2.1 hp.2.2.2
    obtain ⟨ms, hms, _⟩ := collider_mem_motifs hw (undirPath_subset hw hs hp) hp.2.2.1 (by simp)
    simp only [hv, hms]
    exact ⟨_, rfl⟩
  obtain ⟨v, hv, hiff⟩ := anyM_ok hok
  refine ⟨v, hv, ?_⟩
  rw [hiff]
  constructor
  · rintro ⟨p, hp, hb⟩
    rw [hmem] at hp
    obtain ⟨n, r, rfl⟩ := hshape p hp
    obtain ⟨v, hv, hact⟩ := isActivePath_spec hw (undirPath_subset hw hs hp) hz hp.2.2.1 hp.2.2.2
    obtain ⟨ms, hms, hcol⟩ := collider_mem_motifs hw (undirPath_subset hw hs hp) hp.2.2.1 (by simp)
    simp only [hv, hms] at hb
    injection hb with hb
    rw [Bool.and_eq_true, Bool.and_eq_true, decide_eq_true_eq, decide_eq_true_eq, mem_parents] at hb
    exact ⟨n, r, hp, hb.1.1, hact.1 hb.1.2, hcol.1 hb.2⟩
  · rintro ⟨n, r, hp, he, ha, hcl⟩
    refine ⟨s :: n :: r, (hmem _).2 hp, ?_⟩
    obtain ⟨v, hv, hact⟩ := isActivePath_spec hw (undirPath_subset hw hs hp) hz hp.2.2.1 hp.2.2.2
    obtain ⟨ms, hms, hcol⟩ := collider_mem_motifs hw (undirPath_subset hw hs hp) hp.2.2.1 (by simp)
    simp only [hv, hms]
    rw [hact.2 ha]
    simp [mem_parents, he, hcol.2 hcl]

theorem active_depth {g : Graph} (hw : g.WF) {ord : SetOrder} (ho : ord.Valid) {Z : List Node}
    {s t : Node} (hs : s ∈ g.nodes) :
    DepthLE (fun p => ord p (activeNeighbours g Z p)) t g.nodes.length [s] := by
  refine depthLE_of_inv (P := fun path => path ≠ [] ∧ path.Nodup ∧ path ⊆ g.nodes)
    (nodes := g.nodes) ?_ (fun path hp => hp.2) _ _ ?_ (by simp)
  · intro path n hp hn _
    rw [(ho path _).mem_iff] at hn
    obtain ⟨l1, e, rfl⟩ := exists_snoc hp.1
    rw [mem_activeNeighbours_snoc hw] at hn
    refine ⟨by simp, ?_, ?_⟩
    · rw [List.nodup_append]
      refine ⟨hp.2.1, by simp, ?_⟩
      intro x hx y hy
      simp only [List.mem_singleton] at hy; subst hy
      rintro rfl; exact hn.1 hx
    · intro x hx
      rcases List.mem_append.1 hx with hx | hx
      · exact hp.2.2 hx
      · simp only [List.mem_singleton] at hx; subst hx
        rcases hn.2 with h | h
        · exact (hw.edgeNodes _ _ h.1).1
        · exact (hw.edgeNodes _ _ h.1).2
  · exact ⟨by simp, by simp, by simpa using hs⟩

end Graph
end Verif

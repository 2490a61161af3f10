import Verif.Lemmas.Dfs

/-! Correctness of the directed and undirected path enumerations. -/

namespace Verif
open Relation

theorem checkAll_ok {α : Type} {xs : List α} {f : α → Bool} {e : Err} :
    checkAll xs f e = .ok () ↔ ∀ x ∈ xs, f x = true := by
  unfold checkAll
  split
  · rename_i h; simpa using h
  · rename_i h; simpa using h

theorem checkAll_err {α : Type} {xs : List α} {f : α → Bool} {e e' : Err} :
    checkAll xs f e = .error e' ↔ e' = e ∧ ∃ x ∈ xs, f x = false := by
  unfold checkAll
  split
  · rename_i h
    simp only [reduceCtorEq, false_iff, not_and, not_exists, Bool.not_eq_false]
    rintro - x hx
    rw [List.all_eq_true] at h
    exact h x hx
  · rename_i h
    rw [List.all_eq_true] at h
    simp only [Except.error.injEq]
    constructor
    · rintro rfl
      simp only [true_and]
      by_contra hc
      apply h
      intro x hx
      by_contra hf
      exact hc ⟨x, hx, by simpa using hf⟩
    · rintro ⟨rfl, _⟩; rfl

theorem exists_snoc {α : Type} {l : List α} (h : l ≠ []) : ∃ l1 e, l = l1 ++ [e] :=
  ⟨l.dropLast, l.getLast h, (List.dropLast_append_getLast h).symm⟩

theorem getLast?_eq_some_snoc {α : Type} {l : List α} {e : α} (h : l.getLast? = some e) :
    ∃ l1, l = l1 ++ [e] := by
  have hne : l ≠ [] := by rintro rfl; simp at h
  obtain ⟨l1, e', rfl⟩ := exists_snoc hne
  simp at h; subst h
  exact ⟨l1, rfl⟩

/-- A list that starts with `s` and ends with `t ≠ s`. -/
theorem head_last_split {α : Type} {p : List α} {s t : α} (hs : p.head? = some s)
    (ht : p.getLast? = some t) (hst : s ≠ t) : ∃ q, p = s :: q ++ [t] := by
  obtain ⟨l1, rfl⟩ := getLast?_eq_some_snoc ht
  cases l1 with
  | nil => simp at hs; exact absurd hs.symm hst
  | cons a l1 => simp at hs; subst hs; exact ⟨l1, by simp⟩

/-- A repetition free list that starts and ends with `s` is `[s]`. -/
theorem head_last_self {α : Type} {p : List α} {s : α} (hs : p.head? = some s)
    (ht : p.getLast? = some s) (hn : p.Nodup) : p = [s] := by
  obtain ⟨l1, rfl⟩ := getLast?_eq_some_snoc ht
  cases l1 with
  | nil => rfl
  | cons a l1 =>
    simp at hs; subst hs
    simp at hn

namespace Graph

theorem chain_desc {g : Graph} {a : Node} {p : List Node} (h : (a :: p).IsChain g.Edge) :
    ∀ x ∈ p, g.Desc a x := by
  induction p generalizing a with
  | nil => simp
  | cons b p ih =>
    rw [List.isChain_cons_cons] at h
    intro x hx
    rcases List.mem_cons.1 hx with rfl | hx
    · exact TransGen.single h.1
    · exact TransGen.head h.1 (ih h.2 x hx)

theorem chain_nodup {g : Graph} (ha : g.Acyclic) {p : List Node} (h : p.IsChain g.Edge) : p.Nodup := by
  induction p with
  | nil => simp
  | cons a p ih =>
    refine List.nodup_cons.2 ⟨?_, ih h.tail⟩
    intro hm
    exact ha a (chain_desc h a hm)

theorem chain_mem {g : Graph} (hw : g.WF) {a : Node} {p : List Node} (h : (a :: p).IsChain g.Edge) :
    ∀ x ∈ p, x ∈ g.nodes := fun x hx => (desc_mem hw (chain_desc h x hx)).2

theorem Adj.symm {g : Graph} {a b : Node} (h : g.Adj a b) : g.Adj b a := Or.symm h

theorem Adj.mem {g : Graph} (hw : g.WF) {a b : Node} (h : g.Adj a b) : a ∈ g.nodes ∧ b ∈ g.nodes := by
  rcases h with h | h
  · exact hw.edgeNodes _ _ h
  · exact ⟨(hw.edgeNodes _ _ h).2, (hw.edgeNodes _ _ h).1⟩

theorem adjchain_mem {g : Graph} (hw : g.WF) {a : Node} {p : List Node} (h : (a :: p).IsChain g.Adj) :
    ∀ x ∈ p, x ∈ g.nodes := by
  induction p generalizing a with
  | nil => simp
  | cons b p ih =>
    rw [List.isChain_cons_cons] at h
    intro x hx
    rcases List.mem_cons.1 hx with rfl | hx
    · exact (h.1.mem hw).2
    · exact ih h.2 x hx

theorem dirSucc_snoc {g : Graph} {l : List Node} {e : Node} : dirSucc g (l ++ [e]) = g.children e := by
  simp [dirSucc]

theorem mem_undirNbrs_snoc {g : Graph} {l : List Node} {e n : Node} :
    n ∈ undirNbrs g (l ++ [e]) ↔ g.Adj e n ∧ n ∉ l ++ [e] := by
  simp [undirNbrs, List.mem_dedup, mem_children, mem_parents, Adj]

/-! ### Directed paths -/

theorem ext_dirSucc {g : Graph} (hw : g.WF) {s t : Node} (hst : s ≠ t) {p : List Node} :
    Ext (dirSucc g) t [s] p ↔ g.IsDirPath s t p := by
  rw [ext_iff]
  constructor
  · rintro ⟨q, rfl, _, hq⟩
    refine ⟨by simp, List.getLast?_concat, ?_⟩
    rw [isChain_iff_split]
    intro l1 a b l2 he
    -- the predecessor list is non empty and starts with s
    have hne : l1 ++ [a] ≠ [] := by simp
    have he' : s :: (q ++ [t]) = (l1 ++ [a]) ++ b :: l2 := by simpa using he
    cases hl : l1 ++ [a] with
    | nil => exact absurd hl hne
    | cons c q1 =>
      rw [hl] at he'
      simp at he'
      have := hq q1 b l2 he'.2
      have hpath : [s] ++ q1 = l1 ++ [a] := by rw [hl, he'.1]; rfl
      rw [hpath, dirSucc_snoc, mem_children] at this
      exact this
  · rintro ⟨hs, ht, hc⟩
    obtain ⟨q, rfl⟩ := head_last_split hs ht hst
    refine ⟨q, by simp, ?_, ?_⟩
    · have := chain_nodup hw.acyclic hc
      rw [List.cons_append, List.nodup_cons, List.nodup_append] at this
      intro hq
      exact this.2.2.2 t hq t (by simp) rfl
    · intro q1 n q2 he
      obtain ⟨l1, e, hl⟩ := exists_snoc (l := [s] ++ q1) (by simp)
      rw [hl, dirSucc_snoc, mem_children]
      refine isChain_iff_split.1 hc l1 e n q2 ?_
      have : s :: q ++ [t] = ([s] ++ q1) ++ n :: q2 := by simp [he]
      rw [this, hl]; simp

/-- Invariant of the directed search. -/
theorem dir_inv {g : Graph} (hw : g.WF) {path : List Node} {n : Node}
    (hp : path ≠ [] ∧ path.IsChain g.Edge ∧ path ⊆ g.nodes) (hn : n ∈ dirSucc g path) :
    (path ++ [n]) ≠ [] ∧ (path ++ [n]).IsChain g.Edge ∧ (path ++ [n]) ⊆ g.nodes := by
  obtain ⟨l1, e, rfl⟩ := exists_snoc hp.1
  rw [dirSucc_snoc, mem_children] at hn
  refine ⟨by simp, ?_, ?_⟩
  · rw [List.isChain_append]
    refine ⟨hp.2.1, by simp, ?_⟩
    intro x hx y hy
    simp at hx hy
    subst hx; subst hy; exact hn
  · intro x hx
    rcases List.mem_append.1 hx with hx | hx
    · exact hp.2.2 hx
    · simp at hx; subst hx; exact (hw.edgeNodes _ _ hn).2

theorem dir_depth {g : Graph} (hw : g.WF) {s t : Node} (hs : s ∈ g.nodes) :
    DepthLE (dirSucc g) t g.nodes.length [s] := by
  refine depthLE_of_inv (P := fun path => path ≠ [] ∧ path.IsChain g.Edge ∧ path ⊆ g.nodes)
    (nodes := g.nodes) (fun path n hp hn _ => dir_inv hw hp hn)
    (fun path hp => ⟨chain_nodup hw.acyclic hp.2.1, hp.2.2⟩) _ _ ?_ (by simp)
  exact ⟨by simp, by simp, by simpa using hs⟩

theorem mem_dfs_dir {g : Graph} (hw : g.WF) {s t : Node} (hs : s ∈ g.nodes) {p : List Node} :
    p ∈ dfsSearchPaths (dirSucc g) s t g.nodes.length ↔ g.IsDirPath s t p := by
  unfold dfsSearchPaths
  split
  · rename_i hst
    subst hst
    simp only [List.mem_singleton]
    constructor
    · rintro rfl; exact ⟨by simp, by simp, by simp⟩
    · rintro ⟨h1, h2, h3⟩
      exact head_last_self h1 h2 (chain_nodup hw.acyclic h3)
  · rename_i hst
    rw [mem_dfsRec, ext_dirSucc hw hst]
    constructor
    · exact fun h => h.1
    · intro h
      refine ⟨h, ?_⟩
      have hn := chain_nodup hw.acyclic h.2.2
      obtain ⟨q, rfl⟩ := head_last_split h.1 h.2.1 hst
      have : (s :: q ++ [t]).length ≤ g.nodes.length := by
        refine length_le_of_nodup_subset hn ?_
        intro x hx
        rw [List.cons_append] at hx
        rcases List.mem_cons.1 hx with rfl | hx
        · exact hs
        · exact chain_mem hw h.2.2 x hx
      simp at this ⊢; omega

theorem nodup_dfs_dir {g : Graph} (hw : g.WF) {s t : Node} (d : Nat) :
    (dfsSearchPaths (dirSucc g) s t d).Nodup := by
  unfold dfsSearchPaths
  split
  · simp
  · refine nodup_dfsRec ?_ _ _
    intro path
    unfold dirSucc
    split
    · simp
    · exact nodup_children hw.edgesNodup _

/-! ### Undirected paths -/

theorem ext_undir {g : Graph} {ord : SetOrder} (ho : ord.Valid) {s t : Node} (hst : s ≠ t)
    {p : List Node} :
    Ext (fun p => ord p (undirNbrs g p)) t [s] p ↔ g.IsUndirPath s t p := by
  have hmem : ∀ path n, n ∈ ord path (undirNbrs g path) ↔ n ∈ undirNbrs g path :=
    fun path n => (ho path _).mem_iff
  rw [ext_iff]
  simp only [hmem]
  constructor
  · rintro ⟨q, rfl, htq, hq⟩
    have key : ∀ l1 a b l2, [s] ++ q ++ [t] = l1 ++ a :: b :: l2 → g.Adj a b ∧ b ∉ l1 ++ [a] := by
      intro l1 a b l2 he
      have he' : s :: (q ++ [t]) = (l1 ++ [a]) ++ b :: l2 := by simpa using he
      cases hl : l1 ++ [a] with
      | nil => simp at hl
      | cons c q1 =>
        rw [hl] at he'
        simp at he'
        have := hq q1 b l2 he'.2
        have hpath : [s] ++ q1 = l1 ++ [a] := by rw [hl, he'.1]; rfl
        rw [hpath, mem_undirNbrs_snoc] at this
        rw [← hl]
        exact this
    refine ⟨by simp, List.getLast?_concat, ?_, ?_⟩
    · rw [isChain_iff_split]
      intro l1 a b l2 he
      exact (key l1 a b l2 he).1
    · -- no repetition: every element is outside its prefix
      have : ∀ r, r <+: ([s] ++ q ++ [t]) → r.Nodup := by
        intro r
        induction r using List.reverseRecOn with
        | nil => simp
        | append_singleton r b ih =>
          intro hr
          have hr' : r <+: ([s] ++ q ++ [t]) := (List.prefix_append _ _).trans hr
          cases hr0 : r with
          | nil => simp
          | cons c r0 =>
            obtain ⟨l1, a, hla⟩ := exists_snoc (l := r) (by simp [hr0])
            obtain ⟨l2, hl2⟩ := hr
            have := (key l1 a b l2 (by rw [← hl2, hla]; simp)).2
            rw [← hr0, List.nodup_append]
            refine ⟨ih hr', by simp, ?_⟩
            intro x hx y hy
            simp at hy; subst hy
            rintro rfl
            rw [← hla] at this
            exact this hx
      exact this _ List.prefix_rfl
  · rintro ⟨hs, ht, hc, hn⟩
    obtain ⟨q, rfl⟩ := head_last_split hs ht hst
    refine ⟨q, by simp, ?_, ?_⟩
    · rw [List.cons_append, List.nodup_cons, List.nodup_append] at hn
      intro hq
      exact hn.2.2.2 t hq t (by simp) rfl
    · intro q1 n q2 he
      obtain ⟨l1, e, hl⟩ := exists_snoc (l := [s] ++ q1) (by simp)
      have hp : s :: q ++ [t] = ([s] ++ q1) ++ n :: q2 := by simp [he]
      rw [hl, mem_undirNbrs_snoc]
      constructor
      · refine isChain_iff_split.1 hc l1 e n q2 ?_
        rw [hp, hl]; simp
      · rw [hp, hl, List.nodup_append] at hn
        intro hm
        exact hn.2.2 n hm n (by simp) rfl

theorem undir_depth {g : Graph} (hw : g.WF) {ord : SetOrder} (ho : ord.Valid) {s t : Node}
    (hs : s ∈ g.nodes) :
    DepthLE (fun p => ord p (undirNbrs g p)) t g.nodes.length [s] := by
  refine depthLE_of_inv (P := fun path => path ≠ [] ∧ path.Nodup ∧ path ⊆ g.nodes)
    (nodes := g.nodes) ?_ (fun path hp => hp.2) _ _ ?_ (by simp)
  · intro path n hp hn _
    rw [(ho path _).mem_iff] at hn
    obtain ⟨l1, e, rfl⟩ := exists_snoc hp.1
    rw [mem_undirNbrs_snoc] at hn
    refine ⟨by simp, ?_, ?_⟩
    · rw [List.nodup_append]
      refine ⟨hp.2.1, by simp, ?_⟩
      intro x hx y hy
      simp only [List.mem_singleton] at hy; subst hy
      rintro rfl; exact hn.2 hx
    · intro x hx
      rcases List.mem_append.1 hx with hx | hx
      · exact hp.2.2 hx
      · simp only [List.mem_singleton] at hx; subst hx; exact (hn.1.mem hw).2
  · exact ⟨by simp, by simp, by simpa using hs⟩

theorem undirPath_subset {g : Graph} (hw : g.WF) {s t : Node} (hs : s ∈ g.nodes) {p : List Node}
    (h : g.IsUndirPath s t p) : p ⊆ g.nodes := by
  obtain ⟨h1, _, h3, _⟩ := h
  cases p with
  | nil => simp at h1
  | cons a p =>
    simp at h1; subst h1
    intro x hx
    rcases List.mem_cons.1 hx with rfl | hx
    · exact hs
    · exact adjchain_mem hw h3 x hx

theorem mem_dfs_undir {g : Graph} (hw : g.WF) {ord : SetOrder} (ho : ord.Valid) {s t : Node}
    (hs : s ∈ g.nodes) {p : List Node} :
    p ∈ dfsSearchPaths (fun p => ord p (undirNbrs g p)) s t g.nodes.length ↔ g.IsUndirPath s t p := by
  unfold dfsSearchPaths
  split
  · rename_i hst
    subst hst
    simp only [List.mem_singleton]
    constructor
    · rintro rfl; exact ⟨by simp, by simp, by simp, by simp⟩
    · rintro ⟨h1, h2, _, h3⟩
      exact head_last_self h1 h2 h3
  · rename_i hst
    rw [mem_dfsRec, ext_undir ho hst]
    constructor
    · exact fun h => h.1
    · intro h
      refine ⟨h, ?_⟩
      have := length_le_of_nodup_subset h.2.2.2 (undirPath_subset hw hs h)
      omega

theorem nodup_dfs_undir {g : Graph} (_hw : g.WF) {ord : SetOrder} (ho : ord.Valid) {s t : Node} (d : Nat) :
    (dfsSearchPaths (fun p => ord p (undirNbrs g p)) s t d).Nodup := by
  unfold dfsSearchPaths
  split
  · simp
  · refine nodup_dfsRec ?_ _ _
    intro path
    refine (ho path _).nodup_iff.2 ?_
    unfold undirNbrs
    split
    · simp
    · exact (List.nodup_dedup _).filter _

end Graph
end Verif

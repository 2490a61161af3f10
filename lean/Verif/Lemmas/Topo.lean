import Verif.Model.Topo
import Verif.Lemmas.Dict
import Mathlib.Logic.Relation
import Mathlib.Data.List.Chain
import Mathlib.Data.List.Perm.Subperm
import Mathlib.Data.List.Perm.Lattice

namespace Verif
open Relation

variable {α : Type} [DecidableEq α]

theorem inDegree_pos {es : List (α × α)} {v : α} : inDegree es v ≠ 0 ↔ ∃ p, (p, v) ∈ es := by
  unfold inDegree
  rw [Ne, List.length_eq_zero_iff, List.filter_eq_nil_iff]
  push Not
  constructor
  · rintro ⟨⟨p, q⟩, h1, h2⟩
    simp at h2; subst h2; exact ⟨p, h1⟩
  · rintro ⟨p, h⟩; exact ⟨_, h, by simp⟩

theorem inDegree_erase {es : List (α × α)} {x c v : α} (h : (x, c) ∈ es) :
    inDegree (es.erase (x, c)) v = if v = c then inDegree es v - 1 else inDegree es v := by
  unfold inDegree
  rw [← List.erase_filter]
  split
  · rename_i hv
    subst hv
    rw [List.length_erase_of_mem]
    simp [h]
  · rename_i hv
    rw [List.erase_of_not_mem]
    simp [Ne.symm hv]

structure KInv (nodes : List α) (edges pend : List (α × α)) (st : KahnSt α) : Prop where
  sub : ∀ e ∈ pend, e ∈ edges
  pn : pend.Nodup
  deg : ∀ v, st.indeg.get? v = if inDegree pend v = 0 then none else some (inDegree pend v)
  zo : ∀ v, (v ∈ st.zero ∨ v ∈ st.out) ↔ v ∈ nodes ∧ inDegree pend v = 0
  nd : (st.out ++ st.zero).Nodup
  consumed : ∀ e ∈ edges, e ∉ pend → e.1 ∈ st.out
  topo : ∀ l v r, st.out = l ++ v :: r → ∀ p, (p, v) ∈ edges → p ∈ l

theorem kahnInit_inv {nodes : List α} {edges : List (α × α)} (hn : nodes.Nodup) (he : edges.Nodup)
    (hc : ∀ e ∈ edges, e.1 ∈ nodes ∧ e.2 ∈ nodes) :
    KInv nodes edges edges (kahnInit nodes edges) := by
  refine ⟨fun _ h => h, he, ?_, ?_, ?_, ?_, ?_⟩
  · intro v
    by_cases h : inDegree edges v = 0
    · simp only [h, if_true]
      rw [Dict.get?_none]
      simp [kahnInit, Dict.keys, h]
    · simp only [h, if_false]
      apply Dict.get?_of_mem
      · simp only [kahnInit, Dict.keys, List.map_map]
        have : ((fun x : α × Nat => x.1) ∘ fun v => (v, inDegree edges v)) = _root_.id := rfl
        rw [this, List.map_id]
        exact hn.filter _
      · obtain ⟨p, hp⟩ := inDegree_pos.1 h
        simp [kahnInit, h, (hc _ hp).2]
  · intro v; simp [kahnInit]
  · simpa [kahnInit] using hn.filter _
  · intro e he' hne; exact absurd he' hne
  · intro l v r h; simp [kahnInit] at h

theorem kahnChild_inv {nodes : List α} {edges pend : List (α × α)} {st : KahnSt α} {x c : α}
    (hc : ∀ e ∈ edges, e.1 ∈ nodes ∧ e.2 ∈ nodes)
    (h : KInv nodes edges pend st) (hx : x ∈ st.out) (hm : (x, c) ∈ pend) :
    KInv nodes edges (pend.erase (x, c)) (kahnChild st c) ∧ (kahnChild st c).out = st.out := by
  have hpos : inDegree pend c ≠ 0 := inDegree_pos.2 ⟨x, hm⟩
  have hg := h.deg c
  rw [if_neg hpos] at hg
  have hcn : c ∈ nodes := (hc _ (h.sub _ hm)).2
  have hcons : ∀ e ∈ edges, e ∉ pend.erase (x, c) → e.1 ∈ st.out := by
    intro e he hne
    by_cases hep : e = (x, c)
    · subst hep; exact hx
    · refine h.consumed e he ?_
      intro h'
      exact hne ((List.mem_erase_of_ne hep).2 h')
  have hcnot : c ∉ st.zero ∧ c ∉ st.out := by
    constructor
    · intro h'; exact hpos ((h.zo c).1 (Or.inl h')).2
    · intro h'; exact hpos ((h.zo c).1 (Or.inr h')).2
  unfold kahnChild
  rw [hg]
  simp only
  by_cases h1 : inDegree pend c = 1
  · rw [if_pos h1]
    refine ⟨⟨fun e he => h.sub e (List.mem_of_mem_erase he), h.pn.erase _, ?_, ?_, ?_, hcons, h.topo⟩, rfl⟩
    · intro v
      simp only [Dict.get?_erase, inDegree_erase hm, h.deg]
      by_cases hv : v = c
      · subst hv; simp [h1]
      · simp [hv]
    · intro v
      simp only [List.mem_append, List.mem_singleton, inDegree_erase hm]
      have := h.zo v
      by_cases hv : v = c
      · subst hv; simp [h1, hcn]
      · simp [hv, this]
    · have := h.nd
      simp only [← List.append_assoc]
      rw [List.nodup_append]
      refine ⟨this, by simp, ?_⟩
      intro a ha b hb
      simp at hb; subst hb
      rintro rfl
      rcases List.mem_append.1 ha with h' | h'
      · exact hcnot.2 h'
      · exact hcnot.1 h'
  · rw [if_neg h1]
    refine ⟨⟨fun e he => h.sub e (List.mem_of_mem_erase he), h.pn.erase _, ?_, ?_, h.nd, hcons, h.topo⟩, rfl⟩
    · intro v
      simp only [Dict.get?_set, inDegree_erase hm, h.deg]
      by_cases hv : v = c
      · subst hv
        have : inDegree pend v - 1 ≠ 0 := by omega
        simp [this]
      · simp [hv]
    · intro v
      simp only [inDegree_erase hm]
      have := h.zo v
      by_cases hv : v = c
      · subst hv
        have h2 : inDegree pend v - 1 ≠ 0 := by omega
        simp only [if_true, h2, and_false, iff_false, not_or]
        exact hcnot
      · simp [hv, this]

theorem kahnFold_inv {nodes : List α} {edges : List (α × α)} {x : α}
    (hc : ∀ e ∈ edges, e.1 ∈ nodes ∧ e.2 ∈ nodes) (cs : List α) (hcs : cs.Nodup) :
    ∀ {pend : List (α × α)} {st : KahnSt α},
    KInv nodes edges pend st → x ∈ st.out → (∀ c ∈ cs, (x, c) ∈ pend) →
    ∃ pend', KInv nodes edges pend' (cs.foldl kahnChild st) ∧ (cs.foldl kahnChild st).out = st.out ∧
      ∀ e, e ∈ pend' ↔ e ∈ pend ∧ ¬ (e.1 = x ∧ e.2 ∈ cs) := by
  induction cs with
  | nil => intro pend st h _ _; exact ⟨pend, h, rfl, by simp⟩
  | cons c cs ih =>
    intro pend st h hx hm
    obtain ⟨h1, h2⟩ := kahnChild_inv hc h hx (hm c (by simp))
    rw [List.nodup_cons] at hcs
    have hm' : ∀ c' ∈ cs, (x, c') ∈ pend.erase (x, c) := by
      intro c' hc'
      refine (List.mem_erase_of_ne ?_).2 (hm c' (by simp [hc']))
      intro he
      simp at he
      exact hcs.1 (he ▸ hc')
    obtain ⟨pend', h3, h4, h5⟩ := ih hcs.2 h1 (h2 ▸ hx) hm'
    refine ⟨pend', h3, h4.trans h2, ?_⟩
    intro e
    rw [h5, List.Nodup.mem_erase_iff h.pn]
    obtain ⟨a, b⟩ := e
    simp only [ne_eq, Prod.mk.injEq, List.mem_cons]
    tauto

theorem kahnStep_inv {nodes : List α} {edges pend : List (α × α)} {st : KahnSt α} {x : α}
    (hc : ∀ e ∈ edges, e.1 ∈ nodes ∧ e.2 ∈ nodes) (hen : edges.Nodup)
    (h : KInv nodes edges pend st) (hf : ∀ e ∈ pend, e.1 ∉ st.out) (hx : x ∈ st.zero) :
    ∃ pend', KInv nodes edges pend' (kahnStep edges x st) ∧
      (∀ e ∈ pend', e.1 ∉ (kahnStep edges x st).out) ∧ (kahnStep edges x st).out = st.out ++ [x] := by
  have hxo : x ∉ st.out := by
    have := (List.nodup_append.1 h.nd).2.2
    intro h'
    exact this x h' x hx rfl
  have hzn : st.zero.Nodup := (List.nodup_append.1 h.nd).2.1
  have h0 : KInv nodes edges pend { st with zero := st.zero.erase x, out := st.out ++ [x] } := by
    refine ⟨h.sub, h.pn, h.deg, ?_, ?_, ?_, ?_⟩
    · intro v
      simp only [List.Nodup.mem_erase_iff hzn, List.mem_append, List.mem_singleton]
      rw [← h.zo v]
      by_cases hv : v = x
      · subst hv; simp [hx]
      · simp [hv]
    · have : ((st.out ++ [x]) ++ st.zero.erase x).Perm (st.out ++ st.zero) := by
        rw [List.append_assoc]
        apply List.Perm.append_left
        exact (List.perm_cons_erase hx).symm
      exact this.nodup_iff.2 h.nd
    · intro e he hne; simp [h.consumed e he hne]
    · intro l v r hl p hp
      rcases List.eq_nil_or_concat r with rfl | ⟨r', y, rfl⟩
      · have := List.append_inj' hl (by simp)
        obtain ⟨h1, h2⟩ := this
        simp at h2
        subst h1 h2
        refine h.consumed _ hp ?_
        intro h'
        have := ((h.zo x).1 (Or.inl hx)).2
        exact inDegree_pos.2 ⟨p, h'⟩ this
      · have hl' : st.out ++ [x] = (l ++ v :: r') ++ [y] := by simpa using hl
        have := List.append_inj' hl' (by simp)
        exact h.topo l v r' this.1 p hp
  have hcsn : ((edges.filter (fun e => decide (e.1 = x))).map (·.2)).Nodup := by
    refine List.Nodup.map_on ?_ (hen.filter _)
    rintro ⟨a, b⟩ ha ⟨c, d⟩ hc' hbd
    simp at ha hc' hbd
    simp [ha.2, hc'.2, hbd]
  have hmem : ∀ c, c ∈ (edges.filter (fun e => decide (e.1 = x))).map (·.2) ↔ (x, c) ∈ edges := by
    intro c
    simp
  obtain ⟨pend', h1, h2, h3⟩ := kahnFold_inv (x := x) hc _ hcsn h0 (by simp) (by
    intro c hcm
    rw [hmem] at hcm
    by_contra hne
    exact hxo (h.consumed _ hcm hne))
  refine ⟨pend', h1, ?_, h2⟩
  intro e he
  have he' := (h3 e).1 he
  show e.1 ∉ (List.foldl kahnChild _ _).out
  rw [h2]
  simp only [List.mem_append, List.mem_singleton, not_or]
  refine ⟨hf e he'.1, ?_⟩
  intro hex
  refine he'.2 ⟨hex, ?_⟩
  rw [hmem, ← hex]
  exact h.sub e he'.1

theorem KInv.len {nodes : List α} {edges pend : List (α × α)} {st : KahnSt α}
    (h : KInv nodes edges pend st) : (st.out ++ st.zero).length ≤ nodes.length := by
  apply (List.subperm_of_subset h.nd ?_).length_le
  intro v hv
  exact ((h.zo v).1 ((List.mem_append.1 hv).symm)).1

theorem kahnRun_inv {nodes : List α} {edges : List (α × α)} (pick : List α → Nat)
    (hc : ∀ e ∈ edges, e.1 ∈ nodes ∧ e.2 ∈ nodes) (hen : edges.Nodup) (k : Nat) :
    ∀ {pend : List (α × α)} {st : KahnSt α},
    KInv nodes edges pend st → (∀ e ∈ pend, e.1 ∉ st.out) → nodes.length ≤ k + st.out.length →
    ∃ pend', KInv nodes edges pend' (kahnRun pick edges k st) ∧
      (∀ e ∈ pend', e.1 ∉ (kahnRun pick edges k st).out) ∧ (kahnRun pick edges k st).zero = [] := by
  induction k with
  | zero =>
    intro pend st h hf hk
    refine ⟨pend, h, hf, ?_⟩
    have := h.len
    simp at this
    apply List.length_eq_zero_iff.1
    simp only [kahnRun]
    omega
  | succ k ih =>
    intro pend st h hf hk
    unfold kahnRun
    split
    · rename_i hnone
      refine ⟨pend, h, hf, ?_⟩
      rw [List.getElem?_eq_none_iff] at hnone
      by_contra hne
      have : 0 < st.zero.length := List.length_pos_iff.2 hne
      have := Nat.mod_lt (pick st.zero) this
      omega
    · rename_i x hx
      have hxz : x ∈ st.zero := List.mem_of_getElem? hx
      obtain ⟨pend', h1, h2, h3⟩ := kahnStep_inv hc hen h hf hxz
      exact ih h1 h2 (by rw [h3]; simp; omega)

omit [DecidableEq α] in
theorem pairwise_of_split {P : α → α → Prop} {out : List α}
    (h : ∀ l a m b r, out = l ++ a :: (m ++ b :: r) → P a b) : out.Pairwise P := by
  induction out with
  | nil => exact List.Pairwise.nil
  | cons a out ih =>
    refine List.Pairwise.cons ?_ (ih ?_)
    · intro b hb
      obtain ⟨m, r, rfl⟩ := List.append_of_mem hb
      exact h [] a m b r rfl
    · intro l x m b r he
      exact h (a :: l) x m b r (by simp [he])

omit [DecidableEq α] in
theorem anc_in_prefix {edges : List (α × α)} {out : List α}
    (ht : ∀ l v r, out = l ++ v :: r → ∀ p, (p, v) ∈ edges → p ∈ l) {b a : α}
    (h : TransGen (fun x y => (x, y) ∈ edges) b a) : ∀ l r, out = l ++ a :: r → b ∈ l := by
  induction h with
  | single he => intro l r hl; exact ht l _ r hl _ he
  | tail _ he ih =>
    intro l r hl
    have hp := ht l _ r hl _ he
    obtain ⟨l1, l2, rfl⟩ := List.append_of_mem hp
    have := ih l1 _ (by rw [hl, List.append_assoc]; rfl)
    simp [this]

omit [DecidableEq α] in
theorem nodup_of_chain_irrefl {R : α → α → Prop} (hi : ∀ a, ¬ TransGen R a a) {p : List α}
    (h : p.IsChain R) : p.Nodup := by
  have h1 : p.IsChain (TransGen R) := h.imp (fun a b hab => TransGen.single hab)
  have h2 : p.Pairwise (TransGen R) := List.isChain_iff_pairwise.1 h1
  exact h2.imp (fun {a b} hab he => by subst he; exact hi a hab)

/-- Everything about the topological sort of a finite graph. -/
theorem topoSort_spec (pick : List α → Nat) {nodes : List α} {edges : List (α × α)}
    (hn : nodes.Nodup) (hen : edges.Nodup) (hc : ∀ e ∈ edges, e.1 ∈ nodes ∧ e.2 ∈ nodes) :
    (∀ out, topoSort pick nodes edges = .ok out →
      out.Perm nodes ∧ out.Pairwise (fun a b => ¬ TransGen (fun x y => (x, y) ∈ edges) b a) ∧
      ∀ a, ¬ TransGen (fun x y => (x, y) ∈ edges) a a) ∧
    ((∀ a, ¬ TransGen (fun x y => (x, y) ∈ edges) a a) → ∃ out, topoSort pick nodes edges = .ok out) ∧
    (∀ e, topoSort pick nodes edges = .error e → e = .nx) := by
  obtain ⟨pend, h, hf, hz⟩ := kahnRun_inv pick hc hen nodes.length (kahnInit_inv hn hen hc)
    (by simp [kahnInit]) (by simp [kahnInit])
  have hno : (kahnRun pick edges nodes.length (kahnInit nodes edges)).out.Nodup :=
    (List.nodup_append.1 h.nd).1
  have hnil : (kahnRun pick edges nodes.length (kahnInit nodes edges)).indeg = [] ↔ pend = [] := by
    constructor
    · intro he
      by_contra hne
      obtain ⟨⟨p, v⟩, hpv⟩ := List.exists_mem_of_ne_nil _ hne
      have := h.deg v
      rw [he, if_neg (inDegree_pos.2 ⟨p, hpv⟩)] at this
      simp [Dict.get?] at this
    · intro he
      by_contra hne
      obtain ⟨⟨k, v⟩, hpv⟩ := List.exists_mem_of_ne_nil _ hne
      have h1 : k ∈ Dict.keys (kahnRun pick edges nodes.length (kahnInit nodes edges)).indeg :=
        List.mem_map.2 ⟨_, hpv, rfl⟩
      rw [Dict.mem_keys] at h1
      obtain ⟨v', hv'⟩ := h1
      rw [h.deg k, he] at hv'
      simp [inDegree] at hv'
  refine ⟨?_, ?_, ?_⟩
  · intro out ho
    unfold topoSort at ho
    simp only at ho
    split at ho
    · rename_i hi
      have hp := hnil.1 hi
      cases ho
      have hanc := fun {b a : α} hab => anc_in_prefix (b := b) (a := a) h.topo hab
      refine ⟨?_, ?_, ?_⟩
      · rw [List.perm_ext_iff_of_nodup hno hn]
        intro v
        have := h.zo v
        rw [hz, hp] at this
        simp [inDegree] at this
        exact this
      · apply pairwise_of_split
        intro l a m b r hl hba
        have hb : b ∈ l := hanc hba l (m ++ b :: r) hl
        rw [hl] at hno
        have := (List.nodup_append.1 hno).2.2 b hb b (by simp)
        exact this rfl
      · intro a ha
        have han : a ∈ nodes := by
          rcases TransGen.head'_iff.1 ha with ⟨c, hc', _⟩
          exact (hc _ hc').1
        have : a ∈ (kahnRun pick edges nodes.length (kahnInit nodes edges)).out := by
          have := h.zo a
          rw [hz, hp] at this
          simp [inDegree] at this
          exact this.2 han
        obtain ⟨l, r, hl⟩ := List.append_of_mem this
        have hb : a ∈ l := hanc ha l r hl
        rw [hl] at hno
        exact (List.nodup_append.1 hno).2.2 a hb a (by simp) rfl
    · cases ho
  · intro hac
    unfold topoSort
    simp only
    have hp : pend = [] := by
      by_contra hne
      obtain ⟨e0, he0⟩ := List.exists_mem_of_ne_nil _ hne
      have hstep : ∀ e ∈ pend, ∃ e' ∈ pend, e'.2 = e.1 := by
        intro e he
        have h1 : e.1 ∈ nodes := (hc _ (h.sub e he)).1
        by_contra hno'
        push Not at hno'
        have h0 : inDegree pend e.1 = 0 := by
          by_contra hne0
          obtain ⟨p, hp⟩ := inDegree_pos.1 hne0
          exact hno' _ hp rfl
        have := (h.zo e.1).2 ⟨h1, h0⟩
        rw [hz] at this
        simp at this
        exact hf e he this
      have hchain : ∀ k, ∃ e ∈ pend, ∃ p, p.length = k ∧
          (e.1 :: p).IsChain (fun x y => (x, y) ∈ edges) ∧ (∀ x ∈ e.1 :: p, x ∈ nodes) := by
        intro k
        induction k with
        | zero => exact ⟨e0, he0, [], rfl, by simp, by simpa using (hc _ (h.sub _ he0)).1⟩
        | succ k ih =>
          obtain ⟨e, he, p, hpl, hpc, hpn⟩ := ih
          obtain ⟨e', he', hee⟩ := hstep e he
          refine ⟨e', he', e.1 :: p, by simp [hpl], ?_, ?_⟩
          · rw [List.isChain_cons_cons]
            refine ⟨?_, hpc⟩
            rw [← hee]
            exact h.sub _ he'
          · intro x hx
            rcases List.mem_cons.1 hx with rfl | hx
            · exact (hc _ (h.sub _ he')).1
            · exact hpn x hx
      obtain ⟨e, he, p, hpl, hpc, hpn⟩ := hchain nodes.length
      have hnd := nodup_of_chain_irrefl hac hpc
      have := (List.subperm_of_subset hnd hpn).length_le
      simp at this
      omega
    rw [if_pos (hnil.2 hp)]
    exact ⟨_, rfl⟩
  · intro e he
    unfold topoSort at he
    simp only at he
    split at he <;> cases he
    rfl

theorem isDag_iff (pick : List α → Nat) {nodes : List α} {edges : List (α × α)}
    (hn : nodes.Nodup) (hen : edges.Nodup) (hc : ∀ e ∈ edges, e.1 ∈ nodes ∧ e.2 ∈ nodes) :
    isDag pick nodes edges = true ↔ ∀ a, ¬ TransGen (fun x y => (x, y) ∈ edges) a a := by
  obtain ⟨h1, h2, _⟩ := topoSort_spec pick hn hen hc
  unfold isDag
  constructor
  · intro h
    split at h
    · rename_i out ho; exact (h1 out ho).2.2
    · cases h
  · intro h
    obtain ⟨out, ho⟩ := h2 h
    rw [ho]

end Verif

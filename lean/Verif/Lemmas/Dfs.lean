import Verif.Model.Paths
import Verif.Lemmas.Graph

/-! Lemmas about the depth first path search. -/

namespace Verif
open Relation

variable {succ : List Node → List Node} {t : Node}

/-- `p` extends `path` by successors, ending with the first `t`. -/
inductive Ext (succ : List Node → List Node) (t : Node) : List Node → List Node → Prop
  | last {path} : t ∈ succ path → Ext succ t path (path ++ [t])
  | more {path n p} : n ∈ succ path → n ≠ t → Ext succ t (path ++ [n]) p → Ext succ t path p

theorem Ext.length_lt {path p : List Node} (h : Ext succ t path p) : path.length < p.length := by
  induction h with
  | last _ => simp
  | more _ _ _ ih => simp at ih; omega

theorem mem_dfsRec {d : Nat} {path p : List Node} :
    p ∈ dfsRec succ t d path ↔ Ext succ t path p ∧ p.length ≤ path.length + d := by
  induction d generalizing path with
  | zero =>
    simp only [dfsRec, List.not_mem_nil, false_iff, not_and]
    intro h
    have := h.length_lt
    omega
  | succ d ih =>
    simp only [dfsRec, List.mem_flatMap]
    constructor
    · rintro ⟨n, hn, hp⟩
      split at hp
      · rename_i hnt
        simp at hp; subst hp; subst hnt
        exact ⟨Ext.last hn, by simp⟩
      · rename_i hnt
        obtain ⟨h1, h2⟩ := ih.1 hp
        exact ⟨Ext.more hn hnt h1, by simp at h2; omega⟩
    · rintro ⟨h, hlen⟩
      cases h with
      | last hn => exact ⟨t, hn, by simp⟩
      | more hn hnt h =>
        rename_i n
        refine ⟨n, hn, ?_⟩
        rw [if_neg hnt]
        exact ih.2 ⟨h, by simp; omega⟩

theorem Ext.prefix {path p : List Node} (h : Ext succ t path p) : path <+: p := by
  induction h with
  | last _ => exact List.prefix_append _ _
  | more _ _ _ ih => exact (List.prefix_append _ _).trans ih

theorem nodup_dfsRec (hs : ∀ path, (succ path).Nodup) (d : Nat) (path : List Node) :
    (dfsRec succ t d path).Nodup := by
  induction d generalizing path with
  | zero => simp [dfsRec]
  | succ d ih =>
    simp only [dfsRec]
    have key : ∀ n p, p ∈ (if n = t then [path ++ [n]] else dfsRec succ t d (path ++ [n])) →
        (path ++ [n]) <+: p := by
      intro n p hp
      split at hp
      · simp at hp; subst hp; exact List.prefix_rfl
      · exact (mem_dfsRec.1 hp).1.prefix
    rw [List.nodup_flatMap]
    constructor
    · intro n _
      split
      · simp
      · exact ih _
    · refine (hs path).imp ?_
      intro a b hab p hpa hpb
      have h1 := key a p hpa
      have h2 := key b p hpb
      have := List.prefix_of_prefix_length_le h1 h2 (by simp)
      have := this.eq_of_length (by simp)
      simp at this
      exact hab this

/-- Step-wise description of `Ext`. -/
theorem ext_iff {path p : List Node} :
    Ext succ t path p ↔ ∃ q, p = path ++ q ++ [t] ∧ t ∉ q ∧
      ∀ q1 n q2, q ++ [t] = q1 ++ n :: q2 → n ∈ succ (path ++ q1) := by
  constructor
  · intro h
    induction h with
    | @last path h =>
      refine ⟨[], by simp, by simp, ?_⟩
      intro q1 n q2 he
      cases q1 with
      | nil => simp at he; obtain ⟨rfl, _⟩ := he; simpa using h
      | cons a q1 => simp at he
    | @more path n p hn hnt _ ih =>
      obtain ⟨q, rfl, htq, hq⟩ := ih
      refine ⟨n :: q, by simp, by simp [htq, Ne.symm hnt], ?_⟩
      intro q1 m q2 he
      cases q1 with
      | nil => simp at he; obtain ⟨rfl, _⟩ := he; simpa using hn
      | cons a q1 =>
        simp at he
        obtain ⟨rfl, he⟩ := he
        have := hq q1 m q2 he
        simpa using this
  · rintro ⟨q, rfl, htq, hq⟩
    induction q generalizing path with
    | nil =>
      have := hq [] t [] (by simp)
      simpa using Ext.last (succ := succ) (t := t) (path := path) (by simpa using this)
    | cons a q ih =>
      simp at htq
      have ha : a ∈ succ path := by simpa using hq [] a (q ++ [t]) (by simp)
      refine Ext.more ha (Ne.symm htq.1) ?_
      have := ih (path := path ++ [a]) htq.2 (by
        intro q1 n q2 he
        have := hq (a :: q1) n q2 (by simp [he])
        simpa using this)
      simpa using this

/-! ### The explicit stack machine -/

/-- The search tree below `path` has depth at most `d`. -/
def DepthLE (succ : List Node → List Node) (t : Node) : Nat → List Node → Prop
  | 0, _ => False
  | d + 1, path => ∀ n ∈ succ path, n ≠ t → DepthLE succ t d (path ++ [n])

theorem dfsRun_add (k m : Nat) (st : DfsState) :
    dfsRun succ t (k + m) st = dfsRun succ t m (dfsRun succ t k st) := by
  induction k generalizing st with
  | zero => simp [dfsRun]
  | succ k ih =>
    rw [Nat.succ_add]
    simp only [dfsRun]
    cases h : dfsStep succ t st with
    | none =>
      simp only
      cases m with
      | zero => rfl
      | succ m => simp [dfsRun, h]
    | some st' => simp only; exact ih st'

theorem dfsRun_sub (d : Nat) (path : List Node) (hd : DepthLE succ t (d + 1) path)
    (l : List Node) (hl : l ⊆ succ path) (rest : List (List Node)) (out : List (List Node)) :
    ∃ k, dfsRun succ t k ⟨path, l :: rest, out⟩ =
      ⟨path.dropLast, rest, out ++ l.flatMap
        (fun n => if n = t then [path ++ [n]] else dfsRec succ t d (path ++ [n]))⟩ := by
  induction d generalizing path l rest out with
  | zero =>
    induction l generalizing out with
    | nil => exact ⟨1, by simp [dfsRun, dfsStep]⟩
    | cons n ns ih =>
      have hn : n = t := by
        by_contra hn
        exact hd n (hl (by simp)) hn
      obtain ⟨k, hk⟩ := ih (fun x hx => hl (by simp [hx])) (out ++ [path ++ [n]])
      refine ⟨1 + k, ?_⟩
      rw [dfsRun_add]
      simp only [dfsRun, dfsStep, hn, if_true]
      rw [hn] at hk
      rw [hk]
      simp
  | succ d ihd =>
    induction l generalizing out with
    | nil => exact ⟨1, by simp [dfsRun, dfsStep]⟩
    | cons n ns ih =>
      by_cases hn : n = t
      · obtain ⟨k, hk⟩ := ih (fun x hx => hl (by simp [hx])) (out ++ [path ++ [n]])
        refine ⟨1 + k, ?_⟩
        rw [dfsRun_add]
        simp only [dfsRun, dfsStep, hn, if_true]
        rw [hn] at hk
        rw [hk]
        simp
      · have hd' : DepthLE succ t (d + 1) (path ++ [n]) := hd n (hl (by simp)) hn
        obtain ⟨k1, hk1⟩ := ihd (path ++ [n]) hd' (succ (path ++ [n])) (fun _ h => h) (ns :: rest) out
        obtain ⟨k2, hk2⟩ := ih (fun x hx => hl (by simp [hx]))
          (out ++ dfsRec succ t (d + 1) (path ++ [n]))
        refine ⟨1 + (k1 + k2), ?_⟩
        rw [dfsRun_add, dfsRun_add]
        simp only [dfsRun, dfsStep, hn, if_false]
        rw [hk1]
        have : (path ++ [n]).dropLast = path := by simp
        rw [this]
        have h3 : (List.flatMap (fun n_1 => if n_1 = t then [path ++ [n] ++ [n_1]]
            else dfsRec succ t d (path ++ [n] ++ [n_1])) (succ (path ++ [n])))
            = dfsRec succ t (d + 1) (path ++ [n]) := rfl
        rw [h3, hk2]
        simp [hn]

/-- The machine finishes with an empty stack having yielded exactly the recursive enumeration. -/
theorem dfsRun_init {d : Nat} {s : Node} (hd : DepthLE succ t (d + 1) [s]) :
    ∃ k, dfsRun succ t k (dfsInit succ s) = ⟨[], [], dfsRec succ t (d + 1) [s]⟩ := by
  obtain ⟨k, hk⟩ := dfsRun_sub d [s] hd (succ [s]) (fun _ h => h) [] []
  exact ⟨k, by simpa [dfsInit, dfsRec] using hk⟩

/-- Depth bound from an invariant that keeps paths repetition free and inside a finite list. -/
theorem depthLE_of_inv {P : List Node → Prop} {nodes : List Node}
    (hstep : ∀ path n, P path → n ∈ succ path → n ≠ t → P (path ++ [n]))
    (hP : ∀ path, P path → path.Nodup ∧ path ⊆ nodes) :
    ∀ d path, P path → nodes.length < path.length + d → DepthLE succ t d path := by
  intro d
  induction d with
  | zero =>
    intro path hp hlt
    have := length_le_of_nodup_subset (hP path hp).1 (hP path hp).2
    omega
  | succ d ih =>
    intro path hp hlt n hn hnt
    exact ih _ (hstep path n hp hn hnt) (by simp; omega)

/-- The invariant also holds all along every enumerated path (except possibly at its end). -/
theorem Ext.inv {P : List Node → Prop}
    (hstep : ∀ path n, P path → n ∈ succ path → P (path ++ [n]))
    {path p : List Node} (h : Ext succ t path p) (hp : P path) : P p := by
  induction h with
  | last h => exact hstep _ _ hp h
  | more hn _ _ ih => exact ih (hstep _ _ hp hn)

/-! ### Splitting chains -/

theorem isChain_iff_split {α : Type} {R : α → α → Prop} {l : List α} :
    l.IsChain R ↔ ∀ l1 a b l2, l = l1 ++ a :: b :: l2 → R a b := by
  constructor
  · rintro h l1 a b l2 rfl
    exact (List.isChain_cons_cons.1 (List.isChain_append.1 h).2.1).1
  · intro h
    induction l with
    | nil => simp
    | cons x l ih =>
      cases l with
      | nil => simp
      | cons y l =>
        refine List.isChain_cons_cons.2 ⟨h [] x y l (by simp), ih ?_⟩
        intro l1 a b l2 he
        exact h (x :: l1) a b l2 (by simp [he])

end Verif

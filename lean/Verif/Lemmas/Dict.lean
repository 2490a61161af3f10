import Verif.Model.Py
import Mathlib.Data.List.Nodup

namespace Verif
namespace Dict
variable {K V : Type} [DecidableEq K]

theorem get?_set (d : Dict K V) (k k' : K) (v : V) :
    (d.set k v).get? k' = if k' = k then some v else d.get? k' := by
  induction d with
  | nil =>
    by_cases h : k' = k
    · simp [set, get?, h]
    · simp [set, get?, h, Ne.symm h]
  | cons p d ih =>
    obtain ⟨a, b⟩ := p
    unfold set
    by_cases h : a = k
    · subst h
      simp only [if_true, get?]
      by_cases h' : a = k'
      · simp [h']
      · simp [h', Ne.symm h']
    · simp only [h, if_false, get?, ih]
      by_cases h' : a = k'
      · subst h'; simp [h]
      · simp [h']

theorem get?_erase (d : Dict K V) (k k' : K) :
    (d.erase k).get? k' = if k' = k then none else d.get? k' := by
  induction d with
  | nil => simp [erase, get?]
  | cons p d ih =>
    obtain ⟨a, b⟩ := p
    unfold erase at ih ⊢
    by_cases h : a = k
    · subst h
      simp only [List.filter_cons, beq_self_eq_true, Bool.not_true, Bool.false_eq_true, if_false, ih, get?]
      by_cases h' : a = k'
      · simp [h']
      · simp [h', Ne.symm h']
    · simp only [List.filter_cons, beq_eq_false_iff_ne.2 h, Bool.not_false, if_true, get?, ih]
      by_cases h' : a = k'
      · subst h'; simp [h]
      · simp [h']

theorem mem_keys {d : Dict K V} {k : K} : k ∈ d.keys ↔ ∃ v, d.get? k = some v := by
  induction d with
  | nil => simp [keys, get?]
  | cons p d ih =>
    obtain ⟨a, b⟩ := p
    unfold keys at ih ⊢
    simp only [List.map_cons, List.mem_cons, get?, ih]
    by_cases h : a = k
    · simp [h]
    · simp [h, Ne.symm h]

theorem get?_none {d : Dict K V} {k : K} : d.get? k = none ↔ k ∉ d.keys := by
  rw [mem_keys]
  cases d.get? k <;> simp

theorem has_iff {d : Dict K V} {k : K} : d.has k = true ↔ k ∈ d.keys := by
  simp [has, keys]

theorem keys_set {d : Dict K V} {k : K} {v : V} :
    (d.set k v).keys = if k ∈ d.keys then d.keys else d.keys ++ [k] := by
  induction d with
  | nil => simp [set, keys]
  | cons p d ih =>
    obtain ⟨a, b⟩ := p
    unfold set
    by_cases h : a = k
    · subst h; simp [keys]
    · unfold keys at ih ⊢
      simp only [h, if_false, List.map_cons, ih, List.mem_cons, Ne.symm h, false_or]
      split <;> simp

theorem mem_keys_set {d : Dict K V} {k k' : K} {v : V} :
    k' ∈ (d.set k v).keys ↔ k' ∈ d.keys ∨ k' = k := by
  rw [keys_set]
  split
  · constructor
    · exact Or.inl
    · rintro (h | rfl)
      · exact h
      · assumption
  · simp

theorem nodup_keys_set {d : Dict K V} {k : K} {v : V} (h : d.keys.Nodup) : (d.set k v).keys.Nodup := by
  rw [keys_set]
  split
  · exact h
  · rename_i hk
    exact List.nodup_append.2 ⟨h, by simp, by
      intro a ha b hb
      simp at hb
      subst hb
      rintro rfl
      exact hk ha⟩

theorem keys_erase {d : Dict K V} {k : K} : (d.erase k).keys = d.keys.filter (fun x => decide (x ≠ k)) := by
  unfold keys erase
  rw [List.filter_map]
  congr 1
  apply List.filter_congr
  intro x _
  by_cases h : x.1 = k <;> simp [h]

theorem nodup_keys_erase {d : Dict K V} {k : K} (h : d.keys.Nodup) : (d.erase k).keys.Nodup := by
  rw [keys_erase]; exact h.filter _

theorem get_ok {d : Dict K V} {k : K} {v : V} : d.get k = .ok v ↔ d.get? k = some v := by
  unfold get
  cases h : d.get? k <;> simp

theorem get_err {d : Dict K V} {k : K} (h : k ∉ d.keys) : d.get k = .error .key := by
  unfold get
  rw [get?_none.2 h]

theorem mem_of_get? {d : Dict K V} {k : K} {v : V} (h : d.get? k = some v) : (k, v) ∈ d := by
  induction d with
  | nil => simp [get?] at h
  | cons p d ih =>
    obtain ⟨a, b⟩ := p
    simp only [get?] at h
    by_cases hk : a = k
    · simp [hk] at h; simp [hk, h]
    · simp [hk] at h; simp [ih h]

theorem get?_of_mem {d : Dict K V} {k : K} {v : V} (hn : d.keys.Nodup) (h : (k, v) ∈ d) :
    d.get? k = some v := by
  induction d with
  | nil => simp at h
  | cons p d ih =>
    obtain ⟨a, b⟩ := p
    unfold keys at hn ih
    simp only [List.map_cons, List.nodup_cons] at hn
    rcases List.mem_cons.1 h with h | h
    · cases h; simp [get?]
    · have : a ≠ k := by
        rintro rfl
        exact hn.1 (List.mem_map.2 ⟨_, h, rfl⟩)
      simp [get?, this, ih hn.2 h]

end Dict
end Verif

import Verif.Model.Repr
import Verif.Props.Cpd

/-!
# What is printed agrees with the table (C103)
-/

namespace Verif

theorem shown_outcome {d : Dict Outcome (Option Rat)} (hn : d.keys.Nodup) {o : Outcome} (h : shown d = .outcome o) : given d o = some 1 := by
  unfold shown at h
  split at h
  · rename_i p hp
    cases h
    have h1 := List.find?_some hp
    have h2 := List.mem_of_find?_eq_some hp
    simp only [decide_eq_true_eq] at h1
    unfold given
    rw [Dict.get?_of_mem hn (show (p.1, some 1) ∈ d by rw [← h1]; exact h2)]
    rfl
  · cases h

theorem shown_dist {d d' : Dict Outcome (Option Rat)} (h : shown d = .dist d') : d' = d ∧ ∀ x, given d x ≠ some 1 := by
  unfold shown at h
  split at h
  · cases h
  · rename_i hp
    cases h
    refine ⟨rfl, fun x hx => ?_⟩
    rw [List.find?_eq_none] at hp
    unfold given at hx
    cases hg : d.get? x with
    | none => rw [hg] at hx; simp at hx
    | some y =>
      rw [hg] at hx
      have : y = some 1 := hx
      subst this
      exact hp _ (Dict.mem_of_get? hg) (by simp)

theorem reprLoop_ok {f : Func} {ps : List Node} : ∀ (l : List (List Outcome)) (acc : Dict (List Outcome) Shown),
    (∀ vals ∈ l, ∃ d, stochasticFunction f (pvOf ps vals) = .ok d) →
    ∃ m, reprLoop f ps acc l = .ok m ∧ (acc.keys.Nodup → m.keys.Nodup) ∧
      (∀ vals ∈ l, ∀ d, stochasticFunction f (pvOf ps vals) = .ok d → m.get? vals = some (shown d)) ∧
      (∀ vals, vals ∉ l → m.get? vals = acc.get? vals)
  | [], acc, _ => ⟨acc, rfl, id, by simp, fun _ _ => rfl⟩
  | v :: l, acc, h => by
    obtain ⟨d, hd⟩ := h v (by simp)
    obtain ⟨m, h1, h2, h3, h4⟩ := reprLoop_ok l (acc.set v (shown d)) (fun vals hv => h vals (by simp [hv]))
    refine ⟨m, by rw [reprLoop, hd]; exact h1, fun hn => h2 (Dict.nodup_keys_set hn), ?_, ?_⟩
    · intro vals hv d' hd'
      by_cases hl : vals ∈ l
      · exact h3 vals hl d' hd'
      · have : vals = v := by simpa [hl] using hv
        subst this
        rw [h4 _ hl, Dict.get?_set, if_pos rfl]
        rw [hd] at hd'
        cases hd'
        rfl
    · intro vals hv
      simp only [List.mem_cons, not_or] at hv
      rw [h4 vals hv.2, Dict.get?_set, if_neg hv.1]

theorem key_in_domain {kind : CpdKind} {v : Node} {f : Func} {force : Option (List Outcome)} {ps : List Node}
    {dom : Dict Node (List Outcome)} {card : Node → Py Nat} {c : Cpd} (h : mkCpd kind v f force ps dom card = .ok c) {x : Outcome}
    {vals : List Outcome} {d : Dict Outcome (Option Rat)} (hv : Instantiation ps dom vals) (hr : Returns f (pvOf ps vals) d)
    (hx : x ∈ d.keys) : x ∈ c.domain := by
  rcases force with _ | l
  · exact ((C25_inferred_domain h (Or.inl rfl)).2 x).2 ⟨vals, d, hv, hr, hx⟩
  · rcases l with _ | ⟨a, l⟩
    · exact ((C25_inferred_domain h (Or.inr rfl)).2 x).2 ⟨vals, d, hv, hr, hx⟩
    · obtain ⟨e, k⟩ := C25_explicit_domain h (by simp)
      rw [e]
      exact k x vals d hv hr hx

/-- **C103** What `repr` shows for a CPD agrees with its table: there is one line for each assignment of values to the parents and no other; a line
with an outcome means that the outcome has probability 1; a line with a dictionary shows what the function returns, whose probabilities
are those of the table, and no outcome has probability 1 in it. -/
theorem C103_repr {kind : CpdKind} {v : Node} {f : Func} {force : Option (List Outcome)} {ps : List Node}
    {dom : Dict Node (List Outcome)} {card : Node → Py Nat} {c : Cpd} (h : mkCpd kind v f force ps dom card = .ok c) (hf : DictOk f) :
    ∃ lines, reprMap f ps dom = .ok lines ∧ lines.keys.Nodup ∧ (∀ vals, vals ∈ lines.keys ↔ Instantiation ps dom vals) ∧
      (∀ vals o, lines.get? vals = some (.outcome o) → o ∈ c.domain ∧ c.prob dom vals o = some 1) ∧
      (∀ vals d, lines.get? vals = some (.dist d) → Returns f (pvOf ps vals) d ∧
        ∀ x p, given d x = some p → p ≠ 1 ∧ x ∈ c.domain ∧ c.prob dom vals x = some p) := by
  obtain ⟨ds, possible, domain, cards, cols, h1, h2, _⟩ := mkCpd_ok_iff.1 h
  have h1' := h1
  rw [parentDoms_ok] at h1'
  have hret : ∀ vals, Instantiation ps dom vals → ∃ d, Returns f (pvOf ps vals) d ∧ d.keys.Nodup ∧
      ∀ x p, given d x = some p → x ∈ c.domain ∧ c.prob dom vals x = some p := by
    intro vals hv
    obtain ⟨d, k1, k2, k3⟩ := mkCpd_entry h hf hv
    refine ⟨d, k1, k2, fun x p hx => ?_⟩
    have hm : x ∈ c.domain := by
      apply key_in_domain h hv k1
      unfold given at hx
      cases hg : d.get? x with
      | none => rw [hg] at hx; simp at hx
      | some y => exact Dict.mem_keys.2 ⟨y, hg⟩
    refine ⟨hm, ?_⟩
    rw [k3 x hm, hx]
    rfl
  obtain ⟨m, m1, m2, m3, m4⟩ := reprLoop_ok (f := f) (ps := ps) (product ds) [] (fun vals hv => by
    obtain ⟨d, k, _⟩ := hret vals ((inst_iff h1').1 hv)
    exact ⟨d, stochasticFunction_ok.2 k⟩)
  have hget : ∀ vals s, m.get? vals = some s → ∃ d, Instantiation ps dom vals ∧ Returns f (pvOf ps vals) d ∧ d.keys.Nodup ∧ s = shown d ∧
      ∀ x p, given d x = some p → x ∈ c.domain ∧ c.prob dom vals x = some p := by
    intro vals s hs
    by_cases hv : vals ∈ product ds
    · have hi := (inst_iff h1').1 hv
      obtain ⟨d, k1, k2, k3⟩ := hret vals hi
      rw [m3 vals hv d (stochasticFunction_ok.2 k1)] at hs
      cases hs
      exact ⟨d, hi, k1, k2, rfl, k3⟩
    · rw [m4 vals hv] at hs
      simp [Dict.get?] at hs
  refine ⟨m, ?_, m2 (by simp [Dict.keys]), fun vals => ⟨fun hm => ?_, fun hv => ?_⟩, fun vals o hs => ?_, fun vals d' hs => ?_⟩
  · unfold reprMap
    rw [h1]
    exact m1
  · obtain ⟨s, hs⟩ := Dict.mem_keys.1 hm
    obtain ⟨_, hi, _⟩ := hget vals s hs
    exact hi
  · obtain ⟨d, k, _⟩ := hret vals hv
    exact Dict.mem_keys.2 ⟨_, m3 vals ((inst_iff h1').2 hv) d (stochasticFunction_ok.2 k)⟩
  · obtain ⟨d, _, _, k2, k3, k4⟩ := hget vals _ hs
    exact k4 _ _ (shown_outcome k2 k3.symm)
  · obtain ⟨d, _, k1, _, k3, k4⟩ := hget vals _ hs
    obtain ⟨rfl, k5⟩ := shown_dist k3.symm
    refine ⟨k1, fun x p hx => ⟨?_, k4 x p hx⟩⟩
    rintro rfl
    exact k5 x hx

/-- **C103** While a parent has no domain, nothing but the name is shown, and `repr` does not raise, whatever the function does. -/
theorem C103_not_ready (f : Func) {ps : List Node} {dom : Dict Node (List Outcome)} {p : Node} (hp : p ∈ ps) (hd : dom.get? p = none) :
    reprMap f ps dom = .ok [] := by
  unfold reprMap
  rw [parentDoms_err hp hd]

/-- a noisy copy of one parent that ignores a missing value -/
def exNoisy : Func := fun pv => match pv "X" with
  | some 2 => .ok (.val 1)
  | some x => .ok (.dist (noisyCopy x (3 / 4) (some [0, 1])))
  | none => .error .type

theorem C103_example : (∃ c, mkCpd .stochastic "Y" exNoisy none ["X"] [("X", [0, 1, 2])] (fun _ => .ok 3) = .ok c ∧ c.table = [[3 / 4, 1 / 4], [1 / 4, 3 / 4], [0, 1]]) ∧
    reprMap exNoisy ["X"] [("X", [0, 1, 2])] = .ok [([0], .dist [(0, some (3 / 4)), (1, none)]), ([1], .dist [(0, none), (1, some (3 / 4))]), ([2], .outcome 1)] := by
  constructor
  · have : ((mkCpd .stochastic "Y" exNoisy none ["X"] [("X", [0, 1, 2])] (fun _ => .ok 3)).toOption.map (·.table)) = some [[3 / 4, 1 / 4], [1 / 4, 3 / 4], [0, 1]] := by
      decide +kernel
    cases h : mkCpd .stochastic "Y" exNoisy none ["X"] [("X", [0, 1, 2])] (fun _ => .ok 3) with
    | error e => rw [h] at this; simp [Except.toOption] at this
    | ok c =>
      rw [h] at this
      exact ⟨c, rfl, by simpa [Except.toOption] using this⟩
  · decide +kernel

end Verif

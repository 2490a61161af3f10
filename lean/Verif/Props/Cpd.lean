import Verif.Lemmas.Cpd
import Mathlib.Algebra.Order.Field.Basic

/-!
# C23-C30: conditional probability distributions and pure rules
-/

namespace Verif

/-! ### running example: parents A, B with domains {0,1} and {5,7,9} -/

/-- domains used in the examples -/
def exDom : Dict Node (List Outcome) := [("A", [0, 1]), ("B", [5, 7, 9]), ("D", [0, 1])]

/-- cardinalities used in the examples -/
def exCard (p : Node) : Py Nat := match exDom.get? p with
  | some d => .ok d.length
  | none => .error .attribute

/-- a stochastic function of A and B that leaves some outcomes open -/
def exFunc : Func := fun pv =>
  match pv "A", pv "B" with
  | some a, some b => if a = 0 then .ok (.dist [(5, some (1/2)), (1, none)]) else .ok (.val b)
  | _, _ => .error .type

/-- a function whose columns do not sum to one -/
def exBad : Func := fun _ => .ok (.dist [(0, some (1/2)), (1, some (1/4))])

/-! ### C23 -/

/-- **C23** A constructed CPD is a valid conditional distribution: all parents have domains, there is
one column per instantiation of the parents and one row per domain value, all entries are
probabilities, every column sums to 1 within 0.01, and no domain value is repeated. -/
theorem C23_constructed_cpd_valid {kind : CpdKind} {v : Node} {f : Func} {force : Option (List Outcome)}
    {ps : List Node} {dom : Dict Node (List Outcome)} {card : Node → Py Nat} {c : Cpd}
    (h : mkCpd kind v f force ps dom card = .ok c) :
    c.var = v ∧ c.evidence = ps ∧ c.domain.Nodup ∧
      (∀ p ∈ ps, ∃ d, dom.get? p = some d) ∧
      c.table.length = (ps.map (fun p => ((dom.get? p).getD []).length)).prod ∧
      c.table.length = c.evCard.prod ∧
      ∀ col ∈ c.table, col.length = c.domain.length ∧ (∀ x ∈ col, 0 ≤ x ∧ x ≤ 1) ∧
        |col.sum - 1| ≤ 1 / 100 := by
  obtain ⟨ds, possible, domain, cards, cols, h1, h2, h3, h4, h5, h6, h7, h8, h9, rfl⟩ := mkCpd_ok_iff.1 h
  rw [parentDoms_ok] at h1
  refine ⟨rfl, rfl, h9, ?_, ?_, h8, ?_⟩
  · intro p hp
    obtain ⟨d, _, hd⟩ := mapPy_mem (parentDoms_ok.2 h1) hp
    exact ⟨d, domOf_ok.1 hd⟩
  · simp only
    rw [← (mapPy_ok_iff.1 h5).length_eq, List.length_map, length_product, forall₂_doms h1]
    simp [Function.comp_def]
  · intro col hc
    obtain ⟨pv, _, hcol⟩ := mapPy_mem' h5 hc
    refine ⟨?_, ?_, ?_⟩
    · unfold colFor at hcol
      cases hs : stochasticFunction f pv with
      | error e => rw [hs] at hcol; simp at hcol
      | ok d =>
        rw [hs] at hcol
        exact (mapPy_ok_iff.1 hcol).length_eq.symm
    · intro x hx
      have := List.all_eq_true.1 h7 col hc
      have := List.all_eq_true.1 this x hx
      simpa using this
    · have := List.all_eq_true.1 h6 col hc
      simp only [colClose, decide_eq_true_eq] at this
      rw [abs_le]
      constructor <;> linarith [this.1, this.2]

/-- **C23** If the domain of some parent is not known yet, construction raises
ParentsNotReadyException. -/
theorem C23_parents_not_ready {kind : CpdKind} {v : Node} {f : Func} {force : Option (List Outcome)}
    {ps : List Node} {dom : Dict Node (List Outcome)} {card : Node → Py Nat} {p : Node} (hp : p ∈ ps)
    (hd : dom.get? p = none) : mkCpd kind v f force ps dom card = .error .parentsNotReady := by
  simp [mkCpd, parentValues, parentDoms_err hp hd]

/-- **C23** If all parents have domains and CPDs and the function itself does not raise on any
instantiation of the parents, construction succeeds or raises ValueError. -/
theorem C23_ok_or_value_error {kind : CpdKind} {v : Node} {f : Func} {force : Option (List Outcome)}
    {ps : List Node} {dom : Dict Node (List Outcome)} {card : Node → Py Nat}
    (hdom : ∀ p ∈ ps, (∃ d, dom.get? p = some d) ∧ ∃ n, card p = .ok n)
    (hf : ∀ vals, Instantiation ps dom vals → ∃ r, f (pvOf ps vals) = .ok r) :
    (∃ c, mkCpd kind v f force ps dom card = .ok c) ∨
      mkCpd kind v f force ps dom card = .error .value := by
  obtain ⟨ds, hds, _⟩ := mapPy_ok (f := domOf dom) (xs := ps) (fun p hp => by
    obtain ⟨⟨d, h⟩, _⟩ := hdom p hp
    exact ⟨d, domOf_ok.2 h⟩)
  have hds' : parentDoms ps dom = .ok ds := hds
  obtain ⟨cards, hc, _⟩ := mapPy_ok (f := card) (xs := ps) (fun p hp => (hdom p hp).2)
  have hsf : ∀ pv ∈ (product ds).map (pvOf ps), ∃ d, stochasticFunction f pv = .ok d := by
    intro pv hpv
    obtain ⟨vals, hv, rfl⟩ := List.mem_map.1 hpv
    obtain ⟨r, hr⟩ := hf vals ((inst_iff (parentDoms_ok.1 hds')).1 hv)
    cases r with
    | dist d => exact ⟨d, by simp [stochasticFunction, hr]⟩
    | val o => exact ⟨_, by simp [stochasticFunction, hr]; rfl⟩
  obtain ⟨ys, hy, _⟩ := mapPy_ok hsf
  have hp : possibleValues f ((product ds).map (pvOf ps)) =
      .ok ((ys.flatMap Dict.keys).dedup.insertionSort (· ≤ ·)) := by simp [possibleValues, hy]
  generalize hm : mkCpd kind v f force ps dom card = r
  simp only [mkCpd, parentValues, hds', hp, hc] at hm
  cases hch : chooseDomain force ((ys.flatMap Dict.keys).dedup.insertionSort (· ≤ ·)) with
  | error e =>
    rw [hch] at hm
    right
    rw [← hm]
    simp only [Except.error.injEq]
    simp only [chooseDomain] at hch
    split at hch
    · split at hch
      · simp at hch
      · simpa using hch.symm
    · simp at hch
  | ok domain =>
    rw [hch] at hm
    simp only at hm
    obtain ⟨cols, hcols, _⟩ := mapPy_ok (f := colFor f domain) (xs := (product ds).map (pvOf ps)) (by
      intro pv hpv
      obtain ⟨d, hd⟩ := hsf pv hpv
      obtain ⟨col, hcol⟩ := column_total domain d
      exact ⟨col, by simp [colFor, hd, hcol]⟩)
    rw [hcols] at hm
    simp only at hm
    rw [← hm]
    split
    · exact Or.inr rfl
    · split
      · exact Or.inr rfl
      · split
        · exact Or.inr rfl
        · split
          · exact Or.inr rfl
          · exact Or.inl ⟨_, rfl⟩

example : (mkCpd .stochastic "Y" exFunc (some [1, 2, 5, 7, 9]) ["A", "B"] exDom exCard).map
    (fun c => (c.domain, c.table.length)) = .ok ([1, 2, 5, 7, 9], 6) := by decide +kernel
example : (mkCpd .stochastic "Y" exBad none ["A"] exDom exCard).map (fun c => c.domain) =
    .error .value := by decide +kernel
example : (mkCpd .stochastic "Y" exFunc none ["A", "Z"] exDom exCard).map (fun c => c.domain) =
    .error .parentsNotReady := by decide +kernel

/-! ### C24 -/

/-- **C24** The entry of a constructed CPD for an outcome of its domain is the probability the
function returns for it; outcomes for which it returns nothing (or None) share the remaining mass
equally. -/
theorem C24_missing_mass_even {kind : CpdKind} {v : Node} {f : Func} {force : Option (List Outcome)}
    {ps : List Node} {dom : Dict Node (List Outcome)} {card : Node → Py Nat} {c : Cpd}
    (h : mkCpd kind v f force ps dom card = .ok c) (hf : DictOk f) {vals : List Outcome}
    (hv : Instantiation ps dom vals) {d : Dict Outcome (Option Rat)} (hr : Returns f (pvOf ps vals) d) :
    (∀ x ∈ c.domain, ∀ p, given d x = some p → c.prob dom vals x = some p) ∧
    (∀ x ∈ c.domain, given d x = none →
      c.prob dom vals x = some ((1 - givenMass d) / (unspecified c.domain d).length)) := by
  obtain ⟨d', hr', hn, he⟩ := mkCpd_entry h hf hv
  have := hr.unique hr'
  subst this
  constructor
  · intro x hx p hp
    rw [he x hx, hp]
    rfl
  · intro x hx hp
    rw [he x hx, hp]
    rfl

theorem sum_given_getD {domain : List Outcome} (g : Outcome → Option Rat) (r : Rat) :
    (domain.map (fun x => (g x).getD r)).sum =
      (domain.map (fun x => (g x).getD 0)).sum + r * (domain.filter (fun x => (g x).isNone)).length := by
  induction domain with
  | nil => simp
  | cons a l ih =>
    simp only [List.map_cons, List.sum_cons, ih]
    cases h : g a with
    | none => simp [h]; ring
    | some p => simp [h]; ring

theorem sum_get?_getD {domain : List Outcome} (hd : domain.Nodup) {d : Dict Outcome (Option Rat)}
    (hn : d.keys.Nodup) (hk : ∀ x ∈ d.keys, x ∈ domain) :
    (domain.map (fun x => (given d x).getD 0)).sum = givenMass d := by
  induction d with
  | nil => simp [given, givenMass, Dict.get?]
  | cons p d ih =>
    obtain ⟨k, w⟩ := p
    have hn' := List.nodup_cons.1 (show (k :: Dict.keys d).Nodup from hn)
    have ih := ih hn'.2 (fun x hx => hk x (by
      show x ∈ k :: Dict.keys d
      exact List.mem_cons_of_mem _ hx))
    have hkm : k ∈ domain := hk k (by simp [Dict.keys])
    have e : ∀ x, (given ((k, w) :: d) x).getD 0 =
        (if x = k then (1 : Rat) else 0) * w.getD 0 + (given d x).getD 0 := by
      intro x
      simp only [given, Dict.get?]
      by_cases h : k = x
      · subst h
        rw [Dict.get?_none.2 hn'.1]
        cases w <;> simp
      · simp [h, Ne.symm h]
    simp only [e]
    rw [List.sum_map_add, ih, List.sum_map_mul_right, sum_indicator hd hkm]
    simp [givenMass]

/-- **C24** Whenever some outcome of the domain is unspecified, the column sums to exactly 1. -/
theorem C24_column_sums_to_one {kind : CpdKind} {v : Node} {f : Func} {force : Option (List Outcome)}
    {ps : List Node} {dom : Dict Node (List Outcome)} {card : Node → Py Nat} {c : Cpd}
    (h : mkCpd kind v f force ps dom card = .ok c) (hf : DictOk f) {vals : List Outcome}
    (hv : Instantiation ps dom vals) {d : Dict Outcome (Option Rat)} (hr : Returns f (pvOf ps vals) d)
    (hu : ∃ x ∈ c.domain, given d x = none) :
    (c.domain.map (fun x => (c.prob dom vals x).getD 0)).sum = 1 := by
  obtain ⟨d', hr', hn, he⟩ := mkCpd_entry h hf hv
  have := hr.unique hr'
  subst this
  have hcd := (mkCpd_fields h).2.2.2.2.2
  have e : c.domain.map (fun x => (c.prob dom vals x).getD 0) = c.domain.map (fun x => (given d x).getD
      ((1 - givenMass d) / (unspecified c.domain d).length)) := by
    apply List.map_congr_left
    intro x hx
    rw [he x hx]
    rfl
  rw [e, sum_given_getD]
  have hkeys : ∀ x ∈ d.keys, x ∈ c.domain := by
    obtain ⟨ds, possible, domain, cards, cols, h1, h2, h3, h4, h5, h6, h7, h8, h9, rfl⟩ :=
      mkCpd_ok_iff.1 h
    simp only
    intro x hx
    have hmem : pvOf ps vals ∈ (product ds).map (pvOf ps) :=
      List.mem_map.2 ⟨vals, (inst_iff (parentDoms_ok.1 h1)).2 hv, rfl⟩
    unfold possibleValues at h2
    cases hm : mapPy (stochasticFunction f) ((product ds).map (pvOf ps)) with
    | error e => rw [hm] at h2; simp at h2
    | ok ys =>
      rw [hm] at h2
      obtain ⟨d2, hd2, e2⟩ := mapPy_mem hm hmem
      rw [stochasticFunction_ok.2 hr] at e2
      cases e2
      have hx' : x ∈ possible := by
        simp only [Except.ok.injEq] at h2
        rw [← h2, List.mem_insertionSort, List.mem_dedup, List.mem_flatMap]
        exact ⟨d, hd2, hx⟩
      unfold chooseDomain at h3
      split at h3
      · rename_i l _
        split at h3
        · rename_i hall
          cases h3
          simpa using List.all_eq_true.1 hall x hx'
        · simp at h3
      · cases h3; exact hx'
  rw [sum_get?_getD hcd hn hkeys]
  have hpos : ((unspecified c.domain d).length : Rat) ≠ 0 := by
    obtain ⟨x, hx, hg⟩ := hu
    have : x ∈ unspecified c.domain d := by simp [unspecified, hx, hg]
    have := List.length_pos_of_mem this
    exact_mod_cast this.ne'
  change givenMass d + (1 - givenMass d) / _ * ((unspecified c.domain d).length : Rat) = 1
  field_simp
  ring

theorem exFunc_dictOk : DictOk exFunc := by
  intro pv d h
  unfold exFunc at h
  split at h
  · split at h
    · simp only [Except.ok.injEq, Ret.dist.injEq] at h
      subst h
      decide +kernel
    · simp at h
  · simp at h

example : ((mkCpd .stochastic "Y" exFunc (some [1, 2, 5, 7, 9]) ["A", "B"] exDom exCard).map
    (fun c => c.domain.map (fun x => c.prob exDom [0, 7] x))) =
    .ok [some (1/8), some (1/8), some (1/2), some (1/8), some (1/8)] := by decide +kernel

/-! ### C25 -/

theorem possibleValues_mem {f : Func} {ps : List Node} {dom : Dict Node (List Outcome)}
    {ds : List (List Outcome)} {possible : List Outcome} (h1 : parentDoms ps dom = .ok ds)
    (h2 : possibleValues f ((product ds).map (pvOf ps)) = .ok possible) :
    possible.Pairwise (· < ·) ∧
    ∀ x, x ∈ possible ↔ ∃ vals d, Instantiation ps dom vals ∧ Returns f (pvOf ps vals) d ∧ x ∈ d.keys := by
  unfold possibleValues at h2
  cases hm : mapPy (stochasticFunction f) ((product ds).map (pvOf ps)) with
  | error e => rw [hm] at h2; simp at h2
  | ok ys =>
    rw [hm] at h2
    simp only [Except.ok.injEq] at h2
    subst h2
    constructor
    · have h1 := List.pairwise_insertionSort (· ≤ ·) (ys.flatMap Dict.keys).dedup
      have h2 : ((ys.flatMap Dict.keys).dedup.insertionSort (· ≤ ·)).Nodup :=
        (List.perm_insertionSort _ _).nodup_iff.2 (List.nodup_dedup _)
      exact (h1.and h2).imp (fun h => lt_of_le_of_ne h.1 h.2)
    · intro x
      rw [List.mem_insertionSort, List.mem_dedup, List.mem_flatMap]
      constructor
      · rintro ⟨d, hd, hx⟩
        obtain ⟨pv, hpv, e⟩ := mapPy_mem' hm hd
        obtain ⟨vals, hv, rfl⟩ := List.mem_map.1 hpv
        exact ⟨vals, d, (inst_iff (parentDoms_ok.1 h1)).1 hv, stochasticFunction_ok.1 e, hx⟩
      · rintro ⟨vals, d, hv, hr, hx⟩
        have hmem : pvOf ps vals ∈ (product ds).map (pvOf ps) :=
          List.mem_map.2 ⟨vals, (inst_iff (parentDoms_ok.1 h1)).2 hv, rfl⟩
        obtain ⟨d2, hd2, e2⟩ := mapPy_mem hm hmem
        rw [stochasticFunction_ok.2 hr] at e2
        cases e2
        exact ⟨d, hd2, hx⟩

/-- **C25** Without an explicit domain (or with an empty one, which counts as none) the domain is the
strictly increasing list of exactly those outcomes the function can return. -/
theorem C25_inferred_domain {kind : CpdKind} {v : Node} {f : Func} {force : Option (List Outcome)}
    {ps : List Node} {dom : Dict Node (List Outcome)} {card : Node → Py Nat} {c : Cpd}
    (h : mkCpd kind v f force ps dom card = .ok c) (hforce : force = none ∨ force = some []) :
    c.domain.Pairwise (· < ·) ∧
    ∀ x, x ∈ c.domain ↔ ∃ vals d, Instantiation ps dom vals ∧ Returns f (pvOf ps vals) d ∧ x ∈ d.keys := by
  obtain ⟨ds, possible, domain, cards, cols, h1, h2, h3, h4, h5, h6, h7, h8, h9, rfl⟩ := mkCpd_ok_iff.1 h
  have : domain = possible := by
    rcases hforce with rfl | rfl <;> simpa [chooseDomain, truthy] using h3.symm
  subst this
  exact possibleValues_mem h1 h2

/-- **C25** An explicit domain is used as given, in its order, and contains every outcome the function
can return. -/
theorem C25_explicit_domain {kind : CpdKind} {v : Node} {f : Func} {l : List Outcome}
    {ps : List Node} {dom : Dict Node (List Outcome)} {card : Node → Py Nat} {c : Cpd}
    (h : mkCpd kind v f (some l) ps dom card = .ok c) (hl : l ≠ []) :
    c.domain = l ∧ ∀ x vals d, Instantiation ps dom vals → Returns f (pvOf ps vals) d → x ∈ d.keys →
      x ∈ l := by
  obtain ⟨ds, possible, domain, cards, cols, h1, h2, h3, h4, h5, h6, h7, h8, h9, rfl⟩ := mkCpd_ok_iff.1 h
  cases l with
  | nil => exact absurd rfl hl
  | cons a l =>
    simp only [chooseDomain, truthy] at h3
    split at h3
    · rename_i hall
      cases h3
      refine ⟨rfl, fun x vals d hv hr hx => ?_⟩
      have hx' := ((possibleValues_mem h1 h2).2 x).2 ⟨vals, d, hv, hr, hx⟩
      simpa using List.all_eq_true.1 hall x hx'
    · simp at h3

/-- **C25** If the function can return an outcome outside the explicit domain, construction raises
ValueError. -/
theorem C25_outside_domain_rejected {kind : CpdKind} {v : Node} {f : Func} {l : List Outcome}
    {ps : List Node} {dom : Dict Node (List Outcome)} {card : Node → Py Nat} (hl : l ≠ [])
    (hdom : ∀ p ∈ ps, ∃ d, dom.get? p = some d)
    (hf : ∀ vals, Instantiation ps dom vals → ∃ r, f (pvOf ps vals) = .ok r)
    {x : Outcome} {vals : List Outcome} {d : Dict Outcome (Option Rat)} (hv : Instantiation ps dom vals)
    (hr : Returns f (pvOf ps vals) d) (hx : x ∈ d.keys) (hxl : x ∉ l) :
    mkCpd kind v f (some l) ps dom card = .error .value := by
  obtain ⟨ds, hds, _⟩ := mapPy_ok (f := domOf dom) (xs := ps) (fun p hp => by
    obtain ⟨d, h⟩ := hdom p hp
    exact ⟨d, domOf_ok.2 h⟩)
  have hds' : parentDoms ps dom = .ok ds := hds
  obtain ⟨possible, hp⟩ : ∃ possible, possibleValues f ((product ds).map (pvOf ps)) = .ok possible := by
    obtain ⟨ys, hy, _⟩ := mapPy_ok (f := stochasticFunction f) (xs := (product ds).map (pvOf ps)) (by
      intro pv hpv
      obtain ⟨vals, hv, rfl⟩ := List.mem_map.1 hpv
      obtain ⟨r, hr⟩ := hf vals ((inst_iff (parentDoms_ok.1 hds')).1 hv)
      cases r with
      | dist d => exact ⟨d, by simp [stochasticFunction, hr]⟩
      | val o => exact ⟨_, by simp [stochasticFunction, hr]; rfl⟩)
    exact ⟨_, by simp [possibleValues, hy]; rfl⟩
  have hx' := ((possibleValues_mem hds' hp).2 x).2 ⟨vals, d, hv, hr, hx⟩
  cases l with
  | nil => exact absurd rfl hl
  | cons a l =>
    have : chooseDomain (some (a :: l)) possible = .error .value := by
      simp only [chooseDomain, truthy]
      rw [if_neg]
      intro hall
      exact hxl (by simpa using List.all_eq_true.1 hall x hx')
    simp only [mkCpd, parentValues, hds', hp, this]

example : (mkCpd .stochastic "Y" exFunc none ["A", "B"] exDom exCard).map (fun c => c.domain) =
    .ok [1, 5, 7, 9] := by decide +kernel
example : (mkCpd .stochastic "Y" exFunc (some [9, 7, 5, 1, 0]) ["A", "B"] exDom exCard).map
    (fun c => c.domain) = .ok [9, 7, 5, 1, 0] := by decide +kernel
example : (mkCpd .stochastic "Y" exFunc (some [9, 7, 1]) ["A", "B"] exDom exCard).map
    (fun c => c.domain) = .error .value := by decide +kernel

/-! ### C26 -/

/-- **C26** A node whose CPD is `bernoulli(p)` with `0 ≤ p ≤ 1` has domain [0, 1], takes 1 with
probability p and 0 with probability 1 - p. -/
theorem C26_bernoulli (v : Node) {p : Rat} (h0 : 0 ≤ p) (h1 : p ≤ 1)
    (dom : Dict Node (List Outcome)) (card : Node → Py Nat) :
    ∃ c, mkCpd .constant v (constFunc (bernoulli p)) none [] dom card = .ok c ∧ c.domain = [0, 1] ∧
      c.prob dom [] 1 = some p ∧ c.prob dom [] 0 = some (1 - p) := by
  have hc : column [0, 1] (bernoulli p) = .ok [1 - p, p] := by
    rw [column_ok (by simp [bernoulli, Dict.keys]) (by simp)]
    simp [given, bernoulli, Dict.get?]
  have : mkCpd .constant v (constFunc (bernoulli p)) none [] dom card =
      .ok ⟨v, [0, 1], [], [], [[1 - p, p]], .constant, constFunc (bernoulli p), none⟩ := by
    rw [mkCpd_ok_iff]
    refine ⟨[], [0, 1], [0, 1], [], [[1 - p, p]], rfl, ?_, rfl, rfl, ?_, ?_, ?_, rfl, by simp, rfl⟩
    · have : possibleValues (constFunc (bernoulli p)) ((product []).map (pvOf [])) =
        .ok ((([0, 1] : List Outcome)).dedup.insertionSort (· ≤ ·)) := rfl
      rw [this]
      decide +kernel
    · simp only [product, List.map_cons, List.map_nil, mapPy, colFor, stochasticFunction, constFunc, hc]
    · have hs : [1 - p, p].sum = 1 := by simp
      simp only [List.all_cons, List.all_nil, Bool.and_true, colClose, decide_eq_true_eq, hs]
      norm_num
    · simp only [List.all_cons, List.all_nil, Bool.and_true, colRange, Bool.and_eq_true,
        decide_eq_true_eq]
      exact ⟨⟨by linarith, by linarith⟩, h0, h1⟩
  exact ⟨_, this, rfl, rfl, rfl⟩

/-- the keys and values of `discrete_uniform` -/
theorem uniform_fold (q : Option Rat) (l : List Outcome) (d : Dict Outcome (Option Rat)) (x : Outcome) :
    Dict.get? (l.foldl (fun d o => Dict.set d o q) d) x = if x ∈ l then some q else d.get? x := by
  induction l generalizing d with
  | nil => simp
  | cons a l ih =>
    simp only [List.foldl_cons, ih, Dict.get?_set, List.mem_cons]
    by_cases h : x ∈ l
    · simp [h]
    · by_cases h' : x = a
      · simp [h']
      · simp [h, h']

theorem uniform_fold_nodup (q : Option Rat) (l : List Outcome) (d : Dict Outcome (Option Rat))
    (hd : d.keys.Nodup) : (l.foldl (fun d o => Dict.set d o q) d).keys.Nodup := by
  induction l generalizing d with
  | nil => exact hd
  | cons a l ih => exact ih _ (Dict.nodup_keys_set hd)

theorem mem_keys_of_get? {K V : Type} [DecidableEq K] {d : Dict K V} {k : K} {v : V}
    (h : d.get? k = some v) : k ∈ d.keys := Dict.mem_keys.2 ⟨v, h⟩

/-- **C26** The dictionary of `discrete_uniform(domain)` gives probability 1/n to every element of a
duplicate free domain of size n, nothing else, total mass 1. -/
theorem C26_discrete_uniform {l : List Outcome} (hl : l.Nodup) (hne : l ≠ []) :
    (discreteUniform l).keys.Nodup ∧ (∀ x, x ∈ (discreteUniform l).keys ↔ x ∈ l) ∧
      (∀ x ∈ l, given (discreteUniform l) x = some (1 / (l.length : Rat))) ∧
      givenMass (discreteUniform l) = 1 := by
  have hn : (discreteUniform l).keys.Nodup :=
    uniform_fold_nodup (some (1 / (l.length : Rat))) l [] (by simp [Dict.keys])
  have hg : ∀ x, Dict.get? (discreteUniform l) x = _ := uniform_fold (some (1 / (l.length : Rat))) l []
  have hk : ∀ x, x ∈ (discreteUniform l).keys ↔ x ∈ l := by
    intro x
    rw [Dict.mem_keys]
    constructor
    · rintro ⟨v, hv⟩
      rw [hg x] at hv
      by_contra hx
      simp [hx, Dict.get?] at hv
    · intro hx
      exact ⟨_, by rw [hg x, if_pos hx]⟩
  have hgv : ∀ x ∈ l, given (discreteUniform l) x = some (1 / (l.length : Rat)) := by
    intro x hx
    simp only [given]
    rw [hg x, if_pos hx]
    rfl
  refine ⟨hn, hk, hgv, ?_⟩
  rw [← sum_get?_getD hl hn (fun x hx => (hk x).1 hx)]
  have : l.map (fun x => (given (discreteUniform l) x).getD 0) = l.map (fun _ => 1 / (l.length : Rat)) := by
    apply List.map_congr_left
    intro x hx
    rw [hgv x hx]
    rfl
  rw [this]
  have h0 : (l.length : Rat) ≠ 0 := by
    have := List.length_pos_iff.2 hne
    exact_mod_cast this.ne'
  simp [h0]

/-- **C26** With a repeated outcome `discrete_uniform` loses mass: the total is the number of distinct
outcomes divided by the length of the list. -/
theorem C26_discrete_uniform_duplicates {l : List Outcome} (hne : l ≠ []) :
    givenMass (discreteUniform l) = (l.dedup.length : Rat) / l.length ∧
      (¬ l.Nodup → givenMass (discreteUniform l) < 1) := by
  have hn : (discreteUniform l).keys.Nodup :=
    uniform_fold_nodup (some (1 / (l.length : Rat))) l [] (by simp [Dict.keys])
  have hg : ∀ x, Dict.get? (discreteUniform l) x = _ := uniform_fold (some (1 / (l.length : Rat))) l []
  have hlen : (0 : Rat) < l.length := by exact_mod_cast List.length_pos_iff.2 hne
  have hmass : givenMass (discreteUniform l) = (l.dedup.length : Rat) / l.length := by
    rw [← sum_get?_getD (List.nodup_dedup l) hn (by
      intro x hx
      obtain ⟨v, hv⟩ := Dict.mem_keys.1 hx
      rw [hg x] at hv
      rw [List.mem_dedup]
      by_contra h
      simp [h, Dict.get?] at hv)]
    have : l.dedup.map (fun x => (given (discreteUniform l) x).getD 0) =
        l.dedup.map (fun _ => 1 / (l.length : Rat)) := by
      apply List.map_congr_left
      intro x hx
      simp only [given]
      rw [hg x, if_pos (List.mem_dedup.1 hx)]
      rfl
    rw [this]
    simp [div_eq_mul_inv]
  refine ⟨hmass, fun hdup => ?_⟩
  rw [hmass, div_lt_one hlen]
  have h1 : l.dedup.length ≤ l.length := (List.dedup_sublist l).length_le
  have h2 : l.dedup.length ≠ l.length := by
    intro h
    apply hdup
    rw [← (List.dedup_sublist l).eq_of_length h]
    exact List.nodup_dedup l
  exact_mod_cast lt_of_le_of_ne h1 h2

/-- **C26** A CPD whose function returns `noisy_copy(value, p, domain)` for some parent values gives
`value` probability `p` and shares `1 - p` equally among the other outcomes of the variable. -/
theorem C26_noisy_copy {kind : CpdKind} {v : Node} {f : Func} {force domain : Option (List Outcome)}
    {ps : List Node} {dom : Dict Node (List Outcome)} {card : Node → Py Nat} {c : Cpd}
    (h : mkCpd kind v f force ps dom card = .ok c) (hf : DictOk f) {vals : List Outcome}
    (hv : Instantiation ps dom vals) {value : Outcome} {p : Rat}
    (hr : f (pvOf ps vals) = .ok (.dist (noisyCopy value p domain))) :
    value ∈ c.domain ∧ c.prob dom vals value = some p ∧
      ∀ x ∈ c.domain, x ≠ value →
        c.prob dom vals x = some ((1 - p) / ((c.domain.length : Rat) - 1)) := by
  have hget : ∀ x, given (noisyCopy value p domain) x = if x = value then some p else none := by
    intro x
    simp only [given, noisyCopy, Dict.get?_set]
    by_cases hx : x = value
    · simp [hx]
    · rw [if_neg hx, if_neg hx]
      cases truthy domain with
      | none => rfl
      | some l =>
        simp only
        rw [uniform_fold]
        split
        · rfl
        · rfl
  have hcd := (mkCpd_fields h).2.2.2.2.2
  have hnod := hf _ _ hr
  have hmass0 : ∀ (l : List Outcome) (d : Dict Outcome (Option Rat)), (∀ q ∈ d, q.2 = none) →
      ∀ q ∈ l.foldl (fun d o => Dict.set d o none) d, q.2 = none := by
    intro l
    induction l with
    | nil => intro d hd; exact hd
    | cons a l ih =>
      intro d hd
      apply ih
      intro q hq
      have : ∀ (d : Dict Outcome (Option Rat)), (∀ q ∈ d, q.2 = none) → ∀ q ∈ Dict.set d a none, q.2 = none := by
        intro d
        induction d with
        | nil => intro _ q hq; simp [Dict.set] at hq; simp [hq]
        | cons b d ihd =>
          obtain ⟨k, w⟩ := b
          intro hd q hq
          simp only [Dict.set] at hq
          split at hq
          · rcases List.mem_cons.1 hq with rfl | hq
            · rfl
            · exact hd q (by simp [hq])
          · rcases List.mem_cons.1 hq with rfl | hq
            · exact hd (k, w) (by simp)
            · exact ihd (fun q hq => hd q (by simp [hq])) q hq
      exact this d hd q hq
  have hsetmass : ∀ (d : Dict Outcome (Option Rat)), (∀ q ∈ d, q.2 = none) →
      givenMass (Dict.set d value (some p)) = p := by
    intro d
    induction d with
    | nil => intro _; simp [Dict.set, givenMass]
    | cons b d ihd =>
      obtain ⟨k, w⟩ := b
      intro hd
      have hw : w = none := hd (k, w) (by simp)
      simp only [Dict.set]
      split
      · simp only [givenMass, List.map_cons, List.sum_cons, Option.getD_some]
        have : d.map (fun p => p.2.getD 0) = d.map (fun _ => (0 : Rat)) := by
          apply List.map_congr_left
          intro q hq
          rw [hd q (by simp [hq])]
          rfl
        rw [this]
        simp
      · have := ihd (fun q hq => hd q (by simp [hq]))
        simp only [givenMass] at this
        simp [givenMass, hw, this]
  have hmass : givenMass (noisyCopy value p domain) = p := by
    simp only [noisyCopy]
    apply hsetmass
    cases truthy domain with
    | none => simp
    | some l => exact hmass0 l [] (by simp)
  have hval : value ∈ c.domain := by
    obtain ⟨ds, possible, dm, cards, cols, h1, h2, h3, h4, h5, h6, h7, h8, h9, rfl⟩ := mkCpd_ok_iff.1 h
    have hp := ((possibleValues_mem h1 h2).2 value).2 ⟨vals, _, hv, Or.inl hr, by
      apply Dict.mem_keys.2
      refine ⟨some p, ?_⟩
      simp [noisyCopy, Dict.get?_set]⟩
    unfold chooseDomain at h3
    split at h3
    · split at h3
      · rename_i hall
        cases h3
        simpa using List.all_eq_true.1 hall value hp
      · simp at h3
    · cases h3; exact hp
  obtain ⟨a, b⟩ := C24_missing_mass_even h hf hv (Or.inl hr)
  refine ⟨hval, a value hval p (by simp [hget]), fun x hx hxv => ?_⟩
  rw [b x hx (by simp [hget, hxv]), hmass]
  congr 2
  have hlen : (unspecified c.domain (noisyCopy value p domain)).length + 1 = c.domain.length := by
    have e : unspecified c.domain (noisyCopy value p domain) = c.domain.erase value := by
      rw [hcd.erase_eq_filter]
      apply List.filter_congr
      intro y _
      by_cases hy : y = value <;> simp [hget, hy]
    rw [e, List.length_erase_of_mem hval]
    have := List.length_pos_of_mem hval
    omega
  have : (c.domain.length : Rat) = (unspecified c.domain (noisyCopy value p domain)).length + 1 := by
    exact_mod_cast hlen.symm
  rw [this]
  ring

example : (mkCpd .stochastic "Y" (fun pv => match pv "B" with
      | some b => .ok (.dist (noisyCopy b (4/5) (some [5, 7, 9])))
      | none => .error .type) none ["B"] exDom exCard).map
    (fun c => c.domain.map (fun x => c.prob exDom [7] x)) = .ok [some (1/10), some (4/5), some (1/10)] := by
  decide +kernel
example : givenMass (discreteUniform [1, 1, 2]) = 2 / 3 := by decide +kernel
example : (mkCpd .constant "Y" (constFunc (discreteUniform [1, 1, 2])) none [] exDom exCard).map
    (fun c => c.domain) = .error .value := by decide +kernel

/-! ### C27, C28, C29 -/

/-- **C28** The index of a decision context: every context has an index below the number of
contexts, different contexts have different indices and every such index is used. -/
theorem C28_arg2idx_bijection {ps : List Node} {ds : List (List Outcome)} (hp : ps.Nodup)
    (hl : ps.length = ds.length) (hd : ∀ d ∈ ds, d.Nodup) :
    (∀ xs, List.Forall₂ (· ∈ ·) xs ds →
      ∃ i, arg2idx ps ds (pvOf ps xs) = .ok i ∧ i < (ds.map List.length).prod) ∧
    (∀ xs ys, List.Forall₂ (· ∈ ·) xs ds → List.Forall₂ (· ∈ ·) ys ds →
      arg2idx ps ds (pvOf ps xs) = arg2idx ps ds (pvOf ps ys) → xs = ys) ∧
    (∀ i, i < (ds.map List.length).prod →
      ∃ xs, List.Forall₂ (· ∈ ·) xs ds ∧ arg2idx ps ds (pvOf ps xs) = .ok i) := by
  refine ⟨fun xs hx => ⟨_, arg2idx_enc hp hl hx, enc_lt hx⟩, ?_, ?_⟩
  · intro xs ys hx hy h
    rw [arg2idx_enc hp hl hx, arg2idx_enc hp hl hy] at h
    exact enc_inj hx hy (by simpa using h)
  · intro i hi
    obtain ⟨xs, hx, e⟩ := enc_surj hd hi
    exact ⟨xs, hx, by rw [arg2idx_enc hp hl hx, e]⟩

example : arg2idx ["A", "B"] [[0, 1], [5, 7, 9]] (pvOf ["A", "B"] [1, 9]) = .ok 5 := by decide +kernel
example : arg2idx ["A", "B"] [[0, 1], [5, 7, 9]] (pvOf ["A", "B"] [1, 7]) = .ok 3 := by decide +kernel

/-- **C27** `pure_decision_rules` returns |domain| ^ (number of contexts) rules; each is
deterministic with outcomes in the decision's domain; and every map from decision contexts to the
domain is played by exactly one of them. -/
theorem C27_pure_decision_rules {v : Node} {ps : List Node} {dom : Dict Node (List Outcome)}
    {card : Node → Py Nat} {domain : List Outcome} (hn : ps.Nodup) (hv : dom.get? v = some domain)
    (hd : domain.Nodup) (hne : domain ≠ [])
    (hdom : ∀ p ∈ ps, ∃ d, dom.get? p = some d ∧ d.Nodup ∧ card p = .ok d.length) :
    ∃ rules, pureDecisionRules v ps dom card = .ok rules ∧
      rules.length = domain.length ^ ((ps.map (fun p => ((dom.get? p).getD []).length)).prod) ∧
      (∀ c ∈ rules, c.var = v ∧ c.domain = domain ∧ c.evidence = ps ∧
        ∃ φ : List Outcome → Outcome, (∀ vals, Instantiation ps dom vals → φ vals ∈ domain) ∧
          Plays c dom φ) ∧
      ∀ φ : List Outcome → Outcome, (∀ vals, Instantiation ps dom vals → φ vals ∈ domain) →
        ∃ (i : Nat) (c : Cpd), rules[i]? = some c ∧ Plays c dom φ ∧
          ∀ (j : Nat) (c' : Cpd), rules[j]? = some c' → Plays c' dom φ → j = i :=
  pureDecisionRules_spec hn hv hd hne hdom

example : (pureDecisionRules "D" ["A", "B"] exDom exCard).map List.length = .ok 64 := by decide +kernel
example : ∀ p ∈ ["A", "B"], ∃ d, exDom.get? p = some d ∧ d.Nodup ∧ exCard p = .ok d.length := by
  intro p hp
  simp only [List.mem_cons, List.not_mem_nil, or_false] at hp
  rcases hp with rfl | rfl
  · exact ⟨[0, 1], by decide +kernel, by decide +kernel, by decide +kernel⟩
  · exact ⟨[5, 7, 9], by decide +kernel, by decide +kernel, by decide +kernel⟩

/-- **C29** `pure_policies` consists of exactly the combinations of one rule per decision, in order;
their number is the product of the numbers of rules, and none is repeated if no rule is. -/
theorem C29_pure_policies {rules : Node → Py (List Cpd)} {decs : List Node} {pols : List (List Cpd)}
    (h : purePolicies rules decs = .ok pols) :
    (∀ pol, pol ∈ pols ↔ List.Forall₂ (fun d c => ∃ rs, rules d = .ok rs ∧ c ∈ rs) decs pol) ∧
    (∀ n : Node → Nat, (∀ d ∈ decs, ∃ rs, rules d = .ok rs ∧ rs.length = n d) →
      pols.length = (decs.map n).prod) ∧
    ((∀ d ∈ decs, ∀ rs, rules d = .ok rs → rs.Nodup) → pols.Nodup) := by
  unfold purePolicies at h
  cases hm : mapPy rules decs with
  | error e => rw [hm] at h; simp at h
  | ok rs =>
    rw [hm] at h
    simp only [Except.ok.injEq] at h
    subst h
    rw [mapPy_ok_iff] at hm
    refine ⟨?_, ?_, ?_⟩
    · intro pol
      rw [mem_product]
      induction hm generalizing pol with
      | nil => constructor <;> intro h <;> cases h <;> exact List.Forall₂.nil
      | @cons d r decs rs h _ ih =>
        constructor
        · intro hp
          cases hp with
          | cons a b => exact List.Forall₂.cons ⟨r, h, a⟩ ((ih _).1 b)
        · intro hp
          cases hp with
          | cons a b =>
            obtain ⟨r', e, hm⟩ := a
            rw [h] at e
            cases e
            exact List.Forall₂.cons hm ((ih _).2 b)
    · intro n hnn
      rw [length_product]
      congr 1
      induction hm with
      | nil => rfl
      | @cons d r decs rs h _ ih =>
        simp only [List.map_cons]
        obtain ⟨r', e, hl⟩ := hnn d (by simp)
        rw [h] at e
        cases e
        rw [hl, ih (fun d hd => hnn d (by simp [hd]))]
    · intro hnod
      apply nodup_product
      intro l hl
      obtain ⟨d, hd, e⟩ := mapPy_mem' (mapPy_ok_iff.2 hm) hl
      exact hnod d hd l e

theorem forall₂_of_unique {α β : Type} {P : α → β → Prop} {as : List α} {bs cs : List β}
    (hu : ∀ a ∈ as, ∀ b c, P a b → P a c → b = c) (h1 : List.Forall₂ P as bs)
    (h2 : List.Forall₂ P as cs) : bs = cs := by
  induction h1 generalizing cs with
  | nil => cases h2; rfl
  | cons a _ ih =>
    cases h2 with
    | cons b d =>
      rw [hu _ (by simp) _ _ a b, ih (fun a ha => hu a (by simp [ha])) d]

/-- **C29** For the rules of `pure_decision_rules`: every joint pure strategy, one map from contexts
to outcomes for each listed decision, is played by exactly one entry of the enumeration. -/
theorem C29_joint_strategy_exactly_once {pa : Node → List Node} {dom : Dict Node (List Outcome)}
    {card : Node → Py Nat} {decs : List Node}
    (hok : ∀ d ∈ decs, (pa d).Nodup ∧ (∃ domain, dom.get? d = some domain ∧ domain.Nodup ∧ domain ≠ []) ∧
      ∀ p ∈ pa d, ∃ l, dom.get? p = some l ∧ l.Nodup ∧ card p = .ok l.length) :
    ∃ pols, purePolicies (fun d => pureDecisionRules d (pa d) dom card) decs = .ok pols ∧
      ∀ φ : Node → List Outcome → Outcome,
        (∀ d ∈ decs, ∀ vals, Instantiation (pa d) dom vals → φ d vals ∈ (dom.get? d).getD []) →
        ∃ (i : Nat) (pol : List Cpd), pols[i]? = some pol ∧
          List.Forall₂ (fun d c => Plays c dom (φ d)) decs pol ∧
          ∀ (j : Nat) (pol' : List Cpd), pols[j]? = some pol' →
            List.Forall₂ (fun d c => Plays c dom (φ d)) decs pol' → j = i := by
  have hall : ∀ d ∈ decs, ∃ rules, pureDecisionRules d (pa d) dom card = .ok rules ∧ rules.Nodup ∧
      ∀ φ : List Outcome → Outcome,
        (∀ vals, Instantiation (pa d) dom vals → φ vals ∈ (dom.get? d).getD []) →
        ∃ c ∈ rules, Plays c dom φ ∧ ∀ c' ∈ rules, Plays c' dom φ → c' = c := by
    intro d hd
    obtain ⟨hn, ⟨domain, hv, hdn, hne⟩, hp⟩ := hok d hd
    obtain ⟨rules, hr, _, hdet, huniq⟩ := C27_pure_decision_rules hn hv hdn hne hp
    refine ⟨rules, hr, ?_, ?_⟩
    · rw [List.nodup_iff_injective_getElem]
      intro i j hij
      obtain ⟨_, _, _, φ, hφ, hpl⟩ := hdet rules[i] (List.getElem_mem _)
      obtain ⟨k, c, _, _, hu⟩ := huniq φ hφ
      have h1 := hu i rules[i] (List.getElem?_eq_getElem i.2) hpl
      have h2 := hu j rules[j] (List.getElem?_eq_getElem j.2) (by
        have e : rules[i] = rules[j] := hij
        rw [← e]; exact hpl)
      exact Fin.ext (by rw [h1, h2])
    · intro φ hφ
      rw [hv] at hφ
      obtain ⟨i, c, hi, hpl, hu⟩ := huniq φ hφ
      refine ⟨c, List.mem_of_getElem? hi, hpl, fun c' hc' hp' => ?_⟩
      obtain ⟨j, hj, e⟩ := List.getElem_of_mem hc'
      have hji := hu j c' (by rw [List.getElem?_eq_getElem hj, e]) hp'
      subst hji
      rw [List.getElem?_eq_getElem hj, e] at hi
      simpa using hi
  obtain ⟨rs, hrs, hrsF⟩ := mapPy_ok (f := fun d => pureDecisionRules d (pa d) dom card) (xs := decs)
    (fun d hd => by obtain ⟨r, h, _⟩ := hall d hd; exact ⟨r, h⟩)
  have hpp : purePolicies (fun d => pureDecisionRules d (pa d) dom card) decs = .ok (product rs) := by
    simp [purePolicies, hrs]
  obtain ⟨hmem, hcount, hnod0⟩ := C29_pure_policies hpp
  have hnod := hnod0 (fun d hd r hr => by
    obtain ⟨r', e, hn, _⟩ := hall d hd
    rw [e] at hr
    cases hr
    exact hn)
  refine ⟨_, hpp, fun φ hφ => ?_⟩
  -- pick the rules one by one
  have hpick : ∃ pol, List.Forall₂ (fun d c => (∃ rs, pureDecisionRules d (pa d) dom card = .ok rs ∧ c ∈ rs) ∧
      Plays c dom (φ d)) decs pol := by
    clear hmem hnod hnod0 hcount hpp hrs hrsF
    induction decs with
    | nil => exact ⟨[], List.Forall₂.nil⟩
    | cons d decs ih =>
      obtain ⟨r, h1, _, h3⟩ := hall d (by simp)
      obtain ⟨c, hc, hpl, _⟩ := h3 (φ d) (hφ d (by simp))
      obtain ⟨pol, hp⟩ := ih (fun d hd => hok d (by simp [hd])) (fun d hd => hall d (by simp [hd]))
        (fun d hd => hφ d (by simp [hd]))
      exact ⟨c :: pol, List.Forall₂.cons ⟨⟨r, h1, hc⟩, hpl⟩ hp⟩
  obtain ⟨pol, hp⟩ := hpick
  have hpm : pol ∈ product rs := (hmem pol).2 (hp.imp (fun _ _ h => h.1))
  obtain ⟨i, hi, e⟩ := List.getElem_of_mem hpm
  refine ⟨i, pol, by rw [List.getElem?_eq_getElem hi, e], hp.imp (fun _ _ h => h.2), ?_⟩
  intro j pol' hj hpl'
  obtain ⟨hj', e'⟩ := List.getElem?_eq_some_iff.1 hj
  have hm' := (hmem pol').1 (e' ▸ List.getElem_mem hj')
  have hboth : List.Forall₂ (fun d c => (∃ rs, pureDecisionRules d (pa d) dom card = .ok rs ∧ c ∈ rs) ∧
      Plays c dom (φ d)) decs pol' := by
    rw [List.forall₂_iff_get] at hm' hpl' ⊢
    exact ⟨hm'.1, fun k h1 h2 => ⟨hm'.2 k h1 h2, hpl'.2 k h1 h2⟩⟩
  have : pol' = pol := forall₂_of_unique (fun d hd b c hb hc => by
    obtain ⟨r, h1, _, h3⟩ := hall d hd
    obtain ⟨c0, _, _, hu⟩ := h3 (φ d) (hφ d hd)
    obtain ⟨⟨r1, e1, m1⟩, p1⟩ := hb
    obtain ⟨⟨r2, e2, m2⟩, p2⟩ := hc
    rw [h1] at e1 e2
    cases e1
    cases e2
    rw [hu b m1 p1, hu c m2 p2]) hboth hp
  exact (hnod.getElem_inj_iff).1 (by rw [e', e, this])

example : ∀ d ∈ ["D"], (["A", "B"] : List Node).Nodup ∧
    (∃ domain, exDom.get? d = some domain ∧ domain.Nodup ∧ domain ≠ []) := by
  intro d hd
  simp only [List.mem_cons, List.not_mem_nil, or_false] at hd
  subst hd
  exact ⟨by decide +kernel, [0, 1], by decide +kernel, by decide +kernel, by decide +kernel⟩

/-! ### C30 -/

/-- **C30** (negative) The signature check accepts every function, whatever its parameters and
whatever the parents are. -/
theorem C30_signature_check_never_raises (params : List (Node × ParamKind)) (parents : List Node) :
    checkFunctionArguments params parents = .ok () := by
  simp [checkFunctionArguments, argsCheck, signature]

/-- **C30** The documented behaviour, which the same test gives when it is applied to the user's
function itself: ValueError exactly if there is no `**kwargs` parameter and the names differ. -/
theorem C30_documented_check (params : List (Node × ParamKind)) (parents : List Node) :
    argsCheck (.user params) parents = .error .value ↔
      (∀ p ∈ params, p.2 ≠ .varKeyword) ∧ ∃ a, ¬ (a ∈ params.map (·.1) ↔ a ∈ parents) := by
  have hcond : (¬ (ParamKind.varKeyword ∈ (signature (.user params)).map (·.2)) ∧
      ¬ (((signature (.user params)).map (·.1)).all (fun a => decide (a ∈ parents)) ∧
         parents.all (fun a => decide (a ∈ (signature (.user params)).map (·.1))))) ↔
      (∀ p ∈ params, p.2 ≠ .varKeyword) ∧ ∃ a, ¬ (a ∈ params.map (·.1) ↔ a ∈ parents) := by
    simp only [signature]
    refine and_congr ?_ ?_
    · constructor
      · intro h p hp hk
        exact h (List.mem_map.2 ⟨p, hp, hk⟩)
      · intro h hk
        obtain ⟨p, hp, e⟩ := List.mem_map.1 hk
        exact h p hp e
    · simp only [List.all_eq_true, decide_eq_true_eq]
      constructor
      · intro h
        by_contra hcon
        push Not at hcon
        exact h ⟨fun a ha => (hcon a).1 ha, fun a ha => decide_eq_true ((hcon a).2 ha)⟩
      · rintro ⟨a, ha⟩ hb
        exact ha ⟨hb.1 a, fun h => of_decide_eq_true (hb.2 a h)⟩
  rw [← hcond]
  simp only [argsCheck]
  split
  · rename_i h; exact iff_of_true rfl h
  · rename_i h; simp only [reduceCtorEq, false_iff]; exact h

/-- **C30** (negative, concrete) a mismatching function for which the documentation promises a
ValueError is accepted. -/
theorem C30_mismatch_accepted :
    argsCheck (.user [("x", .positionalOrKeyword)]) ["A", "B"] = .error .value ∧
      checkFunctionArguments [("x", .positionalOrKeyword)] ["A", "B"] = .ok () := by
  decide +kernel

end Verif

import Verif.Model.Call
import Verif.Lemmas.Net
import Verif.Lemmas.Cpd
import Verif.Lemmas.Requisite
import Verif.Lemmas.NetExamples

/-!
# C105: functions whose arguments do not match the parents
-/

namespace Verif
open Net

/-- The parameters match these parents: every parameter without a default is a parent, and every parent can be passed. -/
def PyFun.Fits (f : PyFun) (parents : List Node) : Prop :=
  (∀ r ∈ f.required, r ∈ parents) ∧ (f.kwargs = true ∨ ∀ p ∈ parents, p ∈ f.required ∨ p ∈ f.optional)

theorem pvOf_isSome {ps : List Node} {vals : List Outcome} (h : vals.length = ps.length) (n : Node) :
    pvOf ps vals n ≠ none ↔ n ∈ ps := by
  induction ps generalizing vals with
  | nil => simp [pvOf, Dict.get?]
  | cons p ps ih =>
    cases vals with
    | nil => simp at h
    | cons x xs =>
      have := ih (vals := xs) (by simpa using h)
      unfold pvOf at this ⊢
      by_cases e : p = n
      · simp [Dict.get?, e]
      · have e' : n ≠ p := fun h => e h.symm
        simp only [List.zip_cons_cons, Dict.get?, e, if_false, List.mem_cons, e', false_or]
        exact this

theorem PyFun.call_pvOf (f : PyFun) {names ps : List Node} (hn : ∀ p ∈ ps, p ∈ names) {vals : List Outcome}
    (h : vals.length = ps.length) :
    (f.Fits ps → f.call names (pvOf ps vals) = f.body (pvOf ps vals)) ∧
      (¬ f.Fits ps → f.call names (pvOf ps vals) = .error .type) := by
  have hs := pvOf_isSome h
  have h1 : f.required.any (fun r => decide (pvOf ps vals r = none)) = true ↔ ¬ ∀ r ∈ f.required, r ∈ ps := by
    simp only [List.any_eq_true, decide_eq_true_eq]
    push Not
    constructor
    · rintro ⟨r, hr, e⟩
      exact ⟨r, hr, fun hm => (hs r).2 hm e⟩
    · rintro ⟨r, hr, e⟩
      refine ⟨r, hr, ?_⟩
      by_contra hne
      exact e ((hs r).1 hne)
  have h2 : (!f.kwargs && names.any (fun n => decide (pvOf ps vals n ≠ none ∧ n ∉ f.required ++ f.optional))) = true ↔
      ¬ (f.kwargs = true ∨ ∀ p ∈ ps, p ∈ f.required ∨ p ∈ f.optional) := by
    simp only [Bool.and_eq_true, Bool.not_eq_true', List.any_eq_true, decide_eq_true_eq, List.mem_append]
    push Not
    refine and_congr (by simp) ?_
    constructor
    · rintro ⟨n, _, e, e2⟩
      exact ⟨n, (hs n).1 e, e2⟩
    · rintro ⟨n, e, e2⟩
      exact ⟨n, hn n e, (hs n).2 e, e2⟩
  unfold PyFun.Fits PyFun.call
  constructor
  · rintro ⟨k1, k2⟩
    rw [if_neg (fun q => h1.1 q k1), if_neg (fun q => h2.1 q k2)]
  · intro hk
    by_cases k1 : ∀ r ∈ f.required, r ∈ ps
    · rw [if_neg (fun q => h1.1 q k1), if_pos (h2.2 (fun k2 => hk ⟨k1, k2⟩))]
    · rw [if_pos (h1.2 k1)]

theorem set_err {net : Net} {v : Node} {r : Rel} {e : Err} (hne : e ≠ .parentsNotReady)
    (h : (stage net v r).toCpd v r = .error e) : net.set v r = (stage net v r, .error e) := by
  unfold Net.set
  rcases setItem_cases net.g.nodes.length net v r with ⟨h1, _⟩ | ⟨e', _, h1, h2⟩ | ⟨c, h1, _⟩
  · rw [h] at h1; simp only [Except.error.injEq] at h1; exact absurd h1 hne
  · rw [h] at h1; simp only [Except.error.injEq] at h1; rw [h2, h1]
  · rw [h] at h1; simp at h1

theorem set_wait {net : Net} {v : Node} {r : Rel}
    (h : (stage net v r).toCpd v r = .error .parentsNotReady) : net.set v r = (stage net v r, .ok ()) := by
  unfold Net.set
  rcases setItem_cases net.g.nodes.length net v r with ⟨_, h2⟩ | ⟨e', hne, h1, h2⟩ | ⟨c, h1, _⟩
  · exact h2
  · rw [h] at h1; simp only [Except.error.injEq] at h1; exact absurd h1.symm hne
  · rw [h] at h1; simp at h1

theorem stage_get (net : Net) (v : Node) (r : Rel) :
    (stage net v r).rels.get? v = some r ∧ (stage net v r).cpds.get? v = none := by
  constructor
  · unfold stage
    simp only
    rw [get?_append_single]
    simp [Dict.get?_erase]
  · unfold stage
    simp only
    rw [Dict.get?_erase]
    simp

theorem passed_values {ps : List Node} {dom : Dict Node (List Outcome)} {pvs : List PV} (h : parentValues ps dom = .ok pvs) {pv : PV}
    (hm : pv ∈ pvs) : ∃ vals : List Outcome, vals.length = ps.length ∧ pv = pvOf ps vals := by
  unfold parentValues at h
  cases hd : parentDoms ps dom with
  | error e => rw [hd] at h; simp at h
  | ok ds =>
    rw [hd] at h
    simp only [Except.ok.injEq] at h
    subst h
    obtain ⟨vals, hv, rfl⟩ := List.mem_map.1 hm
    exact ⟨vals, by rw [(mem_product.1 hv).length_eq, (parentDoms_ok.1 hd).length_eq], rfl⟩

/-- **C105** Assigning a function whose parameters do not match the parents raises TypeError (not the documented ValueError) if every
parent has its outcomes already; the relationship is stored all the same and the variable has no CPD. -/
theorem C105_type_error {net : Net} (hw : net.g.WF) {v : Node} (hv : v ∈ net.g.nodes) (f : PyFun)
    (hp : ∀ p, net.g.Edge p v → ∃ d, net.domain.get? p = some d ∧ d ≠ []) (hf : ¬ f.Fits (net.g.parents v)) :
    ∃ net', net.set v (.func (f.call net.g.nodes)) = (net', .error .type) ∧
      net'.rels.get? v = some (.func (f.call net.g.nodes)) ∧ net'.cpds.get? v = none := by
  have hn : ∀ p ∈ net.g.parents v, p ∈ net.g.nodes := fun p h => (hw.edgeNodes p v (Graph.mem_parents.1 h)).1
  obtain ⟨ds, hds, hF⟩ := mapPy_ok (f := domOf net.domain) (xs := net.g.parents v) (fun p h => by
    obtain ⟨d, h1, _⟩ := hp p (Graph.mem_parents.1 h)
    exact ⟨d, by simp [domOf, h1]⟩)
  have hdn : ∀ d ∈ ds, d ≠ [] := by
    intro d hd
    obtain ⟨p, h1, h2⟩ := mapPy_mem' hds hd
    obtain ⟨d', e1, e2⟩ := hp p (Graph.mem_parents.1 h1)
    simp only [domOf, e1, Except.ok.injEq] at h2
    exact h2 ▸ e2
  have hpv : parentValues (net.g.parents v) net.domain = .ok ((product ds).map (pvOf (net.g.parents v))) := by
    unfold parentValues parentDoms
    rw [hds]
  obtain ⟨vals, hvals⟩ := List.exists_mem_of_ne_nil _ (product_ne_nil hdn)
  have hbad : ∀ pv ∈ (product ds).map (pvOf (net.g.parents v)), stochasticFunction (f.call net.g.nodes) pv = .error .type := by
    intro pv hm
    obtain ⟨vals, hl, rfl⟩ := passed_values hpv hm
    unfold stochasticFunction
    rw [(f.call_pvOf hn hl).2 hf]
  have hposs : possibleValues (f.call net.g.nodes) ((product ds).map (pvOf (net.g.parents v))) = .error .type := by
    obtain ⟨e', he⟩ := mapPy_error_of (f := stochasticFunction (f.call net.g.nodes)) (List.mem_map_of_mem hvals)
      (hbad _ (List.mem_map_of_mem hvals))
    obtain ⟨x, hx, hxe⟩ := mapPy_error he
    rw [hbad x hx] at hxe
    simp only [Except.error.injEq] at hxe
    unfold possibleValues
    rw [he, ← hxe]
  refine ⟨_, set_err (by simp) ?_, stage_get _ _ _⟩
  have hv' : v ∈ (stage net v (.func (f.call net.g.nodes))).g.nodes := hv
  simp only [toCpd, if_pos hv']
  unfold mkCpd
  rw [show (stage net v (.func (f.call net.g.nodes))).g = net.g from rfl,
    show (stage net v (.func (f.call net.g.nodes))).domain = net.domain from rfl, hpv]
  simp only [hposs]

/-- **C105** While some parent has no outcomes yet, every function is accepted. -/
theorem C105_unnoticed {net : Net} {v p : Node} (hv : v ∈ net.g.nodes) (f : PyFun) (hp : net.g.Edge p v)
    (hd : net.domain.get? p = none) :
    ∃ net', net.set v (.func (f.call net.g.nodes)) = (net', .ok ()) ∧
      net'.rels.get? v = some (.func (f.call net.g.nodes)) ∧ net'.cpds.get? v = none := by
  refine ⟨_, set_wait ?_, stage_get _ _ _⟩
  have hv' : v ∈ (stage net v (.func (f.call net.g.nodes))).g.nodes := hv
  simp only [toCpd, if_pos hv']
  unfold mkCpd parentValues
  rw [show (stage net v (.func (f.call net.g.nodes))).g = net.g from rfl,
    show (stage net v (.func (f.call net.g.nodes))).domain = net.domain from rfl,
    parentDoms_err (Graph.mem_parents.2 hp) hd]

/-- **C105** If the parameters match, calling by name makes no difference: the same CPD, or the same exception, as for the body. -/
theorem C105_match {net : Net} (hw : net.g.WF) {v : Node} (f : PyFun) (hf : f.Fits (net.g.parents v)) :
    net.toCpd v (.func (f.call net.g.nodes)) =
      match net.toCpd v (.func f.body) with
      | .error e => .error e
      | .ok c => .ok { c with func := f.call net.g.nodes } := by
  have hn : ∀ p ∈ net.g.parents v, p ∈ net.g.nodes := fun p h => (hw.edgeNodes p v (Graph.mem_parents.1 h)).1
  by_cases hv : v ∈ net.g.nodes
  · simp only [toCpd, if_pos hv]
    unfold mkCpd
    cases hpv : parentValues (net.g.parents v) net.domain with
    | error e => rfl
    | ok pvs =>
      have hs : ∀ pv ∈ pvs, stochasticFunction (f.call net.g.nodes) pv = stochasticFunction f.body pv := by
        intro pv hm
        obtain ⟨vals, hl, rfl⟩ := passed_values hpv hm
        unfold stochasticFunction
        rw [(f.call_pvOf hn hl).1 hf]
      have h1 : possibleValues (f.call net.g.nodes) pvs = possibleValues f.body pvs := by
        unfold possibleValues
        rw [mapPy_congr hs]
      have h2 : ∀ domain, mapPy (colFor (f.call net.g.nodes) domain) pvs = mapPy (colFor f.body domain) pvs := fun domain =>
        mapPy_congr (fun pv hm => by unfold colFor; rw [hs pv hm])
      simp only [h1, h2]
      cases possibleValues f.body pvs with
      | error e => rfl
      | ok possible =>
        simp only
        cases chooseDomain none possible with
        | error e => rfl
        | ok domain =>
          simp only
          cases mapPy net.card (net.g.parents v) with
          | error e => rfl
          | ok cards =>
            simp only
            cases mapPy (colFor f.body domain) pvs with
            | error e => rfl
            | ok cols =>
              simp only
              split_ifs <;> rfl
  · simp only [toCpd, if_neg hv]

/-- `lambda X: X` as the relationship of U, whose parents are A and D -/
def exWrong : PyFun := ⟨["X"], [], false, fun pv => .ok (.val ((pv "X").getD 0))⟩

/-- **C105** (what goes wrong) A function with a wrong parameter name is accepted for `U` as long as its parents `A` and `D` have no CPDs.
The TypeError is raised by the innocent assignment of the last parent. -/
theorem C105_blames_parent :
    ¬ exWrong.Fits (Ex.net0.g.parents "U") ∧
    (let n1 := Ex.net0.set "U" (.func (exWrong.call Ex.net0.g.nodes))
     let n2 := n1.1.set "D" (.seq [0, 1])
     let n3 := n2.1.set "A" (.dist [(0, some (1 / 4)), (1, some (3 / 4))])
     n1.2 = .ok () ∧ n2.2 = .ok () ∧ n3.2 = .error .type ∧ (n3.1.cpds.get? "A").isSome = true ∧
       (Ex.net.set "U" (.func (exWrong.call Ex.net0.g.nodes))).2 = .error .type) := by
  refine ⟨fun h => ?_, ?_⟩
  · have := h.1 "X" (by simp [exWrong])
    revert this
    decide +kernel
  · intro n1 n2 n3
    refine ⟨?_, ?_, ?_, ?_, ?_⟩ <;> decide +kernel

/-- A function with parameters `A` and `D` and one that has a default value fits. -/
theorem C105_example : (⟨["D"], ["A", "k"], false, Ex.utility⟩ : PyFun).Fits (Ex.net0.g.parents "U") ∧
    (Ex.net.set "U" (.func ((⟨["D"], ["A", "k"], false, Ex.utility⟩ : PyFun).call Ex.net0.g.nodes))).2 = .ok () := by
  have hp : Ex.net0.g.parents "U" = ["D", "A"] := by decide +kernel
  refine ⟨⟨?_, Or.inr ?_⟩, by decide +kernel⟩ <;> rw [hp] <;> simp

end Verif

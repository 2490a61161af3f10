import Verif.Lemmas.Assign
import Verif.Props.Value

/-!
# C49: imputing random rules, removing rules
-/

namespace Verif

open Graph Net Macid

/-- **C49** `impute_random_decision` gives each action the same positive probability in every context,
keeps the domain and touches nothing else. -/
theorem C49_impute_random_decision {net : Net} (hG : net.Good) {d : Node} (hd : d ∈ net.g.nodes) :
    ∃ net', net.imputeRandom d = (net', .ok ()) ∧ net'.Good ∧ OnlyRules net [d] net' ∧ net'.undecided d = false ∧
      ∀ a, net.InDom a → net'.kernel d a = 1 / ((net.dom d).length : Rat) ∧ 0 < net'.kernel d a := by
  obtain ⟨net', c, h1, h2, h3, h4, h5, h6⟩ := imputeRandom_spec hG hd
  refine ⟨net', h1, h2, h3, by simp [undecided, h4, h5], fun a ha => ⟨h6 a ha, ?_⟩⟩
  rw [h6 a ha]
  have := List.length_pos_iff.2 (dom_props hG hd).2
  positivity

/-- **C49** ValueError if no domain is known for the decision; the network stays as it is. -/
theorem C49_no_domain (net : Net) {d : Node} (h : net.domain.get? d = none) : net.imputeRandom d = (net, .error .value) := by
  simp [imputeRandom, h]

/-- **C49** `impute_fully_mixed_policy_profile` / `impute_random_policy`: all decisions get positive uniform
rules, everything else stays. -/
theorem C49_fully_mixed {net : Net} (hU : net.Usable) :
    ∃ net', net.imputeMixed = (net', .ok ()) ∧ net'.Usable ∧ OnlyRules net net.m.decisions net' ∧
      ∀ d ∈ net.m.decisions, net'.undecided d = false ∧
        ∀ a, net.InDom a → net'.kernel d a = 1 / ((net.dom d).length : Rat) ∧ 0 < net'.kernel d a := by
  have hdec : ∀ d ∈ net.m.decisions, d ∈ net.g.nodes := fun d hd => hU.roles.nodes d (Or.inl hd)
  obtain ⟨net', h1, h2, h3, h4⟩ := forNet_usable (f := imputeRandom)
    (Q := fun net d => net.undecided d = false ∧ ∀ a, net.InDom a → net.kernel d a = 1 / ((net.dom d).length : Rat))
    (fun net hU d hd => by
      obtain ⟨n, c, k1, k2, k3, k4, k5, k6⟩ := imputeRandom_usable hU hd
      exact ⟨n, k1, k2, k3, by simp [undecided, k4, k5], fun a ha => by
        rw [k6 a ((k3.inDom a).1 ha), k3.dom]⟩)
    (fun n n' ds d hO hd hQ => ⟨by rw [hO.undecided hd]; exact hQ.1, fun a ha => by
      rw [hO.kernel hd, hO.dom]; exact hQ.2 a ((hO.inDom a).1 ha)⟩)
    net.m.decisions hU hdec
  refine ⟨net', h1, h2, h3, fun d hd => ⟨(h4 d hd).1, fun a ha => ?_⟩⟩
  have e := (h4 d hd).2 a ((h3.inDom a).2 ha)
  rw [h3.dom] at e
  refine ⟨e, ?_⟩
  rw [e]
  have := List.length_pos_iff.2 (dom_props hU.good (hdec d hd)).2
  positivity

/-- **C49** `remove_all_decision_rules` leaves exactly the bare domains at the decisions (whatever rules
they had) and touches nothing else. -/
theorem C49_remove_rules {net : Net} (hU : net.Usable) :
    ∃ net', net.removeRules = (net', .ok ()) ∧ net'.Usable ∧ OnlyRules net net.m.decisions net' ∧
      ∀ d ∈ net.m.decisions, net'.undecided d = true ∧ net'.rels.get? d = some (.seq (net.dom d)) := by
  have hdec : ∀ d ∈ net.m.decisions, d ∈ net.g.nodes := fun d hd => hU.roles.nodes d (Or.inl hd)
  obtain ⟨net', h1, h2, h3, h4⟩ := forNet_usable (f := removeRule)
    (Q := fun net d => net.undecided d = true ∧ net.rels.get? d = some (.seq (net.dom d)))
    (fun net hU d hd => by
      obtain ⟨n, c, k1, k2, k3, k4, k5, k6, _⟩ := removeRule_usable hU hd
      exact ⟨n, k1, k2, k3, by simp [undecided, k4, k5], by rw [k3.dom]; exact k6⟩)
    (fun n n' ds d hO hd hQ => ⟨by rw [hO.undecided hd]; exact hQ.1, by rw [hO.rels d hd, hO.dom]; exact hQ.2⟩)
    net.m.decisions hU hdec
  refine ⟨net', h1, h2, h3, fun d hd => ⟨(h4 d hd).1, ?_⟩⟩
  rw [(h4 d hd).2, h3.dom]

/-- **C49** Imputing random rules and removing them again restores a network whose decisions were
specified by their domains: no call can tell it from the original. -/
theorem C49_round_trip {net : Net} (hU : net.Usable)
    (hb : ∀ d ∈ net.m.decisions, ∃ l, net.rels.get? d = some (.seq l)) :
    ∃ net1 net2, net.imputeMixed = (net1, .ok ()) ∧ net1.removeRules = (net2, .ok ()) ∧ Equiv net net2 ∧
      ∀ d ∈ net.m.decisions, net2.rels.get? d = net.rels.get? d := by
  have hdec : ∀ d ∈ net.m.decisions, d ∈ net.g.nodes := fun d hd => hU.roles.nodes d (Or.inl hd)
  obtain ⟨net1, h1, h2, h3, _⟩ := C49_fully_mixed hU
  obtain ⟨net2, k1, k2, k3, k4⟩ := C49_remove_rules h2
  have hm : net1.m = net.m := h3.m
  rw [hm] at k3 k4
  have hO : OnlyRules net net.m.decisions net2 := h3.trans k3 (fun _ h => h) (fun _ h => h)
  have hrel : ∀ d ∈ net.m.decisions, net2.rels.get? d = net.rels.get? d := by
    intro d hd
    obtain ⟨l, hl⟩ := hb d hd
    obtain ⟨c, hc, hdd⟩ := hU.good.complete d (hdec d hd)
    obtain ⟨_, r, hr, hcomp⟩ := hU.good.reflects d c hc
    rw [hl] at hr
    cases hr
    unfold computed at hcomp
    obtain ⟨_, p, dd, _, _, _, hpos, hch, _, _, _, _, _, _, rfl⟩ := mkCpd_ok_iff.1 hcomp
    have hne := (hU.good.cpdOk d _ hc).nonempty
    simp only at hdd hne
    have : dd = l := by
      unfold chooseDomain at hch
      cases l with
      | nil =>
        simp only [truthy, Except.ok.injEq] at hch
        exfalso
        subst hch
        have := fun x hx => (show x ∈ p → False from by
          intro hx
          unfold possibleValues at hpos
          split at hpos
          · simp at hpos
          · rename_i ds hds
            simp only [Except.ok.injEq] at hpos
            rw [← hpos, List.mem_insertionSort, List.mem_dedup, List.mem_flatMap] at hx
            obtain ⟨e, he, hx⟩ := hx
            obtain ⟨pv, _, h⟩ := mapPy_mem' hds he
            simp only [stochasticFunction, constFunc, Except.ok.injEq] at h
            subst h
            simp [Dict.keys] at hx) hx
        obtain ⟨x, hx⟩ := List.exists_mem_of_ne_nil _ hne
        exact this x hx
      | cons y ys =>
        simp only [truthy] at hch
        split at hch
        · simpa using hch.symm
        · simp at hch
    rw [(k4 d hd).2, h3.dom, hl, dom_eq hdd, this]
  refine ⟨net1, net2, h1, k1, ⟨by rw [hO.g], fun u v => by rw [hO.g], fun v _ => by rw [hO.domain], fun v hv => ?_, fun v hv a ha => ?_⟩, hrel⟩
  · by_cases hvd : v ∈ net.m.decisions
    · rw [(k4 v hvd).1]
      obtain ⟨l, hl⟩ := hb v hvd
      obtain ⟨c, hc, hdd⟩ := hU.good.complete v hv
      obtain ⟨_, r, hr, hcomp⟩ := hU.good.reflects v c hc
      rw [hl] at hr
      cases hr
      unfold computed at hcomp
      simp [undecided, hc, (mkCpd_fields hcomp).2.2.1]
    · exact hO.undecided hvd
  · by_cases hvd : v ∈ net.m.decisions
    · obtain ⟨c, hc, hdd⟩ := hU.good.complete v hv
      obtain ⟨_, r, hr, hcomp⟩ := hU.good.reflects v c hc
      obtain ⟨c2, hc2, hdd2⟩ := k2.good.complete v (by rw [hO.g]; exact hv)
      obtain ⟨_, r2, hr2, hcomp2⟩ := k2.good.reflects v c2 hc2
      rw [hrel v hvd, hr] at hr2
      cases hr2
      rw [hO.domain, hO.g, hcomp] at hcomp2
      cases hcomp2
      unfold kernel
      rw [hc, hc2, hO.domain]
    · exact hO.kernel hvd a

/-- The hypotheses are met by the running example, and the rules do change in between. -/
example : Ex.net.Usable ∧ (∀ d ∈ Ex.net.m.decisions, ∃ l, Ex.net.rels.get? d = some (.seq l)) ∧
    Ex.net.undecided "D" = true ∧ (Ex.net.imputeMixed).1.undecided "D" = false ∧
    raises (Ex.net0.imputeRandom "D").2 .value = true := by
  refine ⟨Ex.net_usable, ?_, by decide +kernel, by decide +kernel, by decide +kernel⟩
  intro d hd
  have hm : Ex.net.m.decisions = ["D"] := by decide +kernel
  rw [hm, List.mem_singleton] at hd
  subst hd
  have : (match Ex.net.rels.get? "D" with | some (.seq l) => some l | _ => none) = some [0, 1] := by decide +kernel
  split at this
  · rename_i l h; exact ⟨l, h⟩
  · simp at this

end Verif

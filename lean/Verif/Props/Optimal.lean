import Verif.Lemmas.Runs
import Verif.Props.Policy

/-!
# C47: `impute_optimal_decision`
-/

namespace Verif

open Graph Net Macid

/-- **C47** When `impute_optimal_decision` succeeds, only the rule of that decision has changed, the new rule is
deterministic, and no rule whatsoever for this decision (any network that differs only there) gives the owner a
higher expected utility. -/
theorem C47_impute_optimal_decision {net : Net} (hU : net.Usable) {pick : Pick} {ord setOrd : List Node → List Node}
    (hord : ∀ l, (ord l).Perm l) (hset : ∀ l, (setOrd l).Perm l) {d : Node} {net' : Net}
    (h : imputeOptimal pick ord setOrd net d = (net', .ok ())) :
    ∃ agent, net.m.role d = .decision agent ∧ net'.Usable ∧ OnlyRules net [d] net' ∧ net'.undecided d = false ∧
      (∃ φ, net'.Pure d φ) ∧
      ∀ net'' : Net, net''.Usable → OnlyRules net [d] net'' → net''.EU agent ≤ net'.EU agent := by
  obtain ⟨n1, agent, φ, hd, hrole, h1, hU1, hO1, hU', hO', hun, hpure, hφ, _, hmax⟩ := imputeOptimal_spec hU hord hset h
  refine ⟨agent, hrole, hU', hO', hun, ⟨φ, hpure⟩, fun net'' hU'' hO'' => ?_⟩
  refine EU_le_of_act hU hrole hd hU' hO' hpure hφ (fun z hz x hx => ?_) hU'' hO''
  rw [← act_only hO1, ← act_only hO1]
  exact (hmax z hz x hx).2

theorem descUtils_ne_nil {net : Net} (hU : net.Usable) {agent : Agent} {d : Node} :
    descUtils net agent d ≠ [] ↔ ∃ u, net.m.role u = .utility agent ∧ net.g.Desc d u := by
  have key : ∀ u, u ∈ (net.m.agentUtilities.get? agent).getD [] ↔ net.m.role u = .utility agent := by
    intro u
    rw [role_utility hU.roles, hU.roles.util.iff]
    cases h : net.m.agentUtilities.get? agent with
    | none => simp
    | some l => simp
  constructor
  · intro h
    obtain ⟨u, hu⟩ := List.exists_mem_of_ne_nil _ h
    unfold descUtils at hu
    rw [List.mem_filter, decide_eq_true_eq, key, Graph.mem_descendants hU.good.wf] at hu
    exact ⟨u, hu⟩
  · rintro ⟨u, h1, h2⟩ he
    have : u ∈ descUtils net agent d := by
      unfold descUtils
      rw [List.mem_filter, decide_eq_true_eq, key, Graph.mem_descendants hU.good.wf]
      exact ⟨h1, h2⟩
    rw [he] at this
    simp at this

/-- **C47** It fails (and changes nothing but this rule) unless the decision can influence a utility of its owner and
every combination of values of its parents has positive probability. -/
theorem C47_needs {net : Net} (hU : net.Usable) {pick : Pick} {ord setOrd : List Node → List Node}
    (hord : ∀ l, (ord l).Perm l) (hset : ∀ l, (setOrd l).Perm l) {d : Node} {net' : Net}
    (h : imputeOptimal pick ord setOrd net d = (net', .ok ())) :
    ∃ agent, net.m.role d = .decision agent ∧ (∃ u, net.m.role u = .utility agent ∧ net.g.Desc d u) ∧
      ∀ a, net.InDom a → 0 < net.P (Has (net.g.parents d) ((net.g.parents d).map a)) := by
  obtain ⟨n1, agent, φ, hd, hrole, h1, hU1, hO1, hU', hO', hun, hpure, hφ, hne, hmax⟩ := imputeOptimal_spec hU hord hset h
  refine ⟨agent, hrole, (descUtils_ne_nil hU).1 hne, fun a ha => ?_⟩
  obtain ⟨x, hx⟩ := List.exists_mem_of_ne_nil _ (dom_props hU.good hd).2
  have hz : ∀ p ∈ net.g.parents d, a p ∈ net.dom p := fun p hp => ha p (hU.good.wf.edgeNodes p d (Graph.mem_parents.1 hp)).1
  have := (hmax a hz x hx).1
  rw [act_only hO1, act_context hU.good hU.normalised hd a hz hx] at this
  exact this

/-- **C47** In a weakly connected network where all other decisions have rules and the parents are not user-supplied
tables, it succeeds exactly if the decision can influence a utility of its owner and every combination of values of its
parents has positive probability. -/
theorem C47_succeeds_iff {net : Net} (hU : net.Usable) (hnames : NamesOk net.g) (pick : Pick) {ord setOrd : List Node → List Node}
    (hord : ∀ l, (ord l).Perm l) (hset : ∀ l, (setOrd l).Perm l) {d : Node} {agent : Agent} (hrole : net.m.role d = .decision agent)
    (hdec : ∀ e ∈ net.m.decisions, net.g.Connected d e ∧ (e ≠ d → net.undecided e = false))
    (hown : ∀ p ∈ net.g.parents d, net.Own p) :
    (imputeOptimal pick ord setOrd net d).2 = .ok () ↔
      (∃ u, net.m.role u = .utility agent ∧ net.g.Desc d u) ∧
      ∀ a, net.InDom a → 0 < net.P (Has (net.g.parents d) ((net.g.parents d).map a)) := by
  constructor
  · intro h
    obtain ⟨ag, h1, h2, h3⟩ := C47_needs hU (pick := pick) hord hset (d := d) (net' := (imputeOptimal pick ord setOrd net d).1)
      (by rw [← h])
    rw [hrole] at h1
    cases h1
    exact ⟨h2, h3⟩
  · rintro ⟨hu, hpos⟩
    have hd : d ∈ net.g.nodes := hU.roles.nodes d (Or.inl (Dict.mem_keys.2 ⟨agent, role_decision.1 hrole⟩))
    obtain ⟨net', h⟩ := imputeOptimal_runs hU hnames (pick := pick) hord hset hrole ((descUtils_ne_nil hU).2 hu) hdec hown (by
      intro vals hv
      have hnd := Graph.nodup_parents hU.good.wf.edgesNodup d
      have hl : (net.g.parents d).length = vals.length := hv.length_eq
      have hmap : (net.g.parents d).map (fun v => (Dict.get? ((net.g.parents d).zip vals) v).getD 0) = vals := by
        apply List.ext_getElem
        · simpa using hl
        · intro i h1 h2
          simp only [List.getElem_map]
          rw [get?_zip hnd (by simpa using h1) h2]
          rfl
      have hz : ∀ p ∈ net.g.parents d, (Dict.get? ((net.g.parents d).zip vals) p).getD 0 ∈ net.dom p := by
        have := hv
        rw [← hmap] at this
        unfold Instantiation at this
        rw [List.forall₂_map_right_iff, List.forall₂_same] at this
        intro p hp
        obtain ⟨ds, h1, h2⟩ := this p hp
        unfold Net.dom
        rw [h1]
        exact h2
      obtain ⟨b, hb, hbz⟩ := exists_inDom hU.good (fun v => (Dict.get? ((net.g.parents d).zip vals) v).getD 0)
        (· ∈ net.g.parents d) (fun u hu _ => hz u hu)
      have := hpos b hb
      rw [List.map_congr_left (fun v hv => hbz v hv), hmap] at this
      exact ne_of_gt this)
    rw [h]

/-- **C47** Evaluating `opt_policy` again on the network the first evaluation has left behind gives the same choices, so
it does not matter how many results `lru_cache` keeps. -/
theorem C47_same_again {net : Net} (hU : net.Usable) {pick : Pick} {ord : List Node → List Node} (hord : ∀ l, (ord l).Perm l)
    {us : List Node} {d : Node} (hdu : ∃ u ∈ us, net.g.Connected u d) {dom : List Outcome} {cs : List (List Outcome)}
    {t t' : List (List Outcome × Outcome)}
    (h : (optTable pick ord us d dom (net.g.parents d) net cs).2 = .ok t)
    (h' : (optTable pick ord us d dom (net.g.parents d) (optTable pick ord us d dom (net.g.parents d) net cs).1 cs).2 = .ok t') :
    t' = t := by
  have hdk : d ∈ keepOf net us := (mem_keepOf hU.good.wf).2 hdu
  have hcl : Closed net.g (keepOf net us) := closed_keep hU.good.wf us
  have hps : ∀ p ∈ net.g.parents d, p ∈ keepOf net us := fun p hp => hcl d p (Or.inr (Graph.mem_parents.1 hp)) hdk
  have hs := Sess.refl hU.good hU.normalised us
  have e1 := optTable_det hU.good hU.normalised hord hps hdk cs hs t h
  have e2 := optTable_det hU.good hU.normalised hord hps hdk cs
    (optTable_spec hU.good hU.normalised (pick := pick) hord hps hdk cs hs).1 t' h'
  rw [e1] at e2
  have hinj : Function.Injective (fun e : List Outcome × Outcome => (e.1, (Except.ok e.2 : Py Outcome))) := by
    intro a b hab
    simp only [Prod.mk.injEq, Except.ok.injEq] at hab
    exact Prod.ext hab.1 hab.2
  exact (hinj.list_map e2).symm

/-- The example network: the optimal rule matches A, worth 1 (the mixed rule is worth 1/2). -/
theorem C47_example :
    (imputeOptimal (fun _ _ => 0) id id Ex.net "D").2 = .ok () ∧
    ((imputeOptimal (fun _ _ => 0) id id Ex.net "D").1.EU 0 = 1) ∧ (Ex.net.imputeRandom "D").1.EU 0 = 1 / 2 := by
  decide +kernel

/-- Ex.net with A = 0 for sure: the other context of D has probability 0. -/
def Ex.netSure : Net := (Ex.net0.addCpds
  [("U", .func Ex.utility), ("D", .seq [0, 1]), ("A", .dist [(0, some 1), (1, some 0)])]).1

/-- **C47** With an impossible context it raises a RuntimeError, although an optimal rule exists. -/
theorem C47_impossible_context : (imputeOptimal (fun _ _ => 0) id id Ex.netSure "D").2 = .error .runtime ∧
    (Ex.netSure.imputeRandom "D").2 = .ok () := by
  decide +kernel

/-- A network where the only utility is no descendant of the decision. -/
def Ex.netIdle : Net := ((⟨⟨⟨["A", "D", "U"], [("A", "D"), ("A", "U")]⟩, [(0, ["D"])], [(0, ["U"])],
    [("D", 0)], [("U", 0)]⟩, [], [], [], Macid.new⟩ : Net).addCpds
  [("U", .func (fun pv => .ok (.val ((pv "A").getD 0)))), ("D", .seq [0, 1]), ("A", .dist [(0, some (1 / 4)), (1, some (3 / 4))])]).1

/-- **C47** A decision that cannot influence any utility of its owner makes it raise (the query for no variables). -/
theorem C47_idle_decision : (imputeOptimal (fun _ _ => 0) id id Ex.netIdle "D").2 = .error .nx ∧
    (Ex.netIdle.imputeRandom "D").2 = .ok () := by
  decide +kernel

end Verif

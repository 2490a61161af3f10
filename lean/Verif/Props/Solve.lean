import Verif.Lemmas.Backward
import Verif.Props.Policy
import Verif.Props.Relevance
import Verif.Props.Optimal
import Verif.Props.Witness

/-!
# C48: `impute_optimal_policy` and `solve`
-/

namespace Verif

open Graph Relation Macid Net

theorem NoRelianceCycle.mono {m : Macid} {ds es : List Node} (h : m.NoRelianceCycle es) (hs : ∀ d ∈ ds, d ∈ es) :
    m.NoRelianceCycle ds := fun d hd =>
  h d (TransGen.mono (fun _ _ hr => ⟨hs _ hr.1, hs _ hr.2.1, hr.2.2⟩) _ _ hd)

/-- the order used by `impute_optimal_policy` -/
theorem valid_order_decisions {m : Macid} (hc : m.Consistent) {a : Agent} (hone : ∀ d ∈ m.decisions, m.role d = .decision a)
    (hrec : m.NoRelianceCycle m.decisions) (tpick : List Node → Nat) :
    ∃ out, m.getValidOrder tpick (some m.decisions) = .ok out ∧ out.Nodup ∧ (∀ d, d ∈ out ↔ d ∈ m.decisions) ∧
      out.Pairwise (fun d1 d2 => ¬ m.RReach d2 d1) := by
  obtain ⟨out, h1, h2, h3, h4⟩ := (C14_get_valid_order m hc.wf tpick m.decisions).1 (fun d hd => hc.nodes d (Or.inl hd))
  refine ⟨out, h1, h2, h3, ?_⟩
  refine List.Pairwise.imp_of_mem ?_ (List.Pairwise.and h2 h4)
  rintro d1 d2 hd1 hd2 ⟨hne, hnd⟩ hr
  have m1 := (h3 d1).1 hd1
  have m2 := (h3 d2).1 hd2
  have hs := rreach_symm hc (hone d1 m1) (hone d2 m2) hne hnd hr
  exact hrec d1 (TransGen.tail (TransGen.single ⟨m1, m2, hne, hs⟩) ⟨m2, m1, hne.symm, hr⟩)

/-- the branch taken by `impute_optimal_policy` -/
theorem recall_true {net : Net} (hU : net.Usable) (hnames : NamesOk net.g) {a : Agent}
    (hone : ∀ d ∈ net.m.decisions, net.m.role d = .decision a) (pick : Pick) (tpick : List Node → Nat) :
    ∃ b, Macid.sufficientRecall pick tpick net.m none = .ok b ∧ (b = true ↔ net.m.NoRelianceCycle net.m.decisions) := by
  obtain ⟨b, hb, hiff⟩ := C19_sufficient_recall_all net.m hU.roles hnames pick tpick
    (fun x hx => (hU.staffed.both x).1 hx)
  refine ⟨b, hb, hiff.trans ?_⟩
  have hds : ∀ x ds, net.m.agentDecisions.get? x = some ds → ∀ d ∈ ds, d ∈ net.m.decisions := fun x ds h d hd =>
    Dict.mem_keys.2 ⟨x, (hU.roles.dec.iff d x).2 ⟨ds, h, hd⟩⟩
  constructor
  · intro h d hd
    have hne : ∃ ds, net.m.agentDecisions.get? a = some ds ∧ ∀ d ∈ net.m.decisions, d ∈ ds := by
      obtain ⟨e, _, he⟩ := TransGen.head'_iff.1 hd
      · obtain ⟨ds, h1, h2⟩ := (hU.roles.dec.iff d a).1 (role_decision.1 (hone d (by tauto)))
        refine ⟨ds, h1, fun e he => ?_⟩
        obtain ⟨ds', h3, h4⟩ := (hU.roles.dec.iff e a).1 (role_decision.1 (hone e he))
        rw [h1] at h3
        cases h3
        exact h4
    obtain ⟨ds, h1, h2⟩ := hne
    refine NoRelianceCycle.mono (h a ?_ ds h1) h2 d hd
    exact (hU.staffed.both a).2 (Dict.mem_keys.2 ⟨ds, h1⟩)
  · intro h x _ ds hx
    exact NoRelianceCycle.mono h (hds x ds hx)

theorem Net.OnlyRules.symm {n1 n2 : Net} {ds : List Node} (h : OnlyRules n1 ds n2) : OnlyRules n2 ds n1 :=
  ⟨h.m.symm, h.base.symm, h.domain.symm, fun w hw => (h.cpds w hw).symm, fun w hw => (h.rels w hw).symm⟩

/-- `impute_optimal_policy` once the random rules are in place -/
theorem optimal_core {net n1 : Net} (h1 : net.imputeMixed = (n1, .ok ())) (hU1 : n1.Usable) (hnames : NamesOk n1.g) {a : Agent}
    (hone : ∀ d ∈ n1.m.decisions, n1.m.role d = .decision a) (hrec : n1.m.NoRelianceCycle n1.m.decisions)
    {pick : Pick} {tpick : List Node → Nat} {ord setOrd : List Node → List Node} {rnd : Nat}
    (hord : ∀ l, (ord l).Perm l) (hset : ∀ l, (setOrd l).Perm l) {net' : Net}
    (h : net.imputeOptimalPolicy pick tpick ord setOrd rnd = (net', .ok ())) :
    net'.Usable ∧ OnlyRules n1 n1.m.decisions net' ∧
    (∀ d ∈ n1.m.decisions, net'.undecided d = false ∧ ∃ φ, net'.Pure d φ) ∧
    ∀ net'' : Net, net''.Usable → OnlyRules n1 n1.m.decisions net'' → net''.EU a ≤ net'.EU a := by
  obtain ⟨b, hb, hbi⟩ := recall_true hU1 hnames hone pick tpick
  obtain ⟨out, ho, hnd, hmem, hpw⟩ := valid_order_decisions hU1.roles hone hrec tpick
  have hbt : b = true := hbi.2 hrec
  subst hbt
  unfold imputeOptimalPolicy at h
  rw [h1] at h
  simp only [hb, ho] at h
  obtain ⟨k1, k2, k3, k4⟩ := backward hord hset (agent := a) out.reverse hU1 hnames
    (fun d hd => hone d ((hmem d).1 (List.mem_reverse.1 hd))) (List.nodup_reverse.2 hnd)
    (by rw [List.pairwise_reverse]; exact hpw) h
  have hsub : ∀ w ∈ out.reverse, w ∈ n1.m.decisions := fun w hw => (hmem w).1 (List.mem_reverse.1 hw)
  refine ⟨k1, k2.mono hsub, fun d hd => k3 d (List.mem_reverse.2 ((hmem d).2 hd)), ?_⟩
  intro net'' hU'' hO''
  rw [EU_eq hU'', EU_eq k1, hO''.m, k2.m]
  exact k4 net''.bn (bn_prob hU''.good hU''.normalised) hO''.g hO''.dom (by
    intro v hv hvL b hb
    have hvd : v ∉ n1.m.decisions := fun hm => hvL (List.mem_reverse.2 ((hmem v).2 hm))
    show net''.kernel v b = n1.kernel v b
    rw [hO''.kernel hvd])

/-- **C48** One decision maker, sufficient recall: when `impute_optimal_policy` succeeds, it changes nothing but decision
rules, all decisions have deterministic rules, and no joint policy, deterministic or not, has higher expected utility. -/
theorem C48_impute_optimal_policy {net : Net} (hU : net.Usable) (hnames : NamesOk net.g) {a : Agent}
    (hone : ∀ d ∈ net.m.decisions, net.m.role d = .decision a) (hrec : net.m.NoRelianceCycle net.m.decisions)
    {pick : Pick} {tpick : List Node → Nat} {ord setOrd : List Node → List Node} {rnd : Nat}
    (hord : ∀ l, (ord l).Perm l) (hset : ∀ l, (setOrd l).Perm l) {net' : Net}
    (h : net.imputeOptimalPolicy pick tpick ord setOrd rnd = (net', .ok ())) :
    net'.Usable ∧ OnlyRules net net.m.decisions net' ∧
    (∀ d ∈ net.m.decisions, net'.undecided d = false ∧ ∃ φ, net'.Pure d φ) ∧
    ∀ net'' : Net, net''.Usable → OnlyRules net net.m.decisions net'' → net''.EU a ≤ net'.EU a := by
  obtain ⟨n1, h1, hU1, hO1, _⟩ := C49_fully_mixed hU
  obtain ⟨k1, k2, k3, k4⟩ := optimal_core h1 hU1 (by rw [hO1.g]; exact hnames) (by rw [hO1.m]; exact hone) (by rw [hO1.m]; exact hrec)
    hord hset h
  rw [hO1.m] at k2 k3 k4
  exact ⟨k1, hO1.trans k2 (fun _ h => h) (fun _ h => h), k3, fun n'' q1 q2 => k4 n'' q1 (hO1.symm.trans q2 (fun _ h => h) (fun _ h => h))⟩

/-! ### A decision in two stages -/

namespace Ex2

/-- A is seen before D1, A and D1 before D2; the utility is 4 if D2 = A, plus 2 if D1 ≠ D2 -/
def m : Macid := ⟨⟨["A", "D1", "D2", "U"], [("A", "D1"), ("A", "D2"), ("D1", "D2"), ("A", "U"), ("D1", "U"), ("D2", "U")]⟩,
  [(0, ["D1", "D2"])], [(0, ["U"])], [("D1", 0), ("D2", 0)], [("U", 0)]⟩

def utility : Func := fun pv => .ok (.val ((if pv "A" = pv "D2" then 4 else 0) + (if pv "D1" = pv "D2" then 0 else 2)))

def rels : List (Node × Rel) :=
  [("A", .dist [(0, some (1 / 4)), (1, some (3 / 4))]), ("D1", .seq [0, 1]), ("D2", .seq [0, 1]), ("U", .func utility)]

def net : Net := ((Net.mk m [] [] [] Macid.new).addCpds rels).1

theorem usable : net.Usable ∧ net.m = m :=
  usable_of_build (edges := [("A", "D1"), ("A", "D2"), ("D1", "D2"), ("A", "U"), ("D1", "U"), ("D2", "U")])
    (ad := [(0, ["D1", "D2"])]) (au := [(0, ["U"])]) (rels := rels) (by decide +kernel)
    (by rw [← show ((Net.mk m [] [] [] Macid.new).addCpds rels).2 = .ok () by decide +kernel]; rfl)
    (by
      intro p hp
      simp only [rels, List.mem_cons, List.not_mem_nil, or_false] at hp
      rcases hp with rfl | rfl | rfl | rfl
      · trivial
      · trivial
      · trivial
      · intro pv; simp [utility])
    (by decide +kernel)

theorem names : NamesOk net.g := ⟨by decide +kernel, by decide +kernel⟩

theorem recall : Macid.sufficientRecall (fun _ => 0) (fun _ => 0) m none = .ok true := by decide +kernel

end Ex2

/-- The hypotheses of `C48_impute_optimal_policy` are met, and the policy found is worth 6; uniform choices are worth 3. -/
theorem C48_example :
    Ex2.net.Usable ∧ NamesOk Ex2.net.g ∧ (∀ d ∈ Ex2.net.m.decisions, Ex2.net.m.role d = .decision 0) ∧
    Ex2.net.m.NoRelianceCycle Ex2.net.m.decisions ∧
    (Ex2.net.imputeOptimalPolicy (fun _ => 0) (fun _ => 0) id id 0).2 = .ok () ∧
    (Ex2.net.imputeOptimalPolicy (fun _ => 0) (fun _ => 0) id id 0).1.EU 0 = 6 ∧ Ex2.net.imputeMixed.1.EU 0 = 3 := by
  have hone : ∀ d ∈ Ex2.net.m.decisions, Ex2.net.m.role d = .decision 0 := by
    rw [Ex2.usable.2]
    decide +kernel
  refine ⟨Ex2.usable.1, Ex2.names, hone, ?_, by decide +kernel, by decide +kernel, by decide +kernel⟩
  obtain ⟨b, h1, h2⟩ := recall_true Ex2.usable.1 Ex2.names hone (fun _ => 0) (fun _ => 0)
  rw [Ex2.usable.2, Ex2.recall] at h1
  cases h1
  exact h2.1 rfl

end Verif

import Verif.Lemmas.Enumerate
import Verif.Props.Query
import Verif.Props.Solve

/-!
# C46: `optimal_pure_policies`
-/

namespace Verif

open Graph Relation Macid Net

theorem soleAgent_one {m : Macid} {ds : List Node} {a : Agent} (hne : ds ≠ []) (h : ∀ d ∈ ds, m.role d = .decision a) :
    soleAgent m ds = .ok a := by
  unfold soleAgent
  obtain ⟨as, h1, h2⟩ := Verif.mapPy_ok (f := fun d => m.decisionAgent.get d) (xs := ds)
    (fun d hd => ⟨a, Dict.get_ok.2 (role_decision.1 (h d hd))⟩)
  have hall : ∀ x ∈ as, x = a := by
    intro x hx
    obtain ⟨d, hd, e⟩ := mapPy_mem' h1 hx
    rw [Dict.get_ok.2 (role_decision.1 (h d hd))] at e
    cases e
    rfl
  have hnil : as ≠ [] := by
    intro e
    subst e
    have := h2.length_eq
    simp at this
    exact hne this
  rw [h1]
  simp only
  have : as.dedup = [a] := by
    have e1 : ∀ x ∈ as.dedup, x = a := fun x hx => hall x (List.mem_dedup.1 hx)
    have e2 : as.dedup ≠ [] := by
      intro e
      obtain ⟨x, hx⟩ := List.exists_mem_of_ne_nil _ hnil
      have := List.mem_dedup.2 hx
      rw [e] at this
      simp at this
    have e3 := List.nodup_dedup as
    generalize as.dedup = l at e1 e2 e3
    match l, e1, e2, e3 with
    | [], _, e2, _ => exact absurd rfl e2
    | [x], e1, _, _ => rw [e1 x (by simp)]
    | x :: y :: l, e1, _, e3 =>
      exfalso
      rw [List.nodup_cons] at e3
      exact e3.1 (by rw [e1 x (by simp), ← e1 y (by simp)]; simp)
  rw [this]

/-- everything up to the loop -/
theorem optimalPurePolicies_eq {net : Net} (hU : net.Usable) (hnames : NamesOk net.g) (pick : Pick) (ord : List Node → List Node)
    {setOrd : List Node → List Node} (hset : ∀ l, (setOrd l).Perm l) (tol : Rat) {ds : List Node} {a : Agent} (hne : ds ≠ [])
    (hone : ∀ d ∈ ds, net.m.role d = .decision a) :
    ∃ base us pols, base.Usable ∧ Reference net ds base ∧ base.m.agentUtilities.get? a = some us ∧
      purePolicies base.pureRules (setOrd ds.dedup) = .ok pols ∧ base.base = net.base ∧
      optimalPurePolicies pick ord setOrd tol net ds = policyLoop pick ord tol a base none [] pols := by
  obtain ⟨copy, hc, hUc, hE, hR, hB, _⟩ := hU.copy
  let es := setOrd ds.dedup
  have hes : ∀ d, d ∈ es ↔ d ∈ ds := fun d => ((hset ds.dedup).mem_iff).trans List.mem_dedup
  have hdec : ∀ m : Macid, (∀ n, m.role n = net.m.role n) → ∀ d ∈ es, d ∈ m.decisions := by
    intro m hm d hd
    have := hone d ((hes d).1 hd)
    rw [← hm] at this
    exact Dict.mem_keys.2 ⟨a, role_decision.1 this⟩
  have hnc : NamesOk copy.g := by
    obtain ⟨n1, n2⟩ := hnames
    unfold NamesOk
    rw [hE.nodes]
    exact ⟨n1, n2⟩
  obtain ⟨base, k1, k2, k3, k4, k5⟩ := mixLoop_spec (pick := pick) (ds := es) copy.m.decisions hUc hnc (hdec _ hR) (fun _ h => h)
    hUc.roles.dec.nodeKeys
  have hRb : ∀ n, base.m.role n = net.m.role n := fun n => by rw [k3.m]; exact hR n
  have hidle : ∀ v, Idle copy es v ↔ v ∈ net.m.decisions ∧ net.undecided v = true ∧ v ∉ ds ∧ ∀ d ∈ ds, ¬ net.m.RReach d v := by
    intro v
    have hd : v ∈ copy.m.decisions ↔ v ∈ net.m.decisions := by
      constructor <;> intro h <;> obtain ⟨x, hx⟩ := Dict.mem_keys.1 h
      · exact Dict.mem_keys.2 ⟨x, role_decision.1 ((hR v).symm.trans (role_decision.2 hx))⟩
      · exact Dict.mem_keys.2 ⟨x, role_decision.1 ((hR v).trans (role_decision.2 hx))⟩
    unfold Idle
    rw [hd]
    refine and_congr_right (fun hv => ?_)
    rw [hE.undecided v (hU.roles.nodes v (Or.inl hv)), hes]
    refine and_congr_right (fun _ => and_congr_right (fun _ => ?_))
    constructor
    · intro h d hd hr
      exact h d ((hes d).2 hd) ((rreach_congr hR (fun x => by rw [hE.nodes]) hE.edges d v).2 hr)
    · intro h d hd hr
      exact h d ((hes d).1 hd) ((rreach_congr hR (fun x => by rw [hE.nodes]) hE.edges d v).1 hr)
  have hin : ∀ b, copy.InDom b ↔ net.InDom b := by
    intro b
    unfold InDom
    rw [hE.nodes]
    exact forall₂_congr (fun v hv => by rw [hE.dom hv])
  have hesn : ∀ d ∈ es, d ∈ base.g.nodes := fun d hd => k2.roles.nodes d (Or.inl (hdec _ hRb d hd))
  obtain ⟨pols, p1, p2, p3, p4⟩ := purePolicies_ok k2 ((hset ds.dedup).nodup_iff.2 (List.nodup_dedup ds)) hesn
  have hus : ∃ us, base.m.agentUtilities.get? a = some us := by
    obtain ⟨d, hd⟩ := List.exists_mem_of_ne_nil _ hne
    have := hone d hd
    rw [← hRb] at this
    obtain ⟨l, hl, _⟩ := (k2.roles.dec.iff d a).1 (role_decision.1 this)
    exact Dict.mem_keys.1 ((k2.staffed.both a).2 (Dict.mem_keys.2 ⟨l, hl⟩))
  obtain ⟨us, hus⟩ := hus
  refine ⟨base, us, pols, k2, ?_, hus, p1, k3.base.trans hB, ?_⟩
  · refine ⟨by rw [k3.g]; exact hE.nodes, by rw [k3.g]; exact hE.edges, fun v hv => by rw [k3.domain]; exact hE.domain v hv, hRb, ?_, ?_⟩
    · intro v hv h1 h2 h3
      have hi := (hidle v).2 ⟨hv, h1, h2, h3⟩
      obtain ⟨q1, q2⟩ := k4 v hi.1 hi
      refine ⟨q1, fun b hb => ?_⟩
      rw [q2 b ((hin b).2 hb), hE.dom (hU.roles.nodes v (Or.inl hv))]
    · intro v hv hni
      obtain ⟨q1, q2⟩ := k5 v (fun h => hni ((hidle v).1 h))
      refine ⟨?_, fun b hb => ?_⟩
      · rw [← hE.undecided v hv]
        unfold undecided
        rw [q1]
      · rw [← hE.kernel v hv b hb]
        unfold Net.kernel
        rw [q1, k3.domain]
  · unfold optimalPurePolicies
    rw [if_neg hne]
    simp only
    rw [soleAgent_one (a := a) (by
      intro e
      obtain ⟨d, hd⟩ := List.exists_mem_of_ne_nil _ hne
      have := (hes d).2 hd
      rw [e] at this
      simp at this) (fun d hd => hone d ((hes d).1 hd)), hc]
    simp only
    rw [k1]
    simp only
    rw [p1]

/-- **C46** When `optimal_pure_policies` (0 ≤ rel_tol ≤ 1) returns `res`: in the reference situation, with `pols` the list
of all deterministic policies for the decisions and `u` the expected utility of their owner,
every best policy is returned; the returned policies are, in order, policies with utility close to a reference value
that is the utility of one of them and that no policy exceeds by more than the tolerance. -/
theorem C46_optimal_pure_policies {net : Net} (hU : net.Usable) (hnames : NamesOk net.g) {pick : Pick} {ord setOrd : List Node → List Node}
    (hord : ∀ l, (ord l).Perm l) (hset : ∀ l, (setOrd l).Perm l) {tol : Rat} (h0 : 0 ≤ tol) (h1 : tol ≤ 1) {ds : List Node} {a : Agent}
    (hne : ds ≠ []) (hone : ∀ d ∈ ds, net.m.role d = .decision a) {res : List (List Cpd)}
    (h : optimalPurePolicies pick ord setOrd tol net ds = .ok res) :
    ∃ base pols, base.Usable ∧ Reference net ds base ∧
      purePolicies (fun d => pureDecisionRules d (base.g.parents d) base.domain base.card) (setOrd ds.dedup) = .ok pols ∧
      (∀ pol ∈ pols, ∃ net', base.addPolicy pol = (net', .ok ()) ∧ net'.Usable ∧ OnlyRules base ds net') ∧
      (∀ pol, IsBest (fun p => (base.addPolicy p).1.EU a) pols pol → pol ∈ res) ∧
      res.Sublist pols ∧
      ∃ m, (∃ pol ∈ res, (base.addPolicy pol).1.EU a = m) ∧ (∀ pol ∈ res, Close tol ((base.addPolicy pol).1.EU a) m) ∧
        ∀ pol ∈ pols, (base.addPolicy pol).1.EU a ≤ m ∨ Close tol ((base.addPolicy pol).1.EU a) m := by
  obtain ⟨base, us, pols, k1, k2, k3, k4, _, k6⟩ := optimalPurePolicies_eq hU hnames pick ord hset tol hne hone
  have hn : (setOrd ds.dedup).Nodup := (hset ds.dedup).nodup_iff.2 (List.nodup_dedup ds)
  have hm : ∀ d, d ∈ setOrd ds.dedup ↔ d ∈ ds := fun d => ((hset ds.dedup).mem_iff).trans List.mem_dedup
  obtain ⟨pols', p1, p2, p3, p4⟩ := purePolicies_ok k1 hn (fun d hd => by
    have := hone d ((hm d).1 hd)
    rw [← k2.roles] at this
    exact k1.roles.nodes d (Or.inl (Dict.mem_keys.2 ⟨a, role_decision.1 this⟩)))
  rw [k4] at p1
  cases p1
  rw [k6] at h
  obtain ⟨e, _⟩ := policyLoop_ok hord k1 k3 pols k1 (.rfl' base (setOrd ds.dedup)) (Sess.refl k1.good k1.normalised us)
    (fun pol hp => ⟨(p4 pol hp).1, (p4 pol hp).2.1⟩) h
  subst e
  obtain ⟨m, hs⟩ := select_spec h0 h1 (u := base.polU a) p3
  refine ⟨base, pols, k1, k2, p2, ?_, fun pol hb => hs.all pol hb.1 hb.2, hs.sub, m, hs.ref, hs.near, hs.top⟩
  intro pol hp
  obtain ⟨net', q1, q2, q3, _⟩ := addPolicy_usable pol k1 (p4 pol hp).1
  refine ⟨net', q1, q2, q3.mono (fun w hw => ?_)⟩
  rw [(p4 pol hp).2.1] at hw
  exact (hm w).1 hw

/-- **C46** With tolerance 0 the result is exactly the list of the best policies in the order of enumeration. -/
theorem C46_exact {net : Net} (hU : net.Usable) (hnames : NamesOk net.g) {pick : Pick} {ord setOrd : List Node → List Node}
    (hord : ∀ l, (ord l).Perm l) (hset : ∀ l, (setOrd l).Perm l) {ds : List Node} {a : Agent}
    (hne : ds ≠ []) (hone : ∀ d ∈ ds, net.m.role d = .decision a) {res : List (List Cpd)}
    (h : optimalPurePolicies pick ord setOrd 0 net ds = .ok res) :
    ∃ base pols, base.Usable ∧ Reference net ds base ∧
      purePolicies (fun d => pureDecisionRules d (base.g.parents d) base.domain base.card) (setOrd ds.dedup) = .ok pols ∧
      res = pols.filter (fun p => pols.all (fun q => decide ((base.addPolicy q).1.EU a ≤ (base.addPolicy p).1.EU a))) := by
  obtain ⟨base, us, pols, k1, k2, k3, k4, _, k6⟩ := optimalPurePolicies_eq hU hnames pick ord hset 0 hne hone
  have hn : (setOrd ds.dedup).Nodup := (hset ds.dedup).nodup_iff.2 (List.nodup_dedup ds)
  have hm : ∀ d, d ∈ setOrd ds.dedup ↔ d ∈ ds := fun d => ((hset ds.dedup).mem_iff).trans List.mem_dedup
  have hdn : ∀ d ∈ setOrd ds.dedup, d ∈ base.g.nodes := fun d hd => by
    have := hone d ((hm d).1 hd)
    rw [← k2.roles] at this
    exact k1.roles.nodes d (Or.inl (Dict.mem_keys.2 ⟨a, role_decision.1 this⟩))
  obtain ⟨pols', p1, p2, p3, p4⟩ := purePolicies_ok k1 hn hdn
  rw [k4] at p1
  cases p1
  rw [k6] at h
  obtain ⟨e, _⟩ := policyLoop_ok hord k1 k3 pols k1 (.rfl' base (setOrd ds.dedup)) (Sess.refl k1.good k1.normalised us)
    (fun pol hp => ⟨(p4 pol hp).1, (p4 pol hp).2.1⟩) h
  have hnod : pols.Nodup := (C29_pure_policies p2).2.2 (fun d hd rs hrs => pureRules_nodup k1 (hdn d hd) hrs)
  rw [select_zero hnod] at e
  exact ⟨base, pols, k1, k2, p2, e⟩

/-- **C46** Deterministic policies suffice: no policy for the decisions, deterministic or not, has more utility than all
enumerated ones, so none is better than a returned one (up to the tolerance). -/
theorem C46_no_policy_better {net : Net} (hU : net.Usable) (hnames : NamesOk net.g) {pick : Pick} {ord setOrd : List Node → List Node}
    (hord : ∀ l, (ord l).Perm l) (hset : ∀ l, (setOrd l).Perm l) {tol : Rat} (h0 : 0 ≤ tol) (h1 : tol ≤ 1) {ds : List Node} {a : Agent}
    (hne : ds ≠ []) (hone : ∀ d ∈ ds, net.m.role d = .decision a) {res : List (List Cpd)}
    (h : optimalPurePolicies pick ord setOrd tol net ds = .ok res) :
    ∃ base, base.Usable ∧ Reference net ds base ∧ ∃ pol ∈ res, ∃ net', base.addPolicy pol = (net', .ok ()) ∧ net'.Usable ∧ OnlyRules base ds net' ∧
      ∀ net'' : Net, net''.Usable → OnlyRules base ds net'' → net''.EU a ≤ net'.EU a ∨
        ∃ v, net''.EU a ≤ v ∧ Close tol v (net'.EU a) := by
  obtain ⟨base, pols, q1, q2, q3, q4, q5, q6, m, ⟨pol, hp, hm⟩, q8, q9⟩ := C46_optimal_pure_policies hU hnames hord hset h0 h1 hne hone h
  obtain ⟨net', e1, e2, e3⟩ := q4 pol (q6.subset hp)
  refine ⟨base, q1, q2, pol, hp, net', e1, e2, e3, ?_⟩
  intro net'' hU'' hO''
  have hmm : ∀ d, d ∈ setOrd ds.dedup ↔ d ∈ ds := fun d => ((hset ds.dedup).mem_iff).trans List.mem_dedup
  have hrole : ∀ d ∈ setOrd ds.dedup, base.m.role d = .decision a := fun d hd => by
    rw [q2.roles]
    exact hone d ((hmm d).1 hd)
  have hn : (setOrd ds.dedup).Nodup := (hset ds.dedup).nodup_iff.2 (List.nodup_dedup ds)
  obtain ⟨pols', p1, p2, p3, p4⟩ := purePolicies_ok q1 hn (fun d hd =>
    q1.roles.nodes d (Or.inl (Dict.mem_keys.2 ⟨a, role_decision.1 (hrole d hd)⟩)))
  rw [q3] at p2
  cases p2
  obtain ⟨pol', hp', hle⟩ := enumerated_suffices q1 hn hrole p1 hU'' (hO''.mono (fun w hw => (hmm w).2 hw))
  unfold polU at hle
  rw [e1] at hm
  simp only at hm
  rw [hm]
  rcases q9 pol' hp' with h' | h'
  · exact Or.inl (le_trans hle h')
  · exact Or.inr ⟨_, hle, h'⟩

/-- **C46** no decisions, no policies; decisions of different agents: ValueError -/
theorem C46_no_decisions (net : Net) (pick : Pick) (ord setOrd : List Node → List Node) (tol : Rat) :
    optimalPurePolicies pick ord setOrd tol net [] = .ok [] := by
  simp [optimalPurePolicies]

theorem C46_different_agents {net : Net} (pick : Pick) (ord : List Node → List Node) {setOrd : List Node → List Node}
    (hset : ∀ l, (setOrd l).Perm l) (tol : Rat) {ds : List Node} (hds : ∀ d ∈ ds, d ∈ net.m.decisions) {d e : Node} (hd : d ∈ ds) (he : e ∈ ds)
    (hne : net.m.role d ≠ net.m.role e) : optimalPurePolicies pick ord setOrd tol net ds = .error .value := by
  have hm : ∀ d, d ∈ setOrd ds.dedup ↔ d ∈ ds := fun d => ((hset ds.dedup).mem_iff).trans List.mem_dedup
  unfold optimalPurePolicies
  rw [if_neg (List.ne_nil_of_mem hd)]
  simp only
  have hs : soleAgent net.m (setOrd ds.dedup) = .error .value := by
    unfold soleAgent
    obtain ⟨as, h1, _⟩ := Verif.mapPy_ok (f := fun d => net.m.decisionAgent.get d) (xs := setOrd ds.dedup)
      (fun d hd => by
        obtain ⟨x, hx⟩ := Dict.mem_keys.1 (hds d ((hm d).1 hd))
        exact ⟨x, Dict.get_ok.2 hx⟩)
    rw [h1]
    simp only
    obtain ⟨x, hx, ex⟩ := mapPy_mem h1 ((hm d).2 hd)
    obtain ⟨y, hy, ey⟩ := mapPy_mem h1 ((hm e).2 he)
    rw [Dict.get_ok] at ex ey
    have hxy : x ≠ y := by
      rintro rfl
      exact hne ((role_decision.2 ex).trans (role_decision.2 ey).symm)
    split
    · rename_i z hz
      exfalso
      have h1 : x ∈ [z] := hz ▸ List.mem_dedup.2 hx
      have h2 : y ∈ [z] := hz ▸ List.mem_dedup.2 hy
      rw [List.mem_singleton] at h1 h2
      exact hxy (h1.trans h2.symm)
    · rfl
  rw [hs]

end Verif

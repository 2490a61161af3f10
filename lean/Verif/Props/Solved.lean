import Verif.Lemmas.Twin
import Verif.Props.Policies

/-!
# C48: `impute_optimal_policy` without sufficient recall, and `solve`
-/

namespace Verif

open Graph Relation Macid Net

theorem Reference.equiv {net base : Net} {ds : List Node} (h : Reference net ds base)
    (hdec : ∀ d ∈ net.m.decisions, net.undecided d = false) : Equiv net base := by
  have hs : ∀ v ∈ net.g.nodes, base.undecided v = net.undecided v ∧ ∀ a, net.InDom a → base.kernel v a = net.kernel v a :=
    fun v hv => h.same v hv (fun ⟨h1, h2, _⟩ => by rw [hdec v h1] at h2; simp at h2)
  exact ⟨h.nodes, h.edges, h.domain, fun v hv => (hs v hv).1, fun v hv => (hs v hv).2⟩

theorem randomChoice_mem {α : Type} {rnd : Nat} {l : List α} {x : α} (h : randomChoice rnd l = .ok x) : x ∈ l := by
  cases l with
  | nil => simp [randomChoice] at h
  | cons y l =>
    simp only [randomChoice, Except.ok.injEq] at h
    subst h
    have hlt : rnd % (l.length + 1) < (y :: l).length := by
      simp only [List.length_cons]
      exact Nat.mod_lt _ (by omega)
    rw [List.getD_eq_getElem?_getD, List.getElem?_eq_getElem hlt, Option.getD_some]
    exact List.getElem_mem _

/-- **C48** One decision maker without sufficient recall: when `impute_optimal_policy` succeeds it changes nothing but
decision rules, whatever random choice is made, and the expected utility reached is, up to the relative tolerance of 1e-9
(twice), at least that of every policy, deterministic or not. -/
theorem C48_without_recall {net : Net} (hU : net.Usable) (hnames : NamesOk net.g) {a : Agent}
    (hone : ∀ d ∈ net.m.decisions, net.m.role d = .decision a) (hrec : ¬ net.m.NoRelianceCycle net.m.decisions)
    {pick : Pick} {tpick : List Node → Nat} {ord setOrd : List Node → List Node} {rnd : Nat}
    (hord : ∀ l, (ord l).Perm l) (hset : ∀ l, (setOrd l).Perm l) {net' : Net}
    (h : net.imputeOptimalPolicy pick tpick ord setOrd rnd = (net', .ok ())) :
    net'.Usable ∧ OnlyRules net net.m.decisions net' ∧
    ∃ m, Close (1 / 1000000000) (net'.EU a) m ∧
      ∀ net'' : Net, net''.Usable → OnlyRules net net.m.decisions net'' →
        net''.EU a ≤ m ∨ ∃ v, net''.EU a ≤ v ∧ Close (1 / 1000000000) v m := by
  obtain ⟨n1, h1, hU1, hO1, hmix⟩ := C49_fully_mixed hU
  obtain ⟨b, hb, hbi⟩ := recall_true hU hnames hone pick tpick
  have hbf : b = false := by
    cases b with
    | false => rfl
    | true => exact absurd (hbi.1 rfl) hrec
  subst hbf
  have hds : net.m.decisions ≠ [] := by
    intro e
    apply hrec
    rw [e]
    intro d hd
    obtain ⟨e, he, _⟩ := TransGen.head'_iff.1 hd
    simp at he
  unfold imputeOptimalPolicy at h
  rw [h1] at h
  simp only [hO1.m, hb] at h
  unfold optimalPolicies at h
  rw [hO1.m] at h
  cases hres : optimalPurePolicies pick ord setOrd (1 / 1000000000) n1 net.m.decisions with
  | error e => rw [hres] at h; simp at h
  | ok res =>
    rw [hres] at h
    simp only at h
    cases hch : randomChoice rnd res with
    | error e => rw [hch] at h; simp at h
    | ok pol =>
      rw [hch] at h
      simp only at h
      have hpol := randomChoice_mem hch
      obtain ⟨base, us, pols, k1, k2, _, k4, _, _⟩ := optimalPurePolicies_eq hU1 (by rw [hO1.g]; exact hnames) pick ord hset
        (1 / 1000000000) hds (by rw [hO1.m]; exact hone)
      obtain ⟨base, pols, q1, q2, q3, q4, q5, q6, m, q7, q8, q9⟩ := C46_optimal_pure_policies hU1 (by rw [hO1.g]; exact hnames) hord hset
        (by norm_num) (by norm_num) hds (by rw [hO1.m]; exact hone) hres
      have hmm : ∀ d, d ∈ setOrd net.m.decisions.dedup ↔ d ∈ net.m.decisions :=
        fun d => ((hset net.m.decisions.dedup).mem_iff).trans List.mem_dedup
      have hrole : ∀ d ∈ setOrd net.m.decisions.dedup, base.m.role d = .decision a := fun d hd => by
        rw [q2.roles, hO1.m]
        exact hone d ((hmm d).1 hd)
      have hn : (setOrd net.m.decisions.dedup).Nodup := (hset _).nodup_iff.2 (List.nodup_dedup _)
      obtain ⟨pols', p1, p2, p3, p4⟩ := purePolicies_ok q1 hn (fun d hd =>
        q1.roles.nodes d (Or.inl (Dict.mem_keys.2 ⟨a, role_decision.1 (hrole d hd)⟩)))
      rw [q3] at p2
      cases p2
      have hE : Equiv n1 base := Reference.equiv q2 (by rw [hO1.m]; exact fun d hd => (hmix d hd).1)
      have hokb := (p4 pol (q6.subset hpol)).1
      have hok1 := hokb.equiv hE.symm q1 hU1
      obtain ⟨n2, e1, e2, e3, _⟩ := addPolicy_usable pol hU1 hok1
      rw [h] at e1
      cases e1
      obtain ⟨b2, f1, f2, f3, _⟩ := addPolicy_usable pol q1 hokb
      have hO2 : OnlyRules net net.m.decisions net' := hO1.trans e3 (fun _ h => h) (fun w hw => by
        rw [(p4 pol (q6.subset hpol)).2.1] at hw
        exact (hmm w).1 hw)
      refine ⟨e2, hO2, m, ?_, ?_⟩
      · have hEE := hE.policy hU1 q1 hok1 h f1
        have := q8 pol hpol
        rw [f1] at this
        rw [← EU_equiv hEE e2.roles f2.roles (fun v => by rw [f3.m, e3.m]; exact q2.roles v) a]
        exact this
      · intro net'' hU'' hO''
        have hO1' : OnlyRules n1 net.m.decisions net'' :=
          ⟨by rw [hO''.m, hO1.m], by rw [hO''.base, hO1.base], by rw [hO''.domain, hO1.domain],
            fun w hw => by rw [hO''.cpds w hw, hO1.cpds w hw], fun w hw => by rw [hO''.rels w hw, hO1.rels w hw]⟩
        obtain ⟨t, t1, t2, t3⟩ := hE.twin q1 (fun d hd => by rw [hO1.g]; exact hU.roles.nodes d (Or.inl hd)) hU'' hO1'
        rw [← EU_equiv t3 hU''.roles t1.roles (fun v => by rw [t2.m, hO1'.m]; exact q2.roles v) a]
        obtain ⟨pol', hp', hle⟩ := enumerated_suffices q1 hn hrole p1 t1 (t2.mono (fun w hw => (hmm w).2 hw))
        rcases q9 pol' hp' with h' | h'
        · exact Or.inl (le_trans hle h')
        · exact Or.inr ⟨_, hle, h'⟩

/-- **C48** `solve` with sufficient recall: it returns one rule for every decision; these rules can be stored in the network,
which then is optimal: no joint policy, deterministic or not, has higher expected utility. -/
theorem C48_solve {net : Net} (hU : net.Usable) (hnames : NamesOk net.g) {a : Agent}
    (hone : ∀ d ∈ net.m.decisions, net.m.role d = .decision a) (hrec : net.m.NoRelianceCycle net.m.decisions)
    {pick : Pick} {tpick : List Node → Nat} {ord setOrd : List Node → List Node} {rnd : Nat}
    (hord : ∀ l, (ord l).Perm l) (hset : ∀ l, (setOrd l).Perm l) {sol : Dict Node (Option Cpd)}
    (h : net.solve pick tpick ord setOrd rnd = .ok sol) :
    ∃ (pol : List Cpd) (net' : Net), sol = pol.map (fun c => (c.var, some c)) ∧ (∀ d, d ∈ sol.keys ↔ d ∈ net.m.decisions) ∧
      net.addPolicy pol = (net', .ok ()) ∧ net'.Usable ∧ OnlyRules net net.m.decisions net' ∧
      (∀ d ∈ net.m.decisions, net'.undecided d = false ∧ ∃ φ, net'.Pure d φ) ∧
      ∀ net'' : Net, net''.Usable → OnlyRules net net.m.decisions net'' → net''.EU a ≤ net'.EU a := by
  obtain ⟨copy, hc, hUc, hE, hR, hB, _⟩ := hU.copy
  have hdecs : ∀ d, d ∈ copy.m.decisions ↔ d ∈ net.m.decisions := by
    intro d
    constructor
    · intro hd
      obtain ⟨x, hx⟩ := Dict.mem_keys.1 hd
      have := role_decision.2 hx
      rw [hR] at this
      exact Dict.mem_keys.2 ⟨x, role_decision.1 this⟩
    · intro hd
      obtain ⟨x, hx⟩ := Dict.mem_keys.1 hd
      have := role_decision.2 hx
      rw [← hR] at this
      exact Dict.mem_keys.2 ⟨x, role_decision.1 this⟩
  have hnc : NamesOk copy.g := by
    unfold NamesOk at *
    rw [hE.nodes]
    exact hnames
  have honec : ∀ d ∈ copy.m.decisions, copy.m.role d = .decision a := fun d hd => by
    rw [hR]; exact hone d ((hdecs d).1 hd)
  have hrecc : copy.m.NoRelianceCycle copy.m.decisions := by
    intro d hd
    refine hrec d (TransGen.mono (fun x y hxy => ⟨(hdecs x).1 hxy.1, (hdecs y).1 hxy.2.1, hxy.2.2.1, ?_⟩) _ _ hd)
    exact (rreach_congr hR (fun v => by rw [show copy.m.g.nodes = net.m.g.nodes from hE.nodes]) hE.edges x y).1 hxy.2.2.2
  unfold solve at h
  rw [hc] at h
  simp only at h
  generalize hx : copy.imputeOptimalPolicy pick tpick ord setOrd rnd = x at h
  obtain ⟨new, r⟩ := x
  cases r with
  | error e => simp at h
  | ok u =>
    simp only at h
    obtain ⟨k1, k2, k3, k4⟩ := C48_impute_optimal_policy hUc hnc honec hrecc hord hset hx
    have hnodup : copy.m.decisions.Nodup := hUc.roles.dec.nodeKeys
    have hdn : ∀ d ∈ copy.m.decisions, d ∈ new.g.nodes := fun d hd => by
      rw [k2.g]; exact hUc.roles.nodes d (Or.inl hd)
    obtain ⟨p1, p2, p3⟩ := rulesOf_ok k1 hnodup hdn
    have hsol : sol = (new.rulesOf copy.m.decisions).map (fun c => (c.var, some c)) := by
      rw [k2.m] at h
      clear k2 hrecc k3 k4 hnodup p1 p2 p3 honec hx
      generalize copy.m.decisions = ds at *
      clear hdecs
      induction ds generalizing sol with
      | nil => simp [mapPy] at h; subst h; rfl
      | cons d ds ih =>
        obtain ⟨c, hc, _⟩ := k1.good.complete d (hdn d (by simp))
        have hv := (k1.good.fits d c hc).var
        have hgd : new.getCpd d = .ok (some c) := by simp [getCpd, hdn d (by simp), hc]
        simp only [mapPy, hgd] at h
        split at h
        · simp at h
        · rename_i ys hys
          simp only [Except.ok.injEq] at h
          subst h
          unfold rulesOf
          rw [List.filterMap_cons, hc]
          simp only [List.map_cons, hv, List.cons.injEq, true_and]
          exact ih hys (fun e he => hdn e (by simp [he]))
    have hEn : Equiv copy copy := ⟨rfl, fun _ _ => Iff.rfl, fun _ _ => rfl, fun _ _ => rfl, fun _ _ _ _ => rfl⟩
    have hokc : PolicyOk copy (new.rulesOf copy.m.decisions) := p1.only (ds := copy.m.decisions)
      ⟨k2.m.symm, k2.base.symm, k2.domain.symm, fun w hw => (k2.cpds w hw).symm, fun w hw => (k2.rels w hw).symm⟩
    have hok := hokc.equiv hE.symm hUc hU
    obtain ⟨net', e1, e2, e3, e4⟩ := addPolicy_usable _ hU hok
    obtain ⟨c', f1, f2, f3, f4⟩ := addPolicy_usable _ hUc hokc
    have hEc : Equiv new c' := by
      rw [p2] at f3
      have hcp : ∀ w, c'.cpds.get? w = new.cpds.get? w := by
        intro w
        by_cases hw : w ∈ copy.m.decisions
        · rw [← p2] at hw
          obtain ⟨k, hk, rfl⟩ := List.mem_map.1 hw
          rw [f4 k hk, p3 k hk]
        · rw [f3.cpds w hw, k2.cpds w hw]
      refine ⟨by rw [f3.g, k2.g], by rw [f3.g, k2.g]; exact fun _ _ => Iff.rfl, by rw [f3.domain, k2.domain]; exact fun _ _ => rfl, ?_, ?_⟩
      · intro v _
        unfold Net.undecided
        rw [hcp v]
      · intro v _ b _
        unfold Net.kernel
        rw [hcp v, f3.domain, k2.domain]
    have hEE := hE.policy hU hUc hok e1 f1
    rw [p2] at e3 f3
    have hEU : net'.EU a = new.EU a := by
      rw [← EU_equiv hEc k1.roles f2.roles (fun v => by rw [f3.m, k2.m]) a,
        ← EU_equiv hEE e2.roles f2.roles (fun v => by rw [f3.m, e3.m]; exact hR v) a]
    refine ⟨new.rulesOf copy.m.decisions, net', hsol, ?_, e1, e2, e3.mono (fun w hw => (hdecs w).1 hw), ?_, ?_⟩
    · intro d
      rw [← hdecs, ← p2, hsol]
      simp [Dict.keys]
    · intro d hd
      obtain ⟨q1, φ, q2⟩ := k3 d ((hdecs d).2 hd)
      have hdN : d ∈ net.g.nodes := hU.roles.nodes d (Or.inl hd)
      have hdc : d ∈ new.g.nodes := by rw [k2.g, hE.nodes]; exact hdN
      constructor
      · rw [← hEE.undecided d (by rw [e3.g]; exact hdN), hEc.undecided d hdc]
        exact q1
      · -- the parents may be listed in another order
        refine ⟨fun vals => φ ((copy.g.parents d).map (fun p => (pvOf (net.g.parents d) vals p).getD 0)), ?_⟩
        intro b hb
        have hb0 : net.InDom b := (e3.inDom b).1 hb
        have hbc : copy.InDom b := (hE.inDom b).2 hb0
        have hbn : new.InDom b := (k2.inDom b).2 hbc
        rw [← hEE.kernel d (by rw [e3.g]; exact hdN) b hb, hEc.kernel d hdc b hbn, q2 b hbn, k2.g, e3.g]
        have : (copy.g.parents d).map b = (copy.g.parents d).map (fun p => (pvOf (net.g.parents d) ((net.g.parents d).map b) p).getD 0) := by
          apply List.map_congr_left
          intro p hp
          have hp' : p ∈ net.g.parents d := Graph.mem_parents.2 ((hE.edges p d).1 (Graph.mem_parents.1 hp))
          simp [pvOf_map, restrict, hp']
        rw [this]
    · intro net'' hU'' hO''
      obtain ⟨t, t1, t2, t3⟩ := hE.twin hUc (fun d hd => hU.roles.nodes d (Or.inl hd)) hU'' hO''
      rw [← EU_equiv t3 hU''.roles t1.roles (fun v => by rw [t2.m, hO''.m]; exact hR v) a, hEU]
      exact k4 t t1 (t2.mono (fun w hw => (hdecs w).2 hw))

/-- the hypotheses are met by the two-stage example -/
theorem C48_solve_example : ∃ sol, Ex2.net.solve (fun _ => 0) (fun _ => 0) id id 0 = .ok sol ∧
    sol.keys = ["D1", "D2"] := by
  have h : (match Ex2.net.solve (fun _ => 0) (fun _ => 0) id id 0 with | .ok sol => some sol.keys | .error _ => none) = some ["D1", "D2"] := by
    decide +kernel
  cases hs : Ex2.net.solve (fun _ => 0) (fun _ => 0) id id 0 with
  | error e => rw [hs] at h; simp at h
  | ok sol => rw [hs] at h; exact ⟨sol, rfl, by simpa using h⟩

/-! ### Two decisions that do not see each other -/

namespace Ex3

/-- the utility is 1 if the decisions agree -/
def m : Macid := ⟨⟨["D1", "U", "D2"], [("D1", "U"), ("D2", "U")]⟩, [(0, ["D1", "D2"])], [(0, ["U"])],
    [("D1", 0), ("D2", 0)], [("U", 0)]⟩

def rels : List (Node × Rel) :=
  [("D1", .seq [0, 1]), ("D2", .seq [0, 1]), ("U", .func (fun pv => .ok (.val (if pv "D1" = pv "D2" then 1 else 0))))]

def net : Net := ((Net.mk m [] [] [] Macid.new).addCpds rels).1

theorem usable : net.Usable ∧ net.m = m :=
  usable_of_build (edges := [("D1", "U"), ("D2", "U")])
    (ad := [(0, ["D1", "D2"])]) (au := [(0, ["U"])]) (rels := rels) (by decide +kernel)
    (by rw [← show ((Net.mk m [] [] [] Macid.new).addCpds rels).2 = .ok () by decide +kernel]; rfl)
    (by
      intro p hp
      simp only [rels, List.mem_cons, List.not_mem_nil, or_false] at hp
      rcases hp with rfl | rfl | rfl
      · trivial
      · trivial
      · intro pv; simp)
    (by decide +kernel)

theorem names : NamesOk net.g := ⟨by decide +kernel, by decide +kernel⟩

theorem recall : Macid.sufficientRecall (fun _ => 0) (fun _ => 0) m none = .ok false := by decide +kernel

end Ex3

/-- The hypotheses of `C48_without_recall` are met; for both random choices the policy is worth 1, mixed rules 1/2. -/
theorem C48_without_recall_example :
    Ex3.net.Usable ∧ NamesOk Ex3.net.g ∧ (∀ d ∈ Ex3.net.m.decisions, Ex3.net.m.role d = .decision 0) ∧
    ¬ Ex3.net.m.NoRelianceCycle Ex3.net.m.decisions ∧
    (Ex3.net.imputeOptimalPolicy (fun _ => 0) (fun _ => 0) id id 0).2 = .ok () ∧
    (Ex3.net.imputeOptimalPolicy (fun _ => 0) (fun _ => 0) id id 0).1.EU 0 = 1 ∧
    (Ex3.net.imputeOptimalPolicy (fun _ => 0) (fun _ => 0) id id 1).1.EU 0 = 1 ∧ Ex3.net.imputeMixed.1.EU 0 = 1 / 2 := by
  have hone : ∀ d ∈ Ex3.net.m.decisions, Ex3.net.m.role d = .decision 0 := by
    rw [Ex3.usable.2]
    decide +kernel
  refine ⟨Ex3.usable.1, Ex3.names, hone, ?_, by decide +kernel, by decide +kernel, by decide +kernel, by decide +kernel⟩
  obtain ⟨b, h1, h2⟩ := recall_true Ex3.usable.1 Ex3.names hone (fun _ => 0) (fun _ => 0)
  rw [Ex3.usable.2, Ex3.recall] at h1
  cases h1
  exact fun hn => by simpa using h2.2 hn

/-- **C46** example: of the four joint policies the two in which the decisions agree are returned -/
theorem C46_example : (match optimalPurePolicies (fun _ => 0) id id 0 Ex3.net ["D1", "D2"] with
    | .ok l => some (l.map (fun p => p.map (fun c => c.table)))
    | .error _ => none) = some [[[[1, 0]], [[1, 0]]], [[[0, 1]], [[0, 1]]]] := by
  decide +kernel

end Verif

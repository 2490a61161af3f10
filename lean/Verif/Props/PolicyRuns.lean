import Verif.Lemmas.PolicyRuns
import Verif.Props.Solved

/-!
# C46: when `optimal_pure_policies` succeeds and when it does not
-/

namespace Verif

open Graph Relation Macid Net

/-- **C46** It succeeds, and returns at least one policy, if the utilities of the agent and all decisions are in one component
of the diagram and every decision without rule, other than those asked for, is one that none of those relies on. -/
theorem C46_succeeds {net : Net} (hU : net.Usable) (hnames : NamesOk net.g) (pick : Pick) {ord setOrd : List Node → List Node}
    (hord : ∀ l, (ord l).Perm l) (hset : ∀ l, (setOrd l).Perm l) {tol : Rat} (h0 : 0 ≤ tol) {ds : List Node} {a : Agent}
    (hne : ds ≠ []) (hone : ∀ d ∈ ds, net.m.role d = .decision a)
    (hutil : ∃ u, net.m.role u = .utility a)
    (hconn : ∀ u v, net.m.role u = .utility a → (net.m.role v = .utility a ∨ v ∈ net.m.decisions) → net.g.Connected u v)
    (hrule : ∀ e ∈ net.m.decisions, e ∉ ds → (∃ d ∈ ds, net.m.RReach d e) → net.undecided e = false) :
    ∃ res, optimalPurePolicies pick ord setOrd tol net ds = .ok res ∧ (tol ≤ 1 → res ≠ []) := by
  obtain ⟨base, us, pols, k1, k2, k3, k4, _, k6⟩ := optimalPurePolicies_eq hU hnames pick ord hset tol hne hone
  have hn : (setOrd ds.dedup).Nodup := (hset ds.dedup).nodup_iff.2 (List.nodup_dedup ds)
  have hm : ∀ d, d ∈ setOrd ds.dedup ↔ d ∈ ds := fun d => ((hset ds.dedup).mem_iff).trans List.mem_dedup
  have hdec : ∀ d, d ∈ base.m.decisions ↔ d ∈ net.m.decisions := by
    intro d
    constructor
    · intro hd
      obtain ⟨x, hx⟩ := Dict.mem_keys.1 hd
      have := role_decision.2 hx
      rw [k2.roles] at this
      exact Dict.mem_keys.2 ⟨x, role_decision.1 this⟩
    · intro hd
      obtain ⟨x, hx⟩ := Dict.mem_keys.1 hd
      have := role_decision.2 hx
      rw [← k2.roles] at this
      exact Dict.mem_keys.2 ⟨x, role_decision.1 this⟩
  have hdsd : ∀ d ∈ ds, d ∈ net.m.decisions := fun d hd => Dict.mem_keys.2 ⟨a, role_decision.1 (hone d hd)⟩
  obtain ⟨pols', p1, p2, p3, p4⟩ := purePolicies_ok k1 hn (fun d hd =>
    k1.roles.nodes d (Or.inl ((hdec d).2 (hdsd d ((hm d).1 hd)))))
  rw [k4] at p1
  cases p1
  have hadj : ∀ u v, base.g.Adj u v ↔ net.g.Adj u v := fun u v => by
    unfold Graph.Adj
    rw [k2.edges, k2.edges]
  have hco : ∀ u v, base.g.Connected u v ↔ net.g.Connected u v := fun u v =>
    ⟨ReflTransGen.mono (fun x y h => (hadj x y).1 h) _ _, ReflTransGen.mono (fun x y h => (hadj x y).2 h) _ _⟩
  have hmemu : ∀ u, u ∈ us ↔ net.m.role u = .utility a := by
    intro u
    rw [← k2.roles, role_utility k1.roles, k1.roles.util.iff]
    simp [k3]
  have husn : us ≠ [] := by
    obtain ⟨u, hu⟩ := hutil
    exact List.ne_nil_of_mem ((hmemu u).2 hu)
  have hnb : NamesOk base.g := by
    unfold NamesOk at *
    rw [k2.nodes]
    exact hnames
  obtain ⟨res, hr⟩ := policyLoop_runs (pick := pick) hord h0 (agent := a) hnb k3 husn
    (fun v hv => k1.roles.nodes v (Or.inr (Dict.mem_keys.2 ⟨a, by
      rw [← role_utility k1.roles, k2.roles]; exact (hmemu v).1 hv⟩)))
    (fun u hu v hv => (hco u v).2 (hconn u v ((hmemu u).1 hu) (Or.inl ((hmemu v).1 hv))))
    (ds := setOrd ds.dedup) (by
      intro d hd
      refine ⟨?_, ?_⟩
      · obtain ⟨u, hu⟩ := hutil
        exact (mem_keepOf k1.good.wf).2 ⟨u, (hmemu u).2 hu, (hco u d).2 (hconn u d hu (Or.inr ((hdec d).1 hd)))⟩
      · intro hdn
        rw [hm] at hdn
        have hd' := (hdec d).1 hd
        by_cases hund : net.undecided d = true
        · by_cases hrr : ∃ e ∈ ds, net.m.RReach e d
          · rw [hrule d hd' hdn hrr] at hund
            simp at hund
          · push Not at hrr
            exact (k2.mixed d hd' hund hdn hrr).1
        · rw [(k2.same d (hU.roles.nodes d (Or.inl hd')) (fun h => hund h.2.1)).1]
          simpa using hund)
    (fun d hd => (hdec d).2 (hdsd d ((hm d).1 hd))) pols (top := none) (best := []) k1 (.rfl' base (setOrd ds.dedup))
    (Sess.refl k1.good k1.normalised us) p4
  refine ⟨res, by rw [k6, hr], fun h1 => ?_⟩
  obtain ⟨e, _⟩ := policyLoop_ok hord k1 k3 pols k1 (.rfl' base (setOrd ds.dedup)) (Sess.refl k1.good k1.normalised us)
    (fun pol hp => ⟨(p4 pol hp).1, (p4 pol hp).2.1⟩) hr
  subst e
  obtain ⟨m, hs⟩ := select_spec h0 h1 (u := base.polU a) p3
  obtain ⟨p, hp, _⟩ := hs.ref
  exact List.ne_nil_of_mem hp

/-- the hypotheses of `C46_succeeds` hold in the example with two decisions that do not see each other -/
example : ∃ res, optimalPurePolicies (fun _ => 0) id id 0 Ex3.net ["D1", "D2"] = .ok res := by
  have hone : ∀ d ∈ ["D1", "D2"], Ex3.net.m.role d = .decision 0 := by decide +kernel
  have hcon : ∀ v ∈ ["D1", "U", "D2"], Ex3.net.g.Connected "U" v := by
    intro v hv
    simp only [List.mem_cons, List.not_mem_nil, or_false] at hv
    rcases hv with rfl | rfl | rfl
    · exact .single (Or.inr (by decide +kernel))
    · exact .refl
    · exact .single (Or.inr (by decide +kernel))
  have hro : ∀ v, Ex3.net.m.role v = .utility 0 → v = "U" := by
    intro v hv
    rw [role_utility Ex3.usable.1.roles, Ex3.usable.2] at hv
    have := Dict.mem_of_get? hv
    simpa [Ex3.m] using this
  obtain ⟨res, h, _⟩ := C46_succeeds Ex3.usable.1 Ex3.names (fun _ => 0) (ord := id) (setOrd := id) (fun l => .refl _) (fun l => .refl _) (le_refl 0)
    (ds := ["D1", "D2"]) (a := 0) (by simp) hone ⟨"U", by decide +kernel⟩ (by
      rintro u v hu hv
      rw [hro u hu]
      refine hcon v ?_
      rcases hv with hv | hv
      · rw [hro v hv]; simp
      · rw [Ex3.usable.2] at hv
        have : v ∈ ["D1", "D2"] := hv
        simp only [List.mem_cons, List.not_mem_nil, or_false] at this ⊢
        tauto) (by
      intro e he hen
      rw [Ex3.usable.2] at he
      exact absurd he hen)
  exact ⟨res, h⟩

/-- **C46** a negative tolerance is never accepted -/
theorem C46_negative_tolerance {net : Net} (hU : net.Usable) (hnames : NamesOk net.g) {pick : Pick} {ord setOrd : List Node → List Node}
    (hord : ∀ l, (ord l).Perm l) (hset : ∀ l, (setOrd l).Perm l) {tol : Rat} (h0 : tol < 0) {ds : List Node} {a : Agent}
    (hne : ds ≠ []) (hone : ∀ d ∈ ds, net.m.role d = .decision a) (res : List (List Cpd)) :
    optimalPurePolicies pick ord setOrd tol net ds ≠ .ok res := by
  intro h
  obtain ⟨base, us, pols, k1, k2, k3, k4, _, k6⟩ := optimalPurePolicies_eq hU hnames pick ord hset tol hne hone
  have hn : (setOrd ds.dedup).Nodup := (hset ds.dedup).nodup_iff.2 (List.nodup_dedup ds)
  have hm : ∀ d, d ∈ setOrd ds.dedup ↔ d ∈ ds := fun d => ((hset ds.dedup).mem_iff).trans List.mem_dedup
  obtain ⟨pols', p1, p2, p3, p4⟩ := purePolicies_ok k1 hn (fun d hd => by
    have := hone d ((hm d).1 hd)
    rw [← k2.roles] at this
    exact k1.roles.nodes d (Or.inl (Dict.mem_keys.2 ⟨a, role_decision.1 this⟩)))
  rw [k4] at p1
  cases p1
  rw [k6] at h
  obtain ⟨_, h2⟩ := policyLoop_ok hord k1 k3 pols k1 (.rfl' base (setOrd ds.dedup)) (Sess.refl k1.good k1.normalised us)
    (fun pol hp => ⟨(p4 pol hp).1, (p4 pol hp).2.1⟩) h
  exact absurd (h2 p3) (not_le.2 h0)

/-! ### Tolerances above 1 -/

namespace Ex4

/-- one decision with outcomes 0, 1, 2 worth -5, 10 and 4 -/
def m : Macid := ⟨⟨["D", "U"], [("D", "U")]⟩, [(0, ["D"])], [(0, ["U"])], [("D", 0)], [("U", 0)]⟩

def rels : List (Node × Rel) :=
  [("D", .seq [0, 1, 2]), ("U", .func (fun pv => .ok (.val (if pv "D" = some 0 then -5 else if pv "D" = some 1 then 10 else 4))))]

def net : Net := ((Net.mk m [] [] [] Macid.new).addCpds rels).1

theorem usable : net.Usable ∧ net.m = m :=
  usable_of_build (edges := [("D", "U")])
    (ad := [(0, ["D"])]) (au := [(0, ["U"])]) (rels := rels) (by decide +kernel)
    (by rw [← show ((Net.mk m [] [] [] Macid.new).addCpds rels).2 = .ok () by decide +kernel]; rfl)
    (by
      intro p hp
      simp only [rels, List.mem_cons, List.not_mem_nil, or_false] at hp
      rcases hp with rfl | rfl
      · trivial
      · intro pv; simp)
    (by decide +kernel)

end Ex4

/-- **C46** The bound on the tolerance is needed: with rel_tol = 3/2 the best action, 1, is lost and only action 2 is returned. -/
theorem C46_large_tolerance : Ex4.net.Usable ∧
    (match optimalPurePolicies (fun _ => 0) id id (3 / 2) Ex4.net ["D"] with
      | .ok l => some (l.map (fun p => p.map (fun c => c.table)))
      | .error _ => none) = some [[[[0, 0, 1]]]] ∧
    (match optimalPurePolicies (fun _ => 0) id id (1 / 1000000000) Ex4.net ["D"] with
      | .ok l => some (l.map (fun p => p.map (fun c => c.table)))
      | .error _ => none) = some [[[[0, 1, 0]]]] := by
  refine ⟨Ex4.usable.1, by decide +kernel, by decide +kernel⟩

/-! ### A decision in another component -/

namespace Ex5

/-- D → U and, apart from it, E → V of another agent -/
def m : Macid := ⟨⟨["D", "U", "E", "V"], [("D", "U"), ("E", "V")]⟩, [(0, ["D"]), (1, ["E"])], [(0, ["U"]), (1, ["V"])],
  [("D", 0), ("E", 1)], [("U", 0), ("V", 1)]⟩

def rels : List (Node × Rel) :=
  [("D", .seq [0, 1]), ("E", .seq [0, 1]), ("U", .func (fun pv => .ok (.val ((pv "D").getD 0)))),
    ("V", .func (fun pv => .ok (.val ((pv "E").getD 0))))]

def net : Net := ((Net.mk m [] [] [] Macid.new).addCpds rels).1

theorem usable : net.Usable ∧ net.m = m :=
  usable_of_build (edges := [("D", "U"), ("E", "V")])
    (ad := [(0, ["D"]), (1, ["E"])]) (au := [(0, ["U"]), (1, ["V"])]) (rels := rels) (by decide +kernel)
    (by rw [← show ((Net.mk m [] [] [] Macid.new).addCpds rels).2 = .ok () by decide +kernel]; rfl)
    (by
      intro p hp
      simp only [rels, List.mem_cons, List.not_mem_nil, or_false] at hp
      rcases hp with rfl | rfl | rfl | rfl
      · trivial
      · trivial
      · intro pv; simp
      · intro pv; simp)
    (by decide +kernel)

end Ex5

/-- **C46** The decisions must be in one component: the first query removes the other component from the working copy but not
its decision from the list of decisions, and the second query fails. -/
theorem C46_other_component : Ex5.net.Usable ∧
    raises (optimalPurePolicies (fun _ => 0) id id 0 Ex5.net ["D"]) .nx = true := by
  refine ⟨Ex5.usable.1, by decide +kernel⟩

end Verif

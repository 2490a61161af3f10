import Verif.Props.Query

/-!
# Networks built by the constructor and `add_cpds` are usable

Used to show that the hypotheses of the theorems are met by concrete networks.
-/

namespace Verif

open Graph Relation Macid Net

/-- what remains to be checked, by computation -/
def buildCheck (ad au : Dict Agent (List Node)) (m : Macid) (rels : List (Node × Rel)) (net : Net) : Bool :=
  decide (ad.keys.Nodup) && decide (au.keys.Nodup) && decide ((ad.flatMap (·.2) ++ au.flatMap (·.2)).Nodup) &&
  (ad.flatMap (·.2) ++ au.flatMap (·.2)).all (fun n => decide (n ∈ m.g.nodes)) &&
  m.g.nodes.all (fun n => decide (n ∈ rels.map (·.1))) &&
  decide ((rels.map (·.1)).Nodup) &&
  rels.all (fun r => match r.2 with | .tab _ => false | _ => true) &&
  m.g.nodes.all (fun v => ((net.cpds.get? v).map Cpd.table).all (fun t => t.all (fun col =>
        col.all (fun y => decide (0 ≤ y)) && decide (col.sum = 1)))) &&
  m.agentUtilities.keys.all (fun a => decide (a ∈ m.agentDecisions.keys)) &&
  m.agentDecisions.keys.all (fun a => decide (a ∈ m.agentUtilities.keys)) &&
  m.agentUtilities.keys.all (fun a => m.g.nodes.any (fun n => decide (m.role n = .decision a)) &&
    m.g.nodes.any (fun n => decide (m.role n = .utility a)))

theorem runs_m {net net' : Net} {ops : List Op} (h : Runs net ops net') : net'.m = net.m ∧ net'.base = net.base := by
  induction h with
  | nil => exact ⟨rfl, rfl⟩
  | @cons net net1 net2 op ops h1 _ ih =>
    have : net1.m = net.m ∧ net1.base = net.base := by
      cases op with
      | set v r =>
        have e1 : net.set v r = (net1, .ok ()) := h1
        have := net.set_m v r
        rw [e1] at this
        exact this
      | del v =>
        simp only [run, del] at h1
        split at h1
        · simp only [Prod.mk.injEq, and_true] at h1
          subst h1
          exact ⟨rfl, rfl⟩
        · simp at h1
    exact ⟨ih.1.trans this.1, ih.2.trans this.2⟩

theorem usable_of_build {edges : List (Node × Node)} {ad au : Dict Agent (List Node)} {m : Macid} {rels : List (Node × Rel)} {net : Net}
    (hi : Macid.init edges ad au = .ok m)
    (ha : (Net.mk m [] [] [] Macid.new).addCpds rels = (net, .ok ()))
    (hh : ∀ p ∈ rels, Honest p.2) (hc : buildCheck ad au m rels net = true) :
    net.Usable ∧ net.m = m := by
  unfold buildCheck at hc
  simp only [Bool.and_eq_true, decide_eq_true_eq, List.all_eq_true, List.any_eq_true] at hc
  obtain ⟨⟨⟨⟨⟨⟨⟨⟨⟨⟨c1, c2⟩, c3⟩, c4⟩, c5⟩, c6⟩, c7⟩, c8⟩, c9⟩, c10⟩, c11⟩ := hc
  have hcons := C15_constructor_consistent edges ad au m hi c1 c2 c3 c4
  have hruns := addCpds_runs ha
  have hm : net.m = m := (runs_m hruns).1
  have hb : net.base = Macid.new := (runs_m hruns).2
  have hG : net.Good := by
    refine good_of_runs (net := ⟨m, [], [], [], Macid.new⟩) hcons.wf ⟨rfl, rfl, rfl⟩ ?_ hruns ?_ ?_
    · intro op ho
      obtain ⟨p, hp, rfl⟩ := List.mem_map.1 ho
      exact hh p hp
    · intro v hv
      obtain ⟨p, hp, rfl⟩ := List.mem_map.1 (c5 v hv)
      rw [Dict.mem_keys]
      cases hg : Dict.get? rels p.1 with
      | none => exact absurd (List.mem_map.2 ⟨p, hp, rfl⟩) (fun h => by
          obtain ⟨x, hx⟩ := Dict.mem_keys.1 (show p.1 ∈ Dict.keys rels from h)
          rw [hg] at hx; cases hx)
      | some r => exact ⟨r, by rw [addCpds_rels c6 ha, hg]⟩
    · intro v c h
      exfalso
      rw [addCpds_rels c6 ha v] at h
      cases hg : Dict.get? rels v with
      | none => rw [hg] at h; simp [Dict.get?] at h
      | some r =>
        rw [hg] at h
        simp only [Option.some.injEq] at h
        subst h
        have := c7 _ (Dict.mem_of_get? hg)
        simp at this
  refine ⟨⟨hG, ?_, hm ▸ hcons, Or.inl hb, ⟨?_, ?_⟩⟩, hm⟩
  · apply normalised_of_tables hG
    intro v c hcv
    have hv := cpds_node hG hcv
    have := c8 v (by rw [← hm]; exact hv)
    rw [hcv] at this
    simp only [Option.map_some, Option.all_some, List.all_eq_true, Bool.and_eq_true, decide_eq_true_eq] at this
    exact this
  · rw [hm]
    exact fun a => ⟨c9 a, c10 a⟩
  · rw [hm]
    intro a haa
    obtain ⟨⟨x, _, hx⟩, y, _, hy⟩ := c11 a haa
    exact Or.inl ⟨⟨x, hx⟩, y, hy⟩

end Verif

import Verif.Lemmas.Do

/-!
# Showing that concrete networks are usable
-/

namespace Verif
namespace Net

/-- executable part of the check -/
def exactTables (net : Net) : Bool :=
  net.g.nodes.all (fun v => ((net.cpds.get? v).map Cpd.table).all (fun t => t.all (fun col =>
    col.all (fun y => decide (0 ≤ y)) && decide (col.sum = 1))))

theorem normalised_of_exact {net : Net} (hG : Good net) (h : net.exactTables = true) : net.Normalised := by
  apply normalised_of_tables hG
  intro v c hc
  unfold exactTables at h
  have := List.all_eq_true.1 h v (cpds_node hG hc)
  rw [hc] at this
  simp only [Option.map_some, Option.all_some, List.all_eq_true, Bool.and_eq_true, decide_eq_true_eq] at this
  exact this

/-- every agent owns a decision and a utility -/
def staffedB (m : Macid) : Bool :=
  decide (m.agentUtilities.keys = m.agentDecisions.keys) &&
  m.agentUtilities.keys.all (fun a => m.decisions.any (fun n => decide (m.role n = .decision a)) &&
    m.utilities.any (fun n => decide (m.role n = .utility a)))

theorem staffed_of {net : Net} (h : staffedB net.m = true) : net.Staffed := by
  unfold staffedB at h
  simp only [Bool.and_eq_true, decide_eq_true_eq, List.all_eq_true, List.any_eq_true] at h
  refine ⟨fun a => by rw [h.1], fun a ha => Or.inl ?_⟩
  obtain ⟨⟨n, _, hn⟩, ⟨k, _, hk⟩⟩ := h.2 a ha
  exact ⟨⟨n, hn⟩, ⟨k, hk⟩⟩

/-- the result of adding relationships -/
def build (m : Macid) (base : Macid) (rels : List (Node × Rel)) : Net :=
  ((⟨m, [], [], [], base⟩ : Net).addCpds rels).1

theorem usable_build {m base : Macid} {rels : List (Node × Rel)} (hm : m.Consistent)
    (hb : base = Macid.new ∨ base = Macid.newCid)
    (he : ((⟨m, [], [], [], base⟩ : Net).addCpds rels).2 = .ok ()) (hk : (rels.map (·.1)).Nodup)
    (hh : ∀ p ∈ rels, Honest p.2) (ht : ∀ p ∈ rels, p.2.isTab = false)
    (hall : ∀ v ∈ m.g.nodes, v ∈ (build m base rels).rels.keys) (hx : (build m base rels).exactTables = true)
    (hs : staffedB m = true) : (build m base rels).Usable ∧ (build m base rels).m = m ∧ (build m base rels).base = base := by
  have he' : (⟨m, [], [], [], base⟩ : Net).addCpds rels = (build m base rels, .ok ()) := by
    unfold build
    rw [← he]
  have hruns := addCpds_runs he'
  have hmb : (build m base rels).m = m ∧ (build m base rels).base = base := by
    have : ∀ {l : List (Node × Rel)} {n n' : Net}, n.addCpds l = (n', .ok ()) → n'.m = n.m ∧ n'.base = n.base := by
      intro l
      induction l with
      | nil =>
        intro n n' h
        simp only [addCpds, Prod.mk.injEq, and_true] at h
        subst h
        exact ⟨rfl, rfl⟩
      | cons p l ih =>
        intro n n' h
        obtain ⟨v, r⟩ := p
        unfold addCpds at h
        have hm := n.set_m v r
        generalize n.set v r = x at h hm
        obtain ⟨n1, y⟩ := x
        cases y with
        | error e => simp at h
        | ok u =>
          obtain ⟨i1, i2⟩ := ih h
          exact ⟨i1.trans hm.1, i2.trans hm.2⟩
    exact this he'
  have hG : (build m base rels).Good := by
    refine good_of_runs (net := ⟨m, [], [], [], base⟩) hm.wf ⟨rfl, rfl, rfl⟩ ?_ hruns hall ?_
    · intro op ho
      obtain ⟨p, hp, rfl⟩ := List.mem_map.1 ho
      exact hh p hp
    · intro v c h
      exfalso
      rw [addCpds_rels hk he' v] at h
      cases hg : Dict.get? rels v with
      | none => rw [hg] at h; simp [Dict.get?] at h
      | some r =>
        rw [hg] at h
        simp only [Option.some.injEq] at h
        subst h
        have := ht _ (Dict.mem_of_get? hg)
        simp [Rel.isTab] at this
  exact ⟨⟨hG, normalised_of_exact hG hx, by rw [hmb.1]; exact hm, by rw [hmb.2]; exact hb, staffed_of (by rw [hmb.1]; exact hs)⟩, hmb⟩

theorem kernel_congr_cpd {net net' : Net} {v : Node}
    (h : (net'.cpds.get? v).map (fun c => (c.table, c.domain, c.evidence)) =
      (net.cpds.get? v).map (fun c => (c.table, c.domain, c.evidence)))
    (hd : net'.domain = net.domain) (a : Assign) : net'.kernel v a = net.kernel v a := by
  unfold kernel
  rw [hd]
  cases h1 : net'.cpds.get? v <;> cases h2 : net.cpds.get? v <;> rw [h1, h2] at h
  · simp at h
  · simp at h
  · simp only [Option.map_some, Option.some.injEq, Prod.mk.injEq] at h
    simp only [Cpd.prob, Cpd.entry, Cpd.col, h]

end Net

theorem Reached.mono {g g' : Graph} {Z S : List Node} {t : Node} (he : ∀ u v, g'.Edge u v → g.Edge u v)
    (h : Reached g' Z S t) : Reached g Z S t := by
  obtain ⟨h0, d, hb⟩ := h
  refine ⟨h0, d, ?_⟩
  clear h0
  have hanz : ∀ v, g'.AnZ Z v → g.AnZ Z v := by
    rintro v ⟨z, hz, hr⟩
    exact ⟨z, hz, Relation.ReflTransGen.mono he _ _ hr⟩
  induction hb with
  | init h => exact .init h
  | upPar _ h1 h2 ih => exact .upPar ih h1 (he _ _ h2)
  | upCh _ h1 h2 ih => exact .upCh ih h1 (he _ _ h2)
  | downCh _ h1 h2 ih => exact .downCh ih h1 (he _ _ h2)
  | downPar _ h1 h2 ih => exact .downPar ih (hanz _ h1) (he _ _ h2)

end Verif

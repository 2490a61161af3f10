import Verif.Lemmas.Trim

/-!
# The maximal expected utility
-/

namespace Verif

open Graph Relation Macid

namespace Net

theorem OnlyRules.congr {net net' : Net} {ds es : List Node} (h : OnlyRules net ds net') (he : ∀ w, w ∈ ds ↔ w ∈ es) : OnlyRules net es net' :=
  ⟨h.m, h.base, h.domain, fun w hw => h.cpds w (fun q => hw ((he w).1 q)), fun w hw => h.rels w (fun q => hw ((he w).1 q))⟩

theorem decisions_role {m : Macid} {d : Node} : d ∈ m.decisions ↔ ∃ a, m.role d = .decision a := by
  constructor
  · intro h
    obtain ⟨a, ha⟩ := Dict.mem_keys.1 h
    exact ⟨a, role_decision.2 ha⟩
  · rintro ⟨a, ha⟩
    exact Dict.mem_keys.2 ⟨a, role_decision.1 ha⟩

theorem Usable.analysable {net : Net} (hU : net.Usable) : net.Analysable := ⟨hU.roles, hU.base, hU.staffed, Or.inr hU.good⟩

/-- the maximum exists -/
theorem exists_maxEU {net : Net} (hU : net.Usable) {agent : Agent} (hag : ∀ d b, net.m.role d = .decision b → b = agent) :
    ∃ r, net.IsMaxEU agent r := by
  have hr : ∀ d ∈ net.m.decisions.dedup, net.m.role d = .decision agent := fun d hd => by
    obtain ⟨b, hb⟩ := decisions_role.1 (List.mem_dedup.1 hd)
    rw [hb, hag d b hb]
  have hds : ∀ d ∈ net.m.decisions.dedup, d ∈ net.g.nodes := fun d hd => hU.roles.nodes d (Or.inl (List.mem_dedup.1 hd))
  obtain ⟨pols, e1, _, e3, e4⟩ := purePolicies_ok hU (List.nodup_dedup net.m.decisions) hds
  obtain ⟨r, hr1, hr2⟩ := exists_max (l := pols.map (net.polU agent)) (by simpa using e3) id
  obtain ⟨pol, hp, rfl⟩ := List.mem_map.1 hr1
  refine ⟨net.polU agent pol, ?_, fun net' hU' hO' => ?_⟩
  · obtain ⟨q1, q2, _⟩ := e4 pol hp
    obtain ⟨n', k1, k2, k3, _⟩ := addPolicy_usable pol hU q1
    rw [q2] at k3
    exact ⟨n', k2, k3.congr (fun w => List.mem_dedup), by unfold polU; rw [k1]⟩
  · obtain ⟨pol', hp', hle⟩ := enumerated_suffices hU (List.nodup_dedup net.m.decisions) hr e1 hU' (hO'.congr (fun w => List.mem_dedup.symm))
    exact le_trans hle (hr2 _ (List.mem_map_of_mem hp'))

/-- the maximum is unique -/
theorem IsMaxEU.unique {net : Net} {agent : Agent} {r s : Rat} (hr : net.IsMaxEU agent r) (hs : net.IsMaxEU agent s) : r = s := by
  obtain ⟨n, h1, h2, rfl⟩ := hr.reached
  obtain ⟨n', k1, k2, rfl⟩ := hs.reached
  exact le_antisymm (hs.bound n h1 h2) (hr.bound n' k1 k2)

theorem IsMaxEU.of_dominates {n1 n2 : Net} {agent : Agent}
    (h12 : ∀ n1', n1'.Usable → OnlyRules n1 n1.m.decisions n1' → ∃ n2', n2'.Usable ∧ OnlyRules n2 n2.m.decisions n2' ∧ n1'.EU agent ≤ n2'.EU agent)
    (h21 : ∀ n2', n2'.Usable → OnlyRules n2 n2.m.decisions n2' → ∃ n1', n1'.Usable ∧ OnlyRules n1 n1.m.decisions n1' ∧ n2'.EU agent ≤ n1'.EU agent)
    {r : Rat} (h : n1.IsMaxEU agent r) : n2.IsMaxEU agent r := by
  have hb : ∀ n2', n2'.Usable → OnlyRules n2 n2.m.decisions n2' → n2'.EU agent ≤ r := by
    intro n2' q1 q2
    obtain ⟨n1', k1, k2, k3⟩ := h21 n2' q1 q2
    exact le_trans k3 (h.bound n1' k1 k2)
  obtain ⟨n, q1, q2, rfl⟩ := h.reached
  obtain ⟨n', k1, k2, k3⟩ := h12 n q1 q2
  exact ⟨⟨n', k1, k2, le_antisymm (hb n' k1 k2) k3⟩, hb⟩

end Net

open Net

theorem Graph.descEq_congr {g h : Graph} (he : ∀ u v, g.Edge u v ↔ h.Edge u v) (u v : Node) : g.DescEq u v ↔ h.DescEq u v := by
  have : g.Edge = h.Edge := by funext u v; exact propext (he u v)
  unfold Graph.DescEq
  rw [this]

/-- the order of the nodes does not matter -/
theorem Macid.IsRequisiteGraph.transfer {m m' : Macid} (hr : ∀ n, m'.role n = m.role n) (he : ∀ u v, m'.g.Edge u v ↔ m.g.Edge u v)
    {order : List Node} {H : Graph} (h : m'.IsRequisiteGraph order H) : m.IsRequisiteGraph order ⟨m.g.nodes, H.edges⟩ := by
  refine ⟨rfl, fun u v q => (he u v).1 (h.sub u v q), fun u v q hv => h.other u v ((he u v).2 q) hv, fun l d r hl x => ?_⟩
  show H.Edge x d ↔ _
  rw [h.obs l d r hl x]
  refine Requisite.congr (m := m.onGraph (m.g.trimmed ⟨m.g.nodes, H.edges⟩ r)) (m' := m'.onGraph (m'.g.trimmed H r)) hr (fun u v => ?_) _ _
  show (m'.g.trimmed H r).Edge u v ↔ (m.g.trimmed ⟨m.g.nodes, H.edges⟩ r).Edge u v
  rw [Graph.mem_trimmed, Graph.mem_trimmed, he]
  rfl

namespace Net

/-- one agent owns everything -/
theorem Analysable.owner {net : Net} (h : net.Analysable) (h1 : net.m.agents.length ≤ 1) {e : Node} {a b : Agent}
    (ha : a ∈ net.m.agents) (he : net.m.role e = .decision b ∨ net.m.role e = .utility b) : b = a := by
  have hb : b ∈ net.m.agents := by
    rcases he with he | he
    · obtain ⟨ds, q, _⟩ := (h.roles.dec.iff e b).1 (role_decision.1 he)
      exact (h.staffed.both b).2 (Dict.mem_keys.2 ⟨ds, q⟩)
    · obtain ⟨ds, q, _⟩ := (h.roles.util.iff e b).1 ((role_utility h.roles).1 he)
      exact Dict.mem_keys.2 ⟨ds, q⟩
  match hl : net.m.agents with
  | [] => rw [hl] at ha; simp at ha
  | [c] =>
    rw [hl] at ha hb
    simp at ha hb
    rw [ha, hb]
  | _ :: _ :: _ => rw [hl] at h1; simp at h1

/-- a network with more observations of the decisions can do what another one does -/
theorem dominates_more {n1 n2 : Net} (hU1 : n1.Usable) (hU2 : n2.Usable) {agent : Agent} (hag : ∀ d b, n1.m.role d = .decision b → b = agent)
    (hw : SameWorld (· ∈ n1.m.decisions) n1 n2) (hE : ∀ u v, n1.g.Edge u v → n2.g.Edge u v) {n1' : Net} (hU1' : n1'.Usable)
    (hO : OnlyRules n1 n1.m.decisions n1') :
    ∃ n2', n2'.Usable ∧ OnlyRules n2 n2.m.decisions n2' ∧ n1'.EU agent ≤ n2'.EU agent := by
  obtain ⟨rg, order, _, _, h3, h4, _⟩ := hU1.analysable.requisiteGraph (fun _ => 0) (fun _ => 0) (setOrd := id) (fun _ => List.Perm.refl _)
  have hmem : ∀ d, d ∈ order ↔ d ∈ n1.m.decisions := fun d => by rw [h3.all, decisions_role]
  obtain ⟨n2', k1, k2, k3⟩ := dominates hU1 hU2 h4 h3.nodup (agent := agent)
    (fun d hd => by obtain ⟨b, hb⟩ := (h3.all d).1 hd; rw [hb, hag d b hb]) (fun u => by rw [hw.roles]) hw.nodes hw.outcomes
    (X := fun _ => False) (by simp) (fun u v h => hE u v (h4.sub u v h))
    (fun v hv hvo _ a ha => hw.kernels v hv (fun q => hvo ((hmem v).2 q)) a ha) hU1' (hO.congr (fun w => (hmem w).symm))
  refine ⟨n2', k1, k2.congr (fun w => ?_), k3⟩
  rw [hmem, decisions_role, decisions_role]
  simp only [hw.roles]

theorem SameWorld.symm {ds : Node → Prop} {n1 n2 : Net} (h : SameWorld ds n1 n2) : SameWorld ds n2 n1 :=
  ⟨fun v => (h.nodes v).symm, fun v => (h.roles v).symm, fun v hv => (h.outcomes v ((h.nodes v).1 hv)).symm,
    fun v hv hd a ha => (h.kernels v ((h.nodes v).1 hv) hd a (fun u hu => by
      rw [← h.outcomes u hu]; exact ha u ((h.nodes u).2 hu))).symm⟩

theorem SameWorld.decisions {ds : Node → Prop} {n1 n2 : Net} (h : SameWorld ds n1 n2) (d : Node) : d ∈ n2.m.decisions ↔ d ∈ n1.m.decisions := by
  rw [decisions_role, decisions_role]
  simp only [h.roles]

end Net
end Verif

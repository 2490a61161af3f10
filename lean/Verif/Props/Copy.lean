import Verif.Lemmas.Copy
import Verif.Props.Structure

/-!
# C35: copies
-/

namespace Verif
open Net

/-- `copy()` with all details -/
theorem Net.copy_spec {net : Net} (hG : net.Good) (hm : net.m.Consistent)
    (hb : net.base = Macid.new ∨ net.base = Macid.newCid)
    (hag : ∀ a, a ∈ net.m.agentUtilities.keys ↔ a ∈ net.m.agentDecisions.keys) :
    ∃ net', net.copy = .ok net' ∧ net'.Good ∧ Equiv net net' ∧ (∀ n, net'.m.role n = net.m.role n) ∧
      net'.m.Consistent ∧ net'.base = net.base ∧ (∀ v ∈ net'.domain.keys, v ∈ net.g.nodes) ∧
      (∀ v r', net'.rels.get? v = some r' → ∃ r, net.rels.get? v = some r ∧ net.copyRel v r = .ok r') ∧
      ∃ m', Macid.copyWithoutCpds net.base net.m = .ok m' ∧ net'.m = m' := by
  obtain ⟨m', h1, h2, h3, h4, h5⟩ := C16_copy_exact net.m hm net.base hb hag
  have hcr : ∀ p ∈ net.rels, ∃ r', net.copyRel p.1 p.2 = .ok r' := by
    intro p hp
    have hr := Dict.get?_of_mem hG.keys hp
    obtain ⟨c, hc, _⟩ := hG.complete p.1 (hG.relNodes p.1 (Dict.mem_keys.2 ⟨_, hr⟩))
    obtain ⟨r', _, e, _⟩ := copyRel_spec hG hr hc
    exact ⟨r', e⟩
  have : Nonempty Rel := ⟨.seq []⟩
  choose! ρ hρ using hcr
  have hkeys : (net.rels.map (fun p => (p.1, ρ p))).map (·.1) = net.rels.keys := by
    rw [List.map_map]; rfl
  have hget : ∀ v r', Dict.get? (net.rels.map (fun p => (p.1, ρ p))) v = some r' →
      ∃ r, net.rels.get? v = some r ∧ net.copyRel v r = .ok r' := by
    intro v r' h
    have hmem := Dict.mem_of_get? h
    obtain ⟨p, hp, e⟩ := List.mem_map.1 hmem
    cases e
    exact ⟨p.2, Dict.get?_of_mem hG.keys hp, hρ p hp⟩
  obtain ⟨net', k1, k2, k3, k4, k5, k6, k7⟩ := rebuild (net := net) (acc := ⟨m', [], [], [], net.base⟩) hG
    ⟨rfl, rfl, rfl⟩ h3 h2.wf h4 (l := net.rels.map (fun p => (p.1, ρ p)))
    (by rw [hkeys]; exact hG.keys)
    (by
      intro v
      rw [hkeys]
      refine ⟨hG.relNodes v, fun hv => ?_⟩
      obtain ⟨c, hc, _⟩ := hG.complete v hv
      obtain ⟨_, r, hr, _⟩ := hG.reflects v c hc
      exact Dict.mem_keys.2 ⟨r, hr⟩)
    (by
      intro v r' c hr' hc
      obtain ⟨r, e1, e2⟩ := hget v r' hr'
      obtain ⟨r'', c', q1, q⟩ := copyRel_spec hG e1 hc
      rw [e2] at q1
      cases q1
      obtain ⟨q2, q3, q4, q5, q6, q7⟩ := q
      refine ⟨c', q2, q3, q4, q5, q6, fun c1 e hne => ⟨c1, q7 c1 e hne, ⟨rfl, fun _ _ _ => rfl⟩, fun p hp => ?_⟩⟩
      rw [(mkCpd_fields (q7 c1 e hne)).2.1] at hp
      exact Graph.mem_parents.1 hp)
  refine ⟨net', ?_, k2, k3, fun n => by rw [k4]; exact h5 n, by rw [k4]; exact h2, k5, fun v hv => ?_, fun v r' h => hget v r' (by rw [← k7]; exact h),
    m', h1, k4⟩
  · unfold copy
    rw [h1]
    exact copyLoop_eq hρ k1
  · obtain ⟨d, hd⟩ := Dict.mem_keys.1 hv
    rw [k6] at hd
    split at hd
    · assumption
    · simp at hd

/-- **C35** `copy()` of a sound, fully parameterised network succeeds, the copy is again sound, and
it has the same nodes, edges, roles, domains and the same probability of every outcome given the
parents. -/
theorem C35_copy_faithful {net : Net} (hG : net.Good) (hm : net.m.Consistent)
    (hb : net.base = Macid.new ∨ net.base = Macid.newCid)
    (hag : ∀ a, a ∈ net.m.agentUtilities.keys ↔ a ∈ net.m.agentDecisions.keys) :
    ∃ net', net.copy = .ok net' ∧ net'.Good ∧ Equiv net net' ∧ (∀ n, net'.m.role n = net.m.role n) ∧
      net'.m.Consistent ∧ net'.base = net.base ∧ ∀ v ∈ net'.domain.keys, v ∈ net.g.nodes := by
  obtain ⟨net', h1, h2, h3, h4, h5, h6, h7, _⟩ := copy_spec hG hm hb hag
  exact ⟨net', h1, h2, h3, h4, h5, h6, h7⟩

theorem Macid.role_keys {m : Macid} (hm : m.Consistent) {n : Node} {a : Agent} :
    (m.role n = .decision a → a ∈ m.agentDecisions.keys) ∧ (m.role n = .utility a → a ∈ m.agentUtilities.keys) := by
  refine ⟨fun h => ?_, fun h => ?_⟩
  · obtain ⟨l, hl, _⟩ := (hm.dec.iff n a).1 (Macid.role_decision.1 h)
    exact Dict.mem_keys.2 ⟨l, hl⟩
  · obtain ⟨l, hl, _⟩ := (hm.util.iff n a).1 ((Macid.role_utility hm).1 h)
    exact Dict.mem_keys.2 ⟨l, hl⟩

/-- **C35** if moreover every agent owns a decision and a utility node, the copy can be copied again. -/
theorem C35_copy_of_copy {net net' : Net} (hG : net.Good) (hm : net.m.Consistent)
    (hb : net.base = Macid.new ∨ net.base = Macid.newCid) (hs : net.Staffed) (hc : net.copy = .ok net') :
    net'.Staffed := by
  obtain ⟨net1, h1, h2, h3, h4, h5, h6, _, _, m', h9, h10⟩ := copy_spec hG hm hb hs.both
  rw [hc] at h1
  cases h1
  have hk := Macid.copyWithoutCpds_keys h9
  have hbase : ∀ a, a ∈ net.base.agentUtilities.keys ↔ net.base = Macid.newCid ∧ a = 0 := by
    intro a
    rcases hb with h | h <;> simp [h, Macid.new, Macid.newCid, Dict.keys]
  have hbase' : ∀ a, a ∈ net.base.agentDecisions.keys ↔ net.base = Macid.newCid ∧ a = 0 := by
    intro a
    rcases hb with h | h <;> simp [h, Macid.new, Macid.newCid, Dict.keys]
  have howns : ∀ a, (a ∈ net'.m.agentUtilities.keys ∨ a ∈ net'.m.agentDecisions.keys) →
      ((∃ n, net'.m.role n = .decision a) ∧ ∃ n, net'.m.role n = .utility a) ∨ (net'.base = Macid.newCid ∧ a = 0) := by
    intro a ha
    rw [h6]
    simp only [h4]
    rw [h10] at ha
    rcases ha with ha | ha
    · rcases hk.utilOnly a ha with h | h
      · exact Or.inr ((hbase a).1 h)
      · exact hs.owns a h
    · rcases hk.decOnly a ha with h | h
      · exact Or.inr ((hbase' a).1 h)
      · exact hs.owns a h
  refine ⟨fun a => ⟨fun ha => ?_, fun ha => ?_⟩, fun a ha => howns a (Or.inl ha)⟩
  · rcases howns a (Or.inl ha) with ⟨⟨n, hn⟩, _⟩ | h
    · exact (Macid.role_keys h5).1 hn
    · rw [h10]; exact hk.dec a ((hbase' a).2 (by rw [h6] at h; exact h))
  · rcases howns a (Or.inr ha) with ⟨_, ⟨n, hn⟩⟩ | h
    · exact (Macid.role_keys h5).2 hn
    · rw [h10]; exact hk.util a ((hbase a).2 (by rw [h6] at h; exact h))

/-- FALSE without that: agent 1 has utility `V` and the empty list of decisions. The diagram can be copied,
its copy cannot: KeyError. -/
theorem C35_copy_of_copy_counterexample : ∃ m m' : Macid, m.Consistent ∧
    (∀ a, a ∈ m.agentUtilities.keys ↔ a ∈ m.agentDecisions.keys) ∧
    Macid.copyWithoutCpds Macid.new m = .ok m' ∧ m'.Consistent ∧ Macid.copyWithoutCpds Macid.new m' = .error .key := by
  let m : Macid := ⟨⟨["D", "U", "V"], [("D", "U"), ("D", "V")]⟩, [(0, ["D"]), (1, [])], [(0, ["U"]), (1, ["V"])],
    [("D", 0)], [("U", 0), ("V", 1)]⟩
  have hm : m.Consistent := C15_constructor_consistent [("D", "U"), ("D", "V")] [(0, ["D"]), (1, [])]
    [(0, ["U"]), (1, ["V"])] m (by decide +kernel) (by decide) (by decide) (by decide) (by decide)
  have hk : ∀ a, a ∈ m.agentUtilities.keys ↔ a ∈ m.agentDecisions.keys := fun a => Iff.rfl
  obtain ⟨m', h1, h2, _⟩ := C16_copy_exact m hm Macid.new (Or.inl rfl) hk
  refine ⟨m, m', hm, hk, h1, h2, ?_⟩
  have : (match Macid.copyWithoutCpds Macid.new m with
    | .ok m' => decide (Macid.copyWithoutCpds Macid.new m' = .error .key)
    | .error _ => false) = true := by decide +kernel
  rw [h1] at this
  simpa using this

/-- the example network is sound -/
theorem Ex.net_good : Ex.net.Good := by
  refine good_of_runs Ex.net0_wf Ex.net0_fresh ?_ (addCpds_runs Ex.net_eq) (by decide +kernel) ?_
  · intro op ho
    obtain ⟨p, hp, rfl⟩ := List.mem_map.1 ho
    exact Ex.rels_honest p hp
  · intro v c h
    exfalso
    rw [addCpds_rels (by decide +kernel) Ex.net_eq v] at h
    cases hg : Dict.get? Ex.rels v with
    | none => rw [hg] at h; simp [Ex.net0, Dict.get?] at h
    | some r =>
      rw [hg] at h
      simp only [Option.some.injEq] at h
      subst h
      have := Dict.mem_of_get? hg
      simp [Ex.rels] at this

theorem Ex.m_consistent : Ex.m.Consistent :=
  C15_constructor_consistent [("A", "D"), ("D", "U"), ("A", "U")] [(0, ["D"])] [(0, ["U"])] Ex.m
    (by decide +kernel) (by decide) (by decide) (by decide) (by decide)

example : Ex.net.Good ∧ Ex.net.m.Consistent ∧ Ex.net.base = Macid.new ∧
    (∀ a, a ∈ Ex.net.m.agentUtilities.keys ↔ a ∈ Ex.net.m.agentDecisions.keys) := by
  have hm : Ex.net.m = Ex.m := by
    decide +kernel
  refine ⟨Ex.net_good, hm ▸ Ex.m_consistent, by decide +kernel, ?_⟩
  rw [hm]
  intro a
  exact Iff.rfl

end Verif

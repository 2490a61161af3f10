import Verif.Lemmas.Enumerate

/-!
# Policies in a network and in a copy of it
-/

namespace Verif

open Graph Relation Macid

namespace Net

theorem EU_equiv {n n' : Net} (h : Equiv n n') (hc : n.m.Consistent) (hc' : n'.m.Consistent)
    (hr : ∀ v, n'.m.role v = n.m.role v) (a : Agent) : n'.EU a = n.EU a := by
  have mem : ∀ (m : Macid), m.Consistent → ∀ v, v ∈ (m.agentUtilities.get? a).getD [] ↔ m.role v = .utility a := by
    intro m hm v
    rw [role_utility hm, hm.util.iff]
    cases m.agentUtilities.get? a <;> simp
  have nd : ∀ (m : Macid), m.Consistent → ((m.agentUtilities.get? a).getD []).Nodup := by
    intro m hm
    cases hg : m.agentUtilities.get? a with
    | none => simp
    | some l => exact hm.util.nodup a l hg
  have hperm : ((n'.m.agentUtilities.get? a).getD []).Perm ((n.m.agentUtilities.get? a).getD []) :=
    (List.perm_ext_iff_of_nodup (nd _ hc') (nd _ hc)).2 (fun v => by rw [mem _ hc', mem _ hc, hr])
  unfold EU
  rw [(hperm.map _).sum_eq]
  congr 1
  apply List.map_congr_left
  intro v hv
  exact mean_equiv h [] (hc.nodes v (Or.inr (Dict.mem_keys.2 ⟨a, (role_utility hc).1 ((mem _ hc v).1 hv)⟩)))

theorem Equiv.symm {n n' : Net} (h : Equiv n n') : Equiv n' n :=
  ⟨h.nodes.symm, fun u v => (h.edges u v).symm, fun v hv => (h.domain v (h.nodes ▸ hv)).symm,
    fun v hv => (h.undecided v (h.nodes ▸ hv)).symm, fun v hv a ha => (h.kernel v (h.nodes ▸ hv) a ((h.inDom a).1 ha)).symm⟩

theorem PolicyOk.equiv {n n' : Net} (h : Equiv n n') (hU : n.Usable) (hU' : n'.Usable) {pol : List Cpd} (hp : PolicyOk n pol) : PolicyOk n' pol := by
  refine ⟨hp.1, fun k hk => ?_⟩
  obtain ⟨q1, q2, q3⟩ := hp.2 k hk
  have hps : ∀ p, p = k.var ∨ n.g.Edge p k.var → p ∈ n.g.nodes := by
    rintro p (rfl | he)
    · exact q1
    · exact (hU.good.wf.edgeNodes _ _ he).1
  refine ⟨by rw [h.nodes]; exact q1, q2.transfer hU.good hU'.good (fun p => h.edges p _) (fun p hp => h.domain p (hps p hp)), ?_⟩
  intro a ha
  have := q3 a ((h.inDom a).1 ha)
  have hc : ∀ vals x, k.prob n'.domain vals x = k.prob n.domain vals x :=
    prob_congr (fun p hp => h.domain p (hps p (Or.inr ((q2.fits.parents p).1 hp))))
  simp only [hc, h.dom q1]
  exact this

/-- storing the same policy in both -/
theorem Equiv.policy {n n' : Net} (h : Equiv n n') (hU : n.Usable) (hU' : n'.Usable) {pol : List Cpd} (hp : PolicyOk n pol)
    {m m' : Net} (hm : n.addPolicy pol = (m, .ok ())) (hm' : n'.addPolicy pol = (m', .ok ())) : Equiv m m' := by
  obtain ⟨b, h1, h2, h3, h4⟩ := addPolicy_usable pol hU hp
  obtain ⟨b', k1, k2, k3, k4⟩ := addPolicy_usable pol hU' (hp.equiv h hU hU')
  rw [hm] at h1
  rw [hm'] at k1
  cases h1
  cases k1
  refine ⟨by rw [k3.g, h3.g, h.nodes], by rw [k3.g, h3.g]; exact h.edges, by rw [k3.domain, h3.domain, h3.g]; exact h.domain, ?_, ?_⟩
  · intro v hv
    rw [h3.g] at hv
    by_cases hvp : v ∈ pol.map (·.var)
    · obtain ⟨k, hk, rfl⟩ := List.mem_map.1 hvp
      unfold Net.undecided
      rw [h4 k hk, k4 k hk]
    · have := h.undecided v hv
      unfold Net.undecided at this ⊢
      rw [k3.cpds v hvp, h3.cpds v hvp]
      exact this
  · intro v hv a ha
    rw [h3.g] at hv
    have ha0 := (h3.inDom a).1 ha
    by_cases hvp : v ∈ pol.map (·.var)
    · obtain ⟨k, hk, rfl⟩ := List.mem_map.1 hvp
      unfold Net.kernel
      rw [h4 k hk, k4 k hk, h3.domain, k3.domain]
      simp only
      rw [prob_congr]
      intro p hp'
      exact h.domain p (hU.good.wf.edgeNodes p _ (((hp.2 k hk).2.1.fits.parents p).1 hp')).1
    · rw [k3.kernel hvp, h3.kernel hvp]
      exact h.kernel v hv a ha0

/-- the rules of a network as a policy -/
def rulesOf (net : Net) (ds : List Node) : List Cpd := ds.filterMap (fun d => net.cpds.get? d)

theorem rulesOf_ok {net : Net} (hU : net.Usable) {ds : List Node} (hnd : ds.Nodup) (hds : ∀ d ∈ ds, d ∈ net.g.nodes) :
    PolicyOk net (net.rulesOf ds) ∧ (net.rulesOf ds).map (·.var) = ds ∧ ∀ k ∈ net.rulesOf ds, net.cpds.get? k.var = some k := by
  have hmem : ∀ k ∈ net.rulesOf ds, net.cpds.get? k.var = some k ∧ k.var ∈ ds := by
    intro k hk
    obtain ⟨d, hd, hk⟩ := List.mem_filterMap.1 hk
    have := (hU.good.fits d k hk).var
    rw [this]
    exact ⟨hk, hd⟩
  have hvar : (net.rulesOf ds).map (·.var) = ds := by
    clear hmem hnd
    induction ds with
    | nil => rfl
    | cons d ds ih =>
      obtain ⟨c, hc, _⟩ := hU.good.complete d (hds d (by simp))
      have := ih (fun e he => hds e (by simp [he]))
      unfold rulesOf at this ⊢
      rw [List.filterMap_cons, hc]
      simp only [List.map_cons, this, (hU.good.fits d c hc).var]
  refine ⟨⟨by rw [hvar]; exact hnd, fun k hk => ?_⟩, hvar, fun k hk => (hmem k hk).1⟩
  obtain ⟨h1, h2⟩ := hmem k hk
  have hkn := hds _ h2
  have hfit := hU.good.fits _ k h1
  refine ⟨hkn, accept_good hU.good h1, fun a ha => ?_⟩
  have := hU.normalised k.var hkn a ha
  unfold kernel at this
  simp only [h1] at this
  refine ⟨this.1, ?_⟩
  rw [← this.2]
  congr 1
  apply List.map_congr_left
  intro x hx
  have hn : k.var ∉ k.evidence := fun hmem =>
    hU.good.wf.acyclic k.var (.single ((hfit.parents k.var).1 hmem))
  have : k.evidence.map (Assign.upd a k.var x) = k.evidence.map a := by
    apply List.map_congr_left
    intro p hp
    have : p ≠ k.var := by rintro rfl; exact hn hp
    simp [Assign.upd, this]
  rw [this]
  simp [Assign.upd]

/-- every policy for `n` can be copied to the twin `n'` -/
theorem Equiv.twin {n n' : Net} (h : Equiv n n') (hU' : n'.Usable) {ds : List Node} (hds : ∀ d ∈ ds, d ∈ n.g.nodes)
    {net : Net} (hn : net.Usable) (hO : OnlyRules n ds net) :
    ∃ net', net'.Usable ∧ OnlyRules n' ds net' ∧ Equiv net net' := by
  obtain ⟨p1, p2, p3⟩ := rulesOf_ok hn (List.nodup_dedup ds) (fun d hd => by rw [hO.g]; exact hds d (List.mem_dedup.1 hd))
  have hpn' : PolicyOk n' (net.rulesOf ds.dedup) := by
    refine ⟨p1.1, fun k hk => ?_⟩
    obtain ⟨q1, q2, q3⟩ := p1.2 k hk
    have hps : ∀ p, p = k.var ∨ net.g.Edge p k.var → p ∈ n.g.nodes := by
      rw [hO.g] at q1
      rintro p (rfl | he)
      · exact q1
      · rw [← hO.g]; exact (hn.good.wf.edgeNodes _ _ he).1
    refine ⟨by rw [h.nodes, ← hO.g]; exact q1, q2.transfer hn.good hU'.good (fun p => by rw [hO.g]; exact h.edges p _)
      (fun p hp => by rw [hO.domain]; exact h.domain p (hps p hp)), ?_⟩
    intro a ha
    have := q3 a ((hO.inDom a).2 ((h.inDom a).1 ha))
    have hc : ∀ vals x, k.prob n'.domain vals x = k.prob net.domain vals x :=
      prob_congr (fun p hp => by rw [hO.domain]; exact h.domain p (hps p (Or.inr ((q2.fits.parents p).1 hp))))
    simp only [hc]
    rw [h.dom (hps _ (Or.inl rfl)), ← hO.dom]
    exact this
  obtain ⟨m', k1, k2, k3, k4⟩ := addPolicy_usable _ hU' hpn'
  rw [p2] at k3
  have hsub : ∀ w ∈ ds.dedup, w ∈ ds := fun w hw => List.mem_dedup.1 hw
  refine ⟨m', k2, k3.mono hsub, by rw [k3.g, hO.g, h.nodes], by rw [k3.g, hO.g]; exact h.edges, by rw [k3.domain, hO.domain, hO.g]; exact h.domain, ?_, ?_⟩
  · intro v hv
    rw [hO.g] at hv
    by_cases hvp : v ∈ ds.dedup
    · rw [← p2] at hvp
      obtain ⟨k, hk, rfl⟩ := List.mem_map.1 hvp
      unfold Net.undecided
      rw [k4 k hk, p3 k hk]
    · have := h.undecided v hv
      unfold Net.undecided at this ⊢
      rw [k3.cpds v hvp, hO.cpds v (fun h => hvp (List.mem_dedup.2 h))]
      exact this
  · intro v hv a ha
    rw [hO.g] at hv
    have ha0 := (hO.inDom a).1 ha
    by_cases hvp : v ∈ ds.dedup
    · rw [← p2] at hvp
      obtain ⟨k, hk, rfl⟩ := List.mem_map.1 hvp
      unfold Net.kernel
      rw [k4 k hk, p3 k hk, hO.domain, k3.domain]
      simp only
      rw [prob_congr]
      intro p hp'
      refine h.domain p ?_
      rw [← hO.g]
      exact (hn.good.wf.edgeNodes p _ ((((p1.2 k hk).2.1).fits.parents p).1 hp')).1
    · rw [k3.kernel hvp, hO.kernel (fun h => hvp (List.mem_dedup.2 h))]
      exact h.kernel v hv a ha0

end Net
end Verif

import Verif.Lemmas.Runs

/-!
# CPD objects that can be stored in a network
-/

namespace Verif

open Graph Relation Macid

namespace Net

/-- the object `c` is a rule for `d` in this network -/
structure Accept (net : Net) (d : Node) (c : Cpd) : Prop where
  dom : c.domain = net.dom d
  fits : c.Fits net.g net.domain d
  wf : c.WellFormed
  obj : c.kind ≠ .tabular →
    ∃ c', mkCpd c.kind c.var c.func c.force (net.g.parents d) net.domain (cardOf net.domain) = .ok c' ∧ net.SameCpd c c'

theorem Accept.set {net : Net} (hG : net.Good) {d : Node} (hd : d ∈ net.g.nodes) {c : Cpd} (h : Accept net d c) :
    ∃ net', net.set d (.tab c) = (net', .ok ()) ∧ net'.Good ∧ OnlyRules net [d] net' ∧ net'.cpds.get? d = some c := by
  obtain ⟨net', h1, h2, h3, h4, _⟩ := set_rule hG hd (r := .tab c) (c := c) rfl h.dom h.fits h.wf (fun c1 e => by
    cases e
    exact h.obj)
  exact ⟨net', h1, h2, h3, h4⟩

theorem accept_mkCpd {net : Net} (hG : net.Good) {d : Node} (hd : d ∈ net.g.nodes) {kind : CpdKind} {f : Func}
    {force : Option (List Outcome)} {c : Cpd}
    (h : mkCpd kind d f force (net.g.parents d) net.domain (cardOf net.domain) = .ok c) (hdom : c.domain = net.dom d) :
    Accept net d c := by
  obtain ⟨f1, f2, f3, f4, f5, f6⟩ := mkCpd_fields h
  refine ⟨hdom, mkCpd_fits h, mkCpd_wf h (Graph.nodup_parents hG.wf.edgesNodup d) (hdom ▸ (dom_props hG hd).2), fun _ => ?_⟩
  rw [f1, f3, f4, f5]
  exact ⟨c, h, rfl, fun _ _ _ => rfl⟩

/-- what is stored can be stored -/
theorem accept_good {net : Net} (hG : net.Good) {d : Node} {c : Cpd} (hc : net.cpds.get? d = some c) : Accept net d c := by
  obtain ⟨h1, r, hr, hcomp⟩ := hG.reflects d c hc
  have hfit := hG.fits d c hc
  refine ⟨(dom_eq h1).symm, hfit, hG.cpdOk d c hc, fun hk => ?_⟩
  have gen : ∀ kind f force, mkCpd kind d f force (net.g.parents d) net.domain (cardOf net.domain) = .ok c →
      ∃ c', mkCpd c.kind c.var c.func c.force (net.g.parents d) net.domain (cardOf net.domain) = .ok c' ∧ net.SameCpd c c' := by
    intro kind f force h
    obtain ⟨f1, f2, f3, f4, f5, f6⟩ := mkCpd_fields h
    rw [f1, f3, f4, f5]
    exact ⟨c, h, rfl, fun _ _ _ => rfl⟩
  cases r with
  | tab c0 =>
    simp only [computed, Except.ok.injEq] at hcomp
    subst hcomp
    exact hG.tabs d c0 hr hk
  | func f => unfold computed at hcomp; exact gen _ _ _ hcomp
  | dist f => unfold computed at hcomp; exact gen _ _ _ hcomp
  | seq f => unfold computed at hcomp; exact gen _ _ _ hcomp

/-- networks with the same parents and domains accept the same objects -/
theorem Accept.transfer {n1 n2 : Net} (h1 : n1.Good) (h2 : n2.Good) {d : Node}
    (he : ∀ p, n2.g.Edge p d ↔ n1.g.Edge p d) (hdom : ∀ p, p = d ∨ n1.g.Edge p d → n2.domain.get? p = n1.domain.get? p) {c : Cpd}
    (h : Accept n1 d c) : Accept n2 d c := by
  have hdd : ∀ p, p = d ∨ n1.g.Edge p d → n2.dom p = n1.dom p := fun p hp => by unfold Net.dom; rw [hdom p hp]
  refine ⟨h.dom.trans (hdd d (Or.inl rfl)).symm, ⟨h.fits.var, fun p => (h.fits.parents p).trans (he p).symm, ?_, h.fits.sums⟩, h.wf, ?_⟩
  · rw [h.fits.cards]
    apply List.map_congr_left
    intro p hp
    rw [hdom p (Or.inr ((h.fits.parents p).1 hp))]
  · intro hk
    obtain ⟨c', k1, k2⟩ := h.obj hk
    have hn := Graph.nodup_parents h1.wf.edgesNodup d
    have hperm : (n2.g.parents d).Perm (n1.g.parents d) :=
      (List.perm_ext_iff_of_nodup (Graph.nodup_parents h2.wf.edgesNodup d) hn).2
        (fun p => by rw [Graph.mem_parents, Graph.mem_parents]; exact he p)
    obtain ⟨c'', m1, m2, m3⟩ := mkCpd_reorder hn hperm k1 (dom' := n2.domain) (card' := cardOf n2.domain)
      (fun p hp l hl => ⟨l, by rw [hdom p (Or.inr (Graph.mem_parents.1 hp))]; exact hl, .refl _⟩)
      (fun p hp => by unfold cardOf; rw [hdom p (Or.inr (Graph.mem_parents.1 hp))])
    refine ⟨c'', m1, m2.trans k2.1, fun a ha x => ?_⟩
    obtain ⟨b, hb1, hb2⟩ := exists_inDom h1 a (fun p => n1.g.Edge p d) (fun p hp hpn => by
      rw [← hdd p (Or.inr hp)]
      exact ha p (h2.wf.edgeNodes p d ((he p).2 hp)).1)
    have e1 : c''.evidence.map a = c''.evidence.map b := by
      apply List.map_congr_left
      intro p hp
      rw [(mkCpd_fields m1).2.1, Graph.mem_parents, he] at hp
      exact (hb2 p hp).symm
    have e2 : c.evidence.map a = c.evidence.map b := by
      apply List.map_congr_left
      intro p hp
      exact (hb2 p ((h.fits.parents p).1 hp)).symm
    rw [e1, e2, m3 b (fun p hp => by
      obtain ⟨c1, _, hc1⟩ := h1.complete p (h1.wf.edgeNodes p d (Graph.mem_parents.1 hp)).1
      exact ⟨c1.domain, hc1, by rw [← dom_eq hc1]; exact hb1 p (h1.wf.edgeNodes p d (Graph.mem_parents.1 hp)).1⟩) x, k2.2 b hb1 x]
    exact (prob_congr (fun p hp => hdom p (Or.inr ((h.fits.parents p).1 hp))) _ _).symm

theorem Accept.only {net net' : Net} {ds : List Node} (hO : OnlyRules net ds net') {d : Node} {c : Cpd} (h : Accept net d c) :
    Accept net' d c := by
  refine ⟨by rw [hO.dom]; exact h.dom, by rw [hO.g, hO.domain]; exact h.fits, h.wf, fun hk => ?_⟩
  obtain ⟨c', k1, k2, k3⟩ := h.obj hk
  refine ⟨c', by rw [hO.g, hO.domain]; exact k1, k2, fun a ha => ?_⟩
  rw [hO.domain]
  exact k3 a ((hO.inDom a).1 ha)

/-- storing several rules -/
theorem addPolicy_accept : ∀ (pol : List Cpd) {net : Net}, net.Good → (∀ c ∈ pol, c.var ∈ net.g.nodes ∧ Accept net c.var c) →
    (pol.map (·.var)).Nodup →
    ∃ net', net.addPolicy pol = (net', .ok ()) ∧ net'.Good ∧ OnlyRules net (pol.map (·.var)) net' ∧
      ∀ c ∈ pol, net'.cpds.get? c.var = some c
  | [], net, hG, _, _ => ⟨net, rfl, hG, .rfl' _ _, by simp⟩
  | c :: pol, net, hG, hc, hn => by
    obtain ⟨n1, h1, h2, h3, h4⟩ := (hc c (by simp)).2.set hG (hc c (by simp)).1
    rw [List.map_cons, List.nodup_cons] at hn
    obtain ⟨n2, k1, k2, k3, k4⟩ := addPolicy_accept pol h2 (fun e he => by
      rw [h3.g]
      exact ⟨(hc e (by simp [he])).1, (hc e (by simp [he])).2.only h3⟩) hn.2
    refine ⟨n2, ?_, k2, h3.trans k3 (by simp) (fun w hw => by simp [List.mem_map.1 hw]), ?_⟩
    · unfold addPolicy
      simp only [List.map_cons, addCpds, h1]
      exact k1
    · intro e he
      rcases List.mem_cons.1 he with rfl | he
      · rw [k3.cpds _ hn.1, h4]
      · exact k4 e he

end Net
end Verif

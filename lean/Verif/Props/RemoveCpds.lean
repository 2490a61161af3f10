import Verif.Props.Structural

/-!
# C90: `remove_cpds`, and adding the removed relationships again
-/

namespace Verif

open Graph Relation Net

/-- `del` for one node -/
private theorem delKey_get (net : Net) (v w : Node) :
    (net.delKey v).rels.get? w = (if w = v then none else net.rels.get? w) ∧
    (net.delKey v).cpds.get? w = (if w = v then none else net.cpds.get? w) :=
  ⟨Dict.get?_erase _ _ _, Dict.get?_erase _ _ _⟩

/-- The network `net` without the CPDs and the relationships of the listed nodes; the graph, the roles and the recorded
domains - also those of the listed nodes - are as before. -/
structure Without (net : Net) (vs : List Node) (net' : Net) : Prop where
  m : net'.m = net.m
  base : net'.base = net.base
  domain : ∀ w, net'.domain.get? w = net.domain.get? w
  rels : ∀ w, net'.rels.get? w = if w ∈ vs then none else net.rels.get? w
  cpds : ∀ w, net'.cpds.get? w = if w ∈ vs then none else net.cpds.get? w

private theorem Without.cons {net net' : Net} {v : Node} {vs : List Node} (h : Without (net.delKey v) vs net') :
    Without net (v :: vs) net' := by
  refine ⟨h.m, h.base, h.domain, fun w => ?_, fun w => ?_⟩
  · rw [h.rels, (delKey_get net v w).1]
    by_cases h1 : w = v <;> by_cases h2 : w ∈ vs <;> simp [h1, h2]
  · rw [h.cpds, (delKey_get net v w).2]
    by_cases h1 : w = v <;> by_cases h2 : w ∈ vs <;> simp [h1, h2]

/-- **C90** `remove_cpds` removes exactly the listed relationships and CPDs if every listed node has a relationship and none
is listed twice. -/
theorem C90_remove {net : Net} {vs : List Node} (hn : vs.Nodup) (hk : ∀ v ∈ vs, v ∈ net.rels.keys) :
    ∃ net', net.removeCpds vs = (net', .ok ()) ∧ Without net vs net' := by
  induction vs generalizing net with
  | nil => exact ⟨net, rfl, rfl, rfl, fun _ => rfl, fun _ => by simp, fun _ => by simp⟩
  | cons v vs ih =>
    rw [List.nodup_cons] at hn
    obtain ⟨net', h1, h2⟩ := ih (net := net.delKey v) hn.2 (fun w hw => by
      obtain ⟨r, hr⟩ := Dict.mem_keys.1 (hk w (by simp [hw]))
      refine Dict.mem_keys.2 ⟨r, ?_⟩
      rw [(delKey_get net v w).1, if_neg (by rintro rfl; exact hn.1 hw), hr])
    refine ⟨net', ?_, h2.cons⟩
    unfold removeCpds del
    rw [if_pos (hk v (by simp))]
    exact h1

/-- **C90** Otherwise it raises KeyError at the first node that has no relationship (any more), after the ones before it have
been removed. -/
theorem C90_remove_raises {net : Net} {vs ws : List Node} {v : Node} (hn : vs.Nodup) (hk : ∀ w ∈ vs, w ∈ net.rels.keys)
    (hv : v ∉ net.rels.keys ∨ v ∈ vs) : ∃ net', net.removeCpds (vs ++ v :: ws) = (net', .error .key) ∧ Without net vs net' := by
  induction vs generalizing net with
  | nil =>
    refine ⟨net, ?_, rfl, rfl, fun _ => rfl, fun _ => by simp, fun _ => by simp⟩
    rw [List.nil_append]
    unfold removeCpds del
    rw [if_neg (hv.resolve_right (by simp))]
  | cons u vs ih =>
    rw [List.nodup_cons] at hn
    obtain ⟨net', h1, h2⟩ := ih (net := net.delKey u) hn.2 (fun w hw => by
      obtain ⟨r, hr⟩ := Dict.mem_keys.1 (hk w (by simp [hw]))
      refine Dict.mem_keys.2 ⟨r, ?_⟩
      rw [(delKey_get net u w).1, if_neg (by rintro rfl; exact hn.1 hw), hr]) (by
      by_cases hvv : v ∈ vs
      · exact .inr hvv
      · left
        intro hm
        obtain ⟨r, hr⟩ := Dict.mem_keys.1 hm
        rw [(delKey_get net u v).1] at hr
        by_cases e : v = u
        · simp [e] at hr
        · rw [if_neg e] at hr
          rcases hv with hv | hv
          · exact hv (Dict.mem_keys.2 ⟨r, hr⟩)
          · rcases List.mem_cons.1 hv with hv | hv
            exacts [e hv, hvv hv])
    refine ⟨net', ?_, h2.cons⟩
    rw [List.cons_append]
    unfold removeCpds del
    rw [if_pos (hk u (by simp))]
    exact h1

/-! ### Adding again -/

/-- same graph and roles, same relationships, CPDs and domains -/
structure SameNet (net net' : Net) : Prop where
  m : net'.m = net.m
  base : net'.base = net.base
  domain : ∀ w, net'.domain.get? w = net.domain.get? w
  rels : ∀ w, net'.rels.get? w = net.rels.get? w
  cpds : ∀ w, net'.cpds.get? w = net.cpds.get? w

/-- the CPD of a node is computed again if its parents have theirs -/
private theorem toCpd_again {net n : Net} (hG : Good net) {R : List Node} (hw : Without net R n) {v : Node} (hv : v ∈ net.g.nodes)
    {r : Rel} (hr : net.rels.get? v = some r) (hp : ∀ p, net.g.Edge p v → p ∉ R) :
    ∃ c, net.cpds.get? v = some c ∧ (stage n v r).toCpd v r = .ok c := by
  obtain ⟨c, hc, _⟩ := hG.complete v hv
  obtain ⟨_, r', hr', hcomp⟩ := hG.reflects v c hc
  rw [hr] at hr'
  cases hr'
  refine ⟨c, hc, ?_⟩
  have hg : n.g = net.g := by show n.m.g = _; rw [hw.m]
  have hd : ∀ p ∈ net.g.parents v, (stage n v r).domain.get? p = net.domain.get? p := fun p _ => hw.domain p
  have hcard : ∀ p ∈ net.g.parents v, (stage n v r).card p = cardOf net.domain p := by
    intro p hpm
    have hpe := mem_parents.1 hpm
    have hpn := (hG.wf.edgeNodes p v hpe).1
    have hpv : p ≠ v := by
      rintro rfl
      exact hG.wf.acyclic p (TransGen.single hpe)
    obtain ⟨cp, e1, e2⟩ := hG.complete p hpn
    have e3 : (stage n v r).cpds.get? p = some cp := by
      rw [stage_cpds, if_neg hpv, hw.cpds, if_neg (hp p hpe), e1]
    have e4 : p ∈ (stage n v r).g.nodes := by rw [stage_g, hg]; exact hpn
    simp [card, getCpd, e4, e3, cardOf, e2]
  have hvn : v ∈ (stage n v r).g.nodes := by rw [stage_g, hg]; exact hv
  have hgp : (stage n v r).g.parents v = net.g.parents v := by rw [stage_g, hg]
  cases r with
  | tab c' => exact hcomp
  | func f =>
    unfold toCpd
    simp only
    rw [if_pos hvn, hgp, ← hcomp]
    exact mkCpd_congr hd hcard
  | dist d =>
    unfold toCpd
    simp only
    rw [if_pos hvn, hgp, ← hcomp]
    exact mkCpd_congr hd hcard
  | seq l =>
    unfold toCpd
    simp only
    rw [if_pos hvn, hgp, ← hcomp]
    exact mkCpd_congr hd hcard

private theorem set_again {net n : Net} (hG : Good net) {v : Node} {R : List Node} (hvR : v ∉ R) (hw : Without net (v :: R) n)
    (hv : v ∈ net.g.nodes) {r : Rel} (hr : net.rels.get? v = some r) (hp : ∀ p, net.g.Edge p v → p ∉ R) :
    ∃ n', n.set v r = (n', .ok ()) ∧ Without net R n' := by
  obtain ⟨c, hc, ht⟩ := toCpd_again hG hw hv hr (fun p hpe hm => by
    rcases List.mem_cons.1 hm with rfl | hm
    · exact hG.wf.acyclic p (TransGen.single hpe)
    · exact hp p hpe hm)
  obtain ⟨c', hc', hd⟩ := hG.complete v hv
  rw [hc] at hc'
  cases hc'
  have hf := hG.fits v c hc
  have hg : n.g = net.g := by show n.m.g = _; rw [hw.m]
  have hin : ∀ x ∈ c.var :: c.evidence, x ∈ n.g.nodes := by
    intro x hx
    rw [hg]
    rcases List.mem_cons.1 hx with rfl | hx
    · rw [hf.var]; exact hv
    · exact (hG.wf.edgeNodes x v ((hf.parents x).1 hx)).1
  have hdom : c.domain ≠ [] ∧ n.domain.get? v = some c.domain := ⟨(hG.cpdOk v c hc).nonempty, by rw [hw.domain]; exact hd⟩
  refine ⟨put n v r c, ?_, ?_⟩
  · unfold Net.set
    rcases setItem_cases n.g.nodes.length n v r with ⟨h, _⟩ | ⟨e, _, h, _⟩ | ⟨c', h, k⟩
    · rw [ht] at h; simp at h
    · rw [ht] at h; simp at h
    · rw [ht] at h
      cases h
      rcases k with ⟨k, _⟩ | ⟨_, k, _⟩ | ⟨_, _, _, _, k⟩ | ⟨_, _, k, _⟩
      · exact absurd hin k
      · exact absurd hf.var k
      · exact k
      · exact absurd hdom k
  · refine ⟨hw.m, hw.base, fun w => ?_, fun w => ?_, fun w => ?_⟩
    · rw [put_domain]
      split
      · rename_i e; rw [e, hd]
      · exact hw.domain w
    · rw [put_rels, hw.rels]
      by_cases e : w = v
      · subst e; rw [if_pos rfl, if_neg hvR, hr]
      · simp [e]
    · rw [put_cpds, hw.cpds]
      by_cases e : w = v
      · subst e; rw [if_pos rfl, if_neg hvR, hc]
      · simp [e]

private theorem add_again {net : Net} (hG : Good net) : ∀ {l : List (Node × Rel)} {n : Net}, Without net (l.map (·.1)) n →
    (l.map (·.1)).Nodup → (∀ p ∈ l, net.rels.get? p.1 = some p.2) → l.Pairwise (fun p q => ¬ net.g.Edge q.1 p.1) →
    ∃ n', n.addCpds l = (n', .ok ()) ∧ SameNet net n'
  | [], n, hw, _, _, _ => ⟨n, rfl, hw.m, hw.base, hw.domain, fun w => by simpa using hw.rels w, fun w => by simpa using hw.cpds w⟩
  | (v, r) :: l, n, hw, hn, hr, hp => by
    rw [List.map_cons, List.nodup_cons] at hn
    rw [List.pairwise_cons] at hp
    have hrv := hr (v, r) (by simp)
    obtain ⟨n1, h1, h2⟩ := set_again hG hn.1 hw (hG.relNodes v (Dict.mem_keys.2 ⟨r, hrv⟩)) hrv (fun p hpe hm => by
      obtain ⟨q, hq, rfl⟩ := List.mem_map.1 hm
      exact hp.1 q hq hpe)
    obtain ⟨n2, h3, h4⟩ := add_again hG h2 hn.2 (fun p hpm => hr p (by simp [hpm])) hp.2
    refine ⟨n2, ?_, h4⟩
    unfold addCpds
    rw [h1]
    exact h3

/-- **C90** Removing CPDs and adding the same relationships again, parents before children, restores the network. -/
theorem C90_remove_add {net : Net} (hG : Good net) {vs : List Node} {l : List (Node × Rel)} (hn : vs.Nodup)
    (hl : (l.map (·.1)).Perm vs) (hr : ∀ p ∈ l, net.rels.get? p.1 = some p.2)
    (hp : l.Pairwise (fun p q => ¬ net.g.Edge q.1 p.1)) :
    ∃ net' net'', net.removeCpds vs = (net', .ok ()) ∧ net'.addCpds l = (net'', .ok ()) ∧ SameNet net net'' := by
  obtain ⟨net', h1, h2⟩ := C90_remove (net := net) hn (fun v hv => by
    obtain ⟨p, hpm, rfl⟩ := List.mem_map.1 (hl.mem_iff.2 hv)
    exact Dict.mem_keys.2 ⟨p.2, hr p hpm⟩)
  have h2' : Without net (l.map (·.1)) net' :=
    ⟨h2.m, h2.base, h2.domain, fun w => by rw [h2.rels]; simp only [hl.mem_iff], fun w => by rw [h2.cpds]; simp only [hl.mem_iff]⟩
  obtain ⟨net'', h3, h4⟩ := add_again hG h2' (hl.nodup_iff.2 hn) hr hp
  exact ⟨net', net'', h1, h3, h4⟩

private theorem mapPy_card_error {n : Net} {ps : List Node} (hps : ∀ p ∈ ps, p ∈ n.g.nodes) (h : ∃ p ∈ ps, n.cpds.get? p = none) :
    mapPy n.card ps = .error .attribute := by
  induction ps with
  | nil => obtain ⟨p, hp, _⟩ := h; simp at hp
  | cons p ps ih =>
    cases hc : n.cpds.get? p with
    | none => simp [mapPy, card, getCpd, hps p (by simp), hc]
    | some c =>
      have hex : ∃ p ∈ ps, n.cpds.get? p = none := by
        obtain ⟨q, hq, e⟩ := h
        rcases List.mem_cons.1 hq with rfl | hq
        · rw [hc] at e; simp at e
        · exact ⟨q, hq, e⟩
      have := ih (fun q hq => hps q (by simp [hq])) hex
      simp [mapPy, card, getCpd, hps p (by simp), hc, this]

private theorem mkCpd_card_error {kind : CpdKind} {v : Node} {f : Func} {force : Option (List Outcome)} {ps : List Node}
    {dom dom' : Dict Node (List Outcome)} {card card' : Node → Py Nat} {c : Cpd} {e : Err}
    (h : mkCpd kind v f force ps dom card = .ok c) (hd : ∀ p ∈ ps, dom'.get? p = dom.get? p) (hc : mapPy card' ps = .error e) :
    mkCpd kind v f force ps dom' card' = .error e := by
  have h1 : parentDoms ps dom' = parentDoms ps dom := mapPy_congr (fun p hp => by simp [domOf, hd p hp])
  obtain ⟨ds, possible, domain, cards, cols, k1, k2, k3, k4, k5, _⟩ := mkCpd_ok_iff.1 h
  unfold mkCpd parentValues
  rw [h1, k1]
  simp only [k2, k3, hc]

/-- **C90** The order matters: as long as a parent of `v` is removed, assigning to `v` a function, a distribution or a
list of outcomes - the very one that was removed - raises AttributeError, because the domain of the parent is still
recorded but its CPD is gone.  (On a fresh network the same assignment is deferred, C31.) -/
theorem C90_child_first {net net' : Net} (hG : Good net) {vs : List Node} (h : net.removeCpds vs = (net', .ok ())) (hn : vs.Nodup)
    (hk : ∀ v ∈ vs, v ∈ net.rels.keys) {p v : Node} (hp : p ∈ vs) (hpv : net.g.Edge p v) {r : Rel} (hr : net.rels.get? v = some r)
    (hnt : r.isTab = false) : (net'.set v r).2 = .error .attribute := by
  obtain ⟨n, h1, hw⟩ := C90_remove hn hk
  rw [h] at h1
  cases h1
  have hv := (hG.wf.edgeNodes p v hpv).2
  obtain ⟨c, hc, _⟩ := hG.complete v hv
  obtain ⟨_, r', hr', hcomp⟩ := hG.reflects v c hc
  rw [hr] at hr'
  cases hr'
  have hg : net'.g = net.g := by show net'.m.g = _; rw [hw.m]
  have hvn : v ∈ (stage net' v r).g.nodes := by rw [stage_g, hg]; exact hv
  have hgp : (stage net' v r).g.parents v = net.g.parents v := by rw [stage_g, hg]
  have hd : ∀ p ∈ net.g.parents v, (stage net' v r).domain.get? p = net.domain.get? p := fun p _ => hw.domain p
  have hcard : mapPy (stage net' v r).card (net.g.parents v) = .error .attribute := by
    apply mapPy_card_error
    · intro q hq
      rw [stage_g, hg]
      exact (hG.wf.edgeNodes q v (mem_parents.1 hq)).1
    · refine ⟨p, mem_parents.2 hpv, ?_⟩
      rw [stage_cpds, hw.cpds, if_pos hp]
      simp
  have ht : (stage net' v r).toCpd v r = .error .attribute := by
    cases r with
    | tab c' => simp [Rel.isTab] at hnt
    | func f =>
      unfold toCpd
      simp only
      rw [if_pos hvn, hgp]
      exact mkCpd_card_error hcomp hd hcard
    | dist d =>
      unfold toCpd
      simp only
      rw [if_pos hvn, hgp]
      exact mkCpd_card_error hcomp hd hcard
    | seq l =>
      unfold toCpd
      simp only
      rw [if_pos hvn, hgp]
      exact mkCpd_card_error hcomp hd hcard
  unfold Net.set
  rcases setItem_cases net'.g.nodes.length net' v r with ⟨k, _⟩ | ⟨e, _, k, k'⟩ | ⟨c', k, _⟩
  · rw [ht] at k; simp at k
  · rw [ht] at k
    cases k
    rw [k']
  · rw [ht] at k; simp at k

/-! ### Example -/

/-- `A` and `B` of `A -> B`, `A, B -> C` are removed and added again -/
theorem C90_example : (ExSc.net 0).Usable ∧ ((ExSc.net 0).removeCpds ["B", "A"]).2 = .ok () ∧
    (((ExSc.net 0).removeCpds ["B", "A"]).1.addCpds [("A", .dist [(0, some (1 / 2)), (1, some (1 / 2))]), ("B", .func (ExSc.copying 0))]).2 = .ok () ∧
    (((ExSc.net 0).removeCpds ["B", "A"]).1.addCpds [("B", .func (ExSc.copying 0)), ("A", .dist [(0, some (1 / 2)), (1, some (1 / 2))])]).2 = .error .attribute ∧
    ((ExSc.net 0).removeCpds ["B", "Z"]).2 = .error .key :=
  ⟨ExSc.usable_sharp.1, by decide +kernel, by decide +kernel, by decide +kernel, by decide +kernel⟩

end Verif

import Verif.Props.RandomGame

/-!
# Adding edges for the recall of all agents (C79)
-/

namespace Verif

open Random Macid Graph

namespace Random

theorem joined {g mg : Graph} (h : Mech g mg) (pick : Pick) {d1 d2 u : Node} (h1 : d1 ∈ g.nodes) (h2 : d2 ∈ g.nodes) (hu : u ∈ g.nodes)
    (hs : ∀ Z n, (∀ z, z ∈ Z ↔ z = d2 ∨ g.Edge z d2) → n ∉ g.nodes → ¬ (g.withParent n d1).DConn n u Z) :
    isDConnected pick mg (mec d1) u (mg.parents d2 ++ [d2]) = .ok false := by
  have hZ : ∀ z, z ∈ d2 :: g.parents d2 ↔ z = d2 ∨ g.Edge z d2 := by
    intro z
    simp [mem_parents]
  have hZn : ∀ z ∈ d2 :: g.parents d2, z ∈ g.nodes := by
    intro z hz
    rcases (hZ z).1 hz with rfl | he
    · exact h2
    · exact (h.wf.edgeNodes _ _ he).1
  have hsrc : mec d1 ∈ mg.nodes := (h.nodes _).2 (Or.inr ⟨d1, h1, rfl⟩)
  have hz' : ∀ z ∈ mg.parents d2 ++ [d2], z ∈ mg.nodes := by
    intro z hz
    simp only [List.mem_append, List.mem_singleton] at hz
    rcases hz with hz | rfl
    · exact (h.mwf.edgeNodes _ _ (mem_parents.1 hz)).1
    · exact (h.nodes _).2 (Or.inl h2)
  obtain ⟨b, hb1, hb2⟩ := C08_is_dconnected mg h.mwf pick (mec d1) u _ hsrc hz'
  rw [hb1]
  cases b
  · rfl
  exfalso
  have hn : mec d1 ∉ g.nodes := h.mec_not h1
  apply hs (d2 :: g.parents d2) (mec d1) hZ hn
  apply ((sourceExt_withParent hn h1).dconn_iff h.wf ⟨rfl, rfl⟩ hu hZn).2
  apply (h.ext.dconn_iff h.wf ⟨h1, rfl⟩ hu hZn).1
  have hsub : ∀ z, z ∈ d2 :: g.parents d2 → z ∈ mg.parents d2 ++ [d2] := by
    intro z hz
    simp only [List.mem_append, mem_parents, h.edge, List.mem_singleton]
    rcases (hZ z).1 hz with rfl | he
    · exact Or.inr rfl
    · exact Or.inl (Or.inl he)
  obtain ⟨k1, k2, p, k3, k4⟩ := hb2.1 rfl
  refine ⟨fun hz => k1 (hsub _ hz), fun hz => k2 (hsub _ hz), p, k3, ?_⟩
  rintro l a v c r rfl
  obtain ⟨q1, q2⟩ := k4 l a v c r rfl
  refine ⟨fun hc => ?_, fun hc hz => q2 hc (hsub _ hz)⟩
  obtain ⟨z, hz, hd⟩ := q1 hc
  refine ⟨z, ?_, hd⟩
  have hzn : z ∈ g.nodes := by
    have hv := h.inner k3
    exact descEq_mem h.wf ((h.descEq hv).1 hd) hv
  simp only [List.mem_append, mem_parents, h.edge, List.mem_singleton] at hz
  apply (hZ z).2
  rcases hz with (he | ⟨_, rfl⟩) | rfl
  · exact Or.inr he
  · exact absurd hzn (h.mec_not h2)
  · exact Or.inl rfl

theorem not_back {g : Graph} (hw : g.WF) {x y : Node} (hne : x ≠ y) (h : g.DescEq x y) : ¬ g.DescEq y x := by
  intro h'
  rcases Relation.reflTransGen_iff_eq_or_transGen.1 h with e | ht
  · exact hne e.symm
  · exact hw.acyclic x (ht.trans_left h')

theorem add_untouched {pick : Pick} {ord : SetOrder} {mb : Macid} {d1 d2 u : Node} {ω : Draws} (hw : mb.g.WF) (hn : NamesOk mb.g)
    (h1 : d1 ∈ mb.g.nodes) (h2 : d2 ∈ mb.g.nodes) (hu : u ∈ mb.g.nodes) (hd : ¬ mb.g.DescEq d2 d1)
    (hs : ∀ Z n, (∀ z, z ∈ Z ↔ z = d2 ∨ mb.g.Edge z d2) → n ∉ mb.g.nodes → ¬ (mb.g.withParent n d1).DConn n u Z) :
    addSufficientRecall pick ord mb d1 d2 u ω = some (.ok (mb, ω)) := by
  obtain ⟨mg, hM, e⟩ := recall_unfold (pick := pick) (ord := ord) (u := u) hw hn h1 hd
  rw [e, recallRounds, joined hM pick h1 h2 hu hs]

theorem pair_untouched {pick : Pick} {ord : SetOrder} {mb : Macid} (hc : mb.Consistent) (hn : NamesOk mb.g) {a : Agent} {u d1 d2 : Node} {ω : Draws}
    (hu : mb.role u = .utility a) (h1 : mb.role d1 = .decision a) (h2 : mb.role d2 = .decision a) (hne : d1 ≠ d2)
    (k1 : ¬ mb.g.DescEq d2 d1 → ¬ mb.RReach d2 d1) (k2 : ¬ mb.g.DescEq d1 d2 → ¬ mb.RReach d1 d2) :
    recallPair pick ord mb u d1 d2 ω = some (.ok (mb, ω)) := by
  have m1 : d1 ∈ mb.g.nodes := hc.nodes _ (Or.inl (mem_decisions.2 ⟨a, role_decision.1 h1⟩))
  have m2 : d2 ∈ mb.g.nodes := hc.nodes _ (Or.inl (mem_decisions.2 ⟨a, role_decision.1 h2⟩))
  have mu : u ∈ mb.g.nodes := hc.nodes _ (Or.inr (mem_utilities.2 ⟨a, (role_utility hc).1 hu⟩))
  have hanc : ∀ x y, x ∈ mb.g.ancestorsOf [y] ↔ mb.g.DescEq x y := by
    intro x y
    rw [Graph.mem_ancestorsOf hc.wf]
    simp
  unfold recallPair
  rw [if_neg (by simpa using m2)]
  by_cases hd : mb.g.DescEq d1 d2
  · rw [if_pos ((hanc _ _).2 hd)]
    by_cases hu' : u ∈ mb.g.descendants d2
    · rw [if_pos hu']
      have hd' : ¬ mb.g.DescEq d2 d1 := not_back hc.wf hne hd
      exact add_untouched hc.wf hn m1 m2 mu hd' fun Z n hZ hn' hD => k1 hd' ⟨a, u, h2, hu, (mem_descendants hc.wf).1 hu', Z, n, hZ, hn', hD⟩
    · rw [if_neg hu']
  · rw [if_neg (fun h => hd ((hanc _ _).1 h)), if_neg (by simpa using m1)]
    by_cases hu' : u ∈ mb.g.descendants d1
    · rw [if_pos hu']
      exact add_untouched hc.wf hn m2 m1 mu hd fun Z n hZ hn' hD => k2 hd ⟨a, u, h1, hu, (mem_descendants hc.wf).1 hu', Z, n, hZ, hn', hD⟩
    · rw [if_neg hu']

theorem triples_untouched {pick : Pick} {ord : SetOrder} {mb : Macid} {ω : Draws} : ∀ (ts : List (Node × Node × Node)),
    (∀ t ∈ ts, recallPair pick ord mb t.1 t.2.1 t.2.2 ω = some (.ok (mb, ω))) → recallTriples pick ord ts mb ω = some (.ok (mb, ω))
  | [], _ => rfl
  | (u, d1, d2) :: ts, h => by
    rw [recallTriples, h (u, d1, d2) (by simp)]
    exact triples_untouched ts (fun t ht => h t (by simp [ht]))

theorem agents_untouched {pick : Pick} {ord : SetOrder} {mb : Macid} (hc : mb.Consistent) (hn : NamesOk mb.g) {ω : Draws}
    (hk : ∀ d1 d2 a, mb.role d1 = .decision a → mb.role d2 = .decision a → d1 ≠ d2 → ¬ mb.g.DescEq d2 d1 → ¬ mb.RReach d2 d1) :
    ∀ (as : List Agent), (∀ a ∈ as, a ∈ mb.agents ∧ a ∈ mb.agentDecisions.keys) → recallAgents pick ord as mb ω = some (.ok (mb, ω))
  | [], _ => rfl
  | a :: as, h => by
    obtain ⟨us, hu⟩ := Dict.mem_keys.1 (h a (by simp)).1
    obtain ⟨ds, hd⟩ := Dict.mem_keys.1 (h a (by simp)).2
    have ht : recallTriples pick ord (us.flatMap (fun u => (pairs ds).map (fun p => (u, p.1, p.2)))) mb ω = some (.ok (mb, ω)) := by
      apply triples_untouched
      rintro ⟨u, d1, d2⟩ ht
      simp only [List.mem_flatMap, List.mem_map, Prod.mk.injEq, Prod.exists] at ht
      obtain ⟨u', hu', a1, b1, hp, rfl, rfl, rfl⟩ := ht
      obtain ⟨m1, m2, m3⟩ := mem_pairs (hc.dec.nodup a ds hd) hp
      have r1 : mb.role a1 = .decision a := role_decision.2 ((hc.dec.iff a1 a).2 ⟨ds, hd, m1⟩)
      have r2 : mb.role b1 = .decision a := role_decision.2 ((hc.dec.iff b1 a).2 ⟨ds, hd, m2⟩)
      exact pair_untouched hc hn ((role_utility hc).2 ((hc.util.iff u' a).2 ⟨us, hu, hu'⟩)) r1 r2 m3 (hk _ _ a r1 r2 m3) (hk _ _ a r2 r1 m3.symm)
    rw [recallAgents, Dict.get_ok.2 hd, Dict.get_ok.2 hu]
    simp only [ht]
    exact agents_untouched hc hn hk as (fun a' ha' => h a' (by simp [ha']))

end Random

/-- **C79** `_add_sufficient_recalls` leaves a game as it is, and draws nothing, if no decision relies on another decision of the same
agent that comes before it or is unordered with it. -/
theorem C79_untouched (pick : Pick) (ord : SetOrder) {mb : Macid} (hc : mb.Consistent) (hn : NamesOk mb.g) (ω : Draws)
    (ha : ∀ a ∈ mb.agents, a ∈ mb.agentDecisions.keys)
    (hk : ∀ d1 d2 a, mb.role d1 = .decision a → mb.role d2 = .decision a → d1 ≠ d2 → ¬ mb.g.DescEq d2 d1 → ¬ mb.RReach d2 d1) :
    recallAgents pick ord mb.agents mb ω = some (.ok (mb, ω)) :=
  agents_untouched hc hn hk _ (fun a h => ⟨h, ha a h⟩)

/-- **C79** What is true instead: a single agent with two decisions and one utility node has sufficient
recall if `_add_sufficient_recalls` returns, whatever is drawn. -/
theorem C79_two_decisions (pick pick' : Pick) (tpick : List Node → Nat) {ord : SetOrder} (ho : ord.Valid) {mb mb' : Macid} (hc : mb.Consistent)
    (hn : NamesOk mb.g) {a : Agent} {d1 d2 u : Node} {ω ω' : Draws} (hd : mb.agentDecisions.get? a = some [d1, d2])
    (hu : mb.agentUtilities = [(a, [u])])
    (h : recallAgents pick ord mb.agents mb ω = some (.ok (mb', ω'))) :
    sufficientRecall pick' tpick mb' (some a) = .ok true := by
  have hag : mb.agents = [a] := by
    unfold Macid.agents Dict.keys
    rw [hu]
    rfl
  have hu' : mb.agentUtilities.get? a = some [u] := by
    rw [hu]
    simp [Dict.get?]
  rw [hag, recallAgents, Dict.get_ok.2 hd, Dict.get_ok.2 hu'] at h
  simp only [pairs, List.map_cons, List.map_nil, List.append_nil, List.flatMap_cons, List.flatMap_nil, recallTriples, recallAgents] at h
  have hp : recallPair pick ord mb u d1 d2 ω = some (.ok (mb', ω')) := by
    revert h
    cases recallPair pick ord mb u d1 d2 ω with
    | none => simp
    | some r =>
      cases r with
      | error e => simp
      | ok p => simp
  clear h
  have hne : d1 ≠ d2 := by
    have := hc.dec.nodup a _ hd
    simp at this
    exact this
  have r1 : mb.role d1 = .decision a := role_decision.2 ((hc.dec.iff d1 a).2 ⟨_, hd, by simp⟩)
  have r2 : mb.role d2 = .decision a := role_decision.2 ((hc.dec.iff d2 a).2 ⟨_, hd, by simp⟩)
  have m1 : d1 ∈ mb.decisions := mem_decisions.2 ⟨a, role_decision.1 r1⟩
  have m2 : d2 ∈ mb.decisions := mem_decisions.2 ⟨a, role_decision.1 r2⟩
  have mu : u ∈ mb.g.nodes := hc.nodes _ (Or.inr (mem_utilities.2 ⟨a, (hc.util.iff u a).2 ⟨_, hu', by simp⟩⟩))
  have hk := pair_kept ho hc.wf hn mu (fun v hv => hc.nodes v (Or.inl hv)) m1 m2 hp
  have hc' : mb'.Consistent := by
    have e := hk.same
    refine ⟨hk.wf, ?_, ?_, ?_, ?_⟩
    · rw [e]; exact hc.dec
    · rw [e]; exact hc.util
    · rw [e]; exact hc.disj
    · rw [hk.nodes, e]; exact hc.nodes
  have hn' : NamesOk mb'.g := ⟨by rw [hk.nodes]; exact hn.1, by rw [hk.nodes]; exact hn.2⟩
  have hd' : mb'.agentDecisions.get? a = some [d1, d2] := by rw [hk.same]; exact hd
  have ha' : a ∈ mb'.agents := by
    rw [hk.same]
    show a ∈ mb.agents
    simp [hag]
  obtain ⟨b, hb1, hb2⟩ := (C19_sufficient_recall_agent mb' hc' hn' pick' tpick a).1 ha' _ hd'
  rw [hb1, hb2.2]
  have hutil : ∀ v a', mb'.role v = .utility a' → v = u := by
    intro v a' hv
    obtain ⟨l, hl, hm⟩ := (hc'.util.iff v a').1 ((role_utility hc').1 hv)
    have : mb'.agentUtilities = [(a, [u])] := by rw [hk.same]; exact hu
    rw [this] at hl
    simp only [Dict.get?] at hl
    split at hl
    · cases hl
      simpa using hm
    · simp at hl
  -- one of the two does not rely on the other
  have key : ¬ mb'.RReach d2 d1 ∨ ¬ mb'.RReach d1 d2 := by
    have hanc : ∀ x y, x ∈ mb.g.ancestorsOf [y] ↔ mb.g.DescEq x y := by
      intro x y
      rw [Graph.mem_ancestorsOf hc.wf]
      simp
    have close : ∀ x y, (addSufficientRecall pick ord mb x y u ω = some (.ok (mb', ω'))) → y ∈ mb.g.nodes → ¬ mb'.RReach y x := by
      rintro x y h hy ⟨a', v, _, hv, _, Z, n, hZ, hnn, hD⟩
      cases hutil _ _ hv
      exact (C73_add_sufficient_recall ho hc.wf hn hy mu h).1 Z n hZ hnn hD
    have apart : ∀ x y, u ∉ mb.g.descendants y → mb' = mb → ¬ mb'.RReach y x := by
      rintro x y hu1 rfl ⟨a', v, _, hv, hde, _⟩
      cases hutil _ _ hv
      exact hu1 ((mem_descendants hc.wf).2 hde)
    unfold recallPair at hp
    rw [if_neg (by simpa using hc.nodes _ (Or.inl m2))] at hp
    split at hp
    · left
      split at hp
      · exact close _ _ hp (hc.nodes _ (Or.inl m2))
      · rename_i h1
        simp only [Option.some.injEq, Except.ok.injEq, Prod.mk.injEq] at hp
        exact apart _ _ h1 hp.1.symm
    · right
      rw [if_neg (by simpa using hc.nodes _ (Or.inl m1))] at hp
      split at hp
      · exact close _ _ hp (hc.nodes _ (Or.inl m1))
      · rename_i h1
        simp only [Option.some.injEq, Except.ok.injEq, Prod.mk.injEq] at hp
        exact apart _ _ h1 hp.1.symm
  have step : ∀ x y, (x ∈ [d1, d2] ∧ y ∈ [d1, d2] ∧ x ≠ y ∧ mb'.RReach x y) → (x = d1 ∧ y = d2 ∧ mb'.RReach d1 d2) ∨ (x = d2 ∧ y = d1 ∧ mb'.RReach d2 d1) := by
    rintro x y ⟨hx, hy, hxy, hr⟩
    simp only [List.mem_cons, List.not_mem_nil, or_false] at hx hy
    rcases hx with rfl | rfl <;> rcases hy with rfl | rfl
    · exact absurd rfl hxy
    · exact Or.inl ⟨rfl, rfl, hr⟩
    · exact Or.inr ⟨rfl, rfl, hr⟩
    · exact absurd rfl hxy
  intro d ht
  rcases key with hk' | hk'
  · have : ∀ x y, Relation.TransGen (fun a b => a ∈ [d1, d2] ∧ b ∈ [d1, d2] ∧ a ≠ b ∧ mb'.RReach a b) x y → x = d1 ∧ y = d2 := by
      intro x y h
      induction h with
      | single h => rcases step _ _ h with ⟨e1, e2, _⟩ | ⟨_, _, h⟩; exacts [⟨e1, e2⟩, absurd h hk']
      | tail _ h ih => rcases step _ _ h with ⟨_, e2, _⟩ | ⟨_, _, h⟩; exacts [⟨ih.1, e2⟩, absurd h hk']
    exact hne ((this _ _ ht).1.symm.trans (this _ _ ht).2)
  · have : ∀ x y, Relation.TransGen (fun a b => a ∈ [d1, d2] ∧ b ∈ [d1, d2] ∧ a ≠ b ∧ mb'.RReach a b) x y → x = d2 ∧ y = d1 := by
      intro x y h
      induction h with
      | single h => rcases step _ _ h with ⟨_, _, h⟩ | ⟨e1, e2, _⟩; exacts [absurd h hk', ⟨e1, e2⟩]
      | tail _ h ih => rcases step _ _ h with ⟨_, _, h⟩ | ⟨_, e2, _⟩; exacts [absurd h hk', ⟨ih.1, e2⟩]
    exact hne ((this _ _ ht).2.symm.trans (this _ _ ht).1)

/-- two decisions, the first of which has a utility that the second cannot influence -/
def exApart : Macid :=
  ⟨⟨["D1", "X", "D2", "U1", "U2"], [("D1", "X"), ("X", "D2"), ("D1", "U1"), ("D2", "U2")]⟩, [(0, ["D1", "D2"])], [(0, ["U1", "U2"])],
    [("D1", 0), ("D2", 0)], [("U1", 0), ("U2", 0)]⟩

/-- nothing is added, although the mechanism of the first decision is not separated from its utility -/
theorem C79_untouched_example : recallAgents (fun _ _ => 0) SetOrder.id exApart.agents exApart [3, 1] = some (.ok (exApart, [3, 1])) ∧
    addSufficientRecall (fun _ _ => 0) SetOrder.id exApart "D1" "D2" "U1" [3, 1] ≠ some (.ok (exApart, [3, 1])) ∧
    exApart.sufficientRecall (fun _ _ => 0) (fun _ => 0) (some 0) = .ok true ∧ (∀ a ∈ exApart.agents, a ∈ exApart.agentDecisions.keys) := by
  refine ⟨by decide +kernel, by decide +kernel, by decide +kernel, by decide +kernel⟩

/-- two decisions that both affect the utility: an edge is added and there is sufficient recall -/
theorem C79_two_decisions_example :
    let mb : Macid := ⟨⟨["D1", "D2", "U"], [("D1", "U"), ("D2", "U")]⟩, [(0, ["D1", "D2"])], [(0, ["U"])], [("D1", 0), ("D2", 0)], [("U", 0)]⟩
    recallAgents (fun _ _ => 0) SetOrder.id mb.agents mb [0] = some (.ok ({ mb with g := ⟨["D1", "D2", "U"], [("D1", "U"), ("D2", "U"), ("D2", "D1")]⟩ }, [])) ∧
    mb.sufficientRecall (fun _ _ => 0) (fun _ => 0) (some 0) = .ok false := by
  intro mb
  refine ⟨by decide +kernel, by decide +kernel⟩

end Verif

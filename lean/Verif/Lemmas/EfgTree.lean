import Verif.Lemmas.EfgGrow

/-!
# The finished game tree
-/

namespace Verif
open Relation Graph Macid Net BN

theorem zip_map_self {α β : Type} (l : List α) (f : α → β) : l.zip (l.map f) = l.map (fun x => (x, f x)) := by
  induction l with
  | nil => rfl
  | cons v vs ih => simp only [List.map_cons, List.zip_cons_cons, ih]

namespace Net

theorem leafPayoffs_ok {net : Net} (hG : Good net) (hN : net.Normalised) (hj : Joined net.g) {pick : Pick} {ord : List Node → List Node}
    (hord : ∀ l, (ord l).Perm l) {ctx : List (Node × Outcome)} : ∀ {as : List Agent} {net' : Net} {rs : List Rat},
    leafPayoffs pick ord ctx net as = (net', .ok rs) →
    net' = net ∧ rs = as.map (net.Worth ctx) ∧ (as ≠ [] → net.P (Ctx ctx) ≠ 0)
  | [], net', rs, h => by
    simp only [leafPayoffs, Prod.mk.injEq, Except.ok.injEq] at h
    exact ⟨h.1.symm, h.2.symm, fun h => absurd rfl h⟩
  | a :: as, net', rs, h => by
    unfold leafPayoffs at h
    generalize hg : net.expectedUtility pick ord ctx [] a = x at h
    obtain ⟨n1, y⟩ := x
    cases y with
    | error e => simp at h
    | ok r =>
      simp only at h
      obtain ⟨hn1, hr, hpos⟩ := expectedUtility_plain hG hN hj hord hg
      rw [hn1] at h
      generalize hg' : leafPayoffs pick ord ctx net as = x at h
      obtain ⟨n2, y⟩ := x
      cases y with
      | error e => simp at h
      | ok rs' =>
        simp only [Prod.mk.injEq, Except.ok.injEq] at h
        obtain ⟨k1, k2, _⟩ := leafPayoffs_ok hG hN hj hord hg'
        exact ⟨h.1 ▸ k1, by rw [← h.2, hr, k2]; rfl, fun _ => hpos⟩

/-- the loop over the leaves -/
theorem payoffs_spec {net : Net} (hG : Good net) (hN : net.Normalised) (hj : Joined net.g) {pick : Pick} {ord : List Node → List Node}
    (hord : ∀ l, (ord l).Perm l) {agents : List Agent} : ∀ (is : List (List Nat)) {net' : Net} {t t' : Efg}, is.Nodup →
    loopNet (addPayoff pick ord agents) net t is = (net', .ok t') →
    net' = net ∧ t' = { t with payoffs := t'.payoffs } ∧
    (∀ idx, idx ∈ is → t'.payoffs.get? idx = some (agents.map (net.Worth ((t.states.get? idx).getD []))) ∧
      (agents ≠ [] → net.P (Ctx ((t.states.get? idx).getD [])) ≠ 0)) ∧
    (∀ idx, idx ∉ is → t'.payoffs.get? idx = t.payoffs.get? idx)
  | [], net', t, t', _, h => by
    simp only [loopNet, Prod.mk.injEq, Except.ok.injEq] at h
    obtain ⟨rfl, rfl⟩ := h
    simp
  | idx :: is, net', t, t', hn, h => by
    unfold loopNet at h
    generalize hg : addPayoff pick ord agents net t idx = x at h
    obtain ⟨n1, y⟩ := x
    cases y with
    | error e => simp at h
    | ok t1 =>
      simp only at h
      unfold addPayoff at hg
      split at hg
      · simp at hg
      · generalize hl : leafPayoffs pick ord ((t.states.get? idx).getD []) net agents = z at hg
        obtain ⟨n2, w⟩ := z
        cases w with
        | error e => simp at hg
        | ok rs =>
          simp only [Prod.mk.injEq, Except.ok.injEq] at hg
          obtain ⟨k1, k2, k3⟩ := leafPayoffs_ok hG hN hj hord hl
          obtain ⟨g1, g2⟩ := hg
          rw [← g1, k1] at h
          rw [List.nodup_cons] at hn
          obtain ⟨j1, j2, j3, j4⟩ := payoffs_spec hG hN hj hord is hn.2 h
          subst g2
          refine ⟨j1, j2, ?_, ?_⟩
          · intro idx' hidx'
            by_cases e : idx' = idx
            · subst e
              rw [j4 idx' hn.1, Dict.get?_set, if_pos rfl, k2]
              exact ⟨rfl, k3⟩
            · have := j3 idx' (by simpa [e] using hidx')
              exact this
          · intro idx' hidx'
            simp only [List.mem_cons, not_or] at hidx'
            rw [j4 idx' hidx'.2, Dict.get?_set, if_neg hidx'.1]

theorem macidToEfg_spec {net net' : Net} (hG : Good net) (hN : net.Normalised) (hj : Joined net.g) {pick : Pick} {tpick : List Node → Nat}
    {ord : List Node → List Node} (hord : ∀ l, (ord l).Perm l) {decs : List Node} {agents : List Agent} {t : Efg}
    (h : macidToEfg pick tpick ord net decs agents = (net', .ok t)) :
    net' = net ∧ ∃ nodes, nodes.Nodup ∧ (∀ v, v ∈ nodes ↔ v ∈ decs ∨ ∃ d ∈ decs, net.g.Edge v d) ∧ (∀ v ∈ nodes, v ∈ net.g.nodes) ∧
      nodes.Pairwise (fun a b => ¬ net.g.Desc b a) ∧ IsTree net decs agents nodes t ∧ Labelled net decs t := by
  unfold macidToEfg at h
  split at h
  · simp at h
  · rename_i hall
    have hdn : ∀ d ∈ decs, d ∈ net.g.nodes := by
      intro d hd
      rw [Bool.not_eq_false, List.all_eq_true] at hall
      simpa [Graph.hasNode] using hall d hd
    have hnn : ∀ v ∈ decs ++ decs.flatMap net.g.parents, v ∈ net.g.nodes := by
      intro v hv
      rcases List.mem_append.1 hv with h | h
      · exact hdn v h
      · obtain ⟨d, _, hvd⟩ := List.mem_flatMap.1 h
        exact (hG.wf.edgeNodes _ _ (Graph.mem_parents.1 hvd)).1
    obtain ⟨nodes, o1, o2, o3, o4⟩ := (C14_get_valid_order net.m hG.wf tpick (decs ++ decs.flatMap net.g.parents)).1 hnn
    rw [o1] at h
    simp only at h
    have hmem : ∀ v, v ∈ nodes ↔ v ∈ decs ∨ ∃ d ∈ decs, net.g.Edge v d := by
      intro v
      rw [o3, List.mem_append, List.mem_flatMap]
      simp only [Graph.mem_parents]
    have hnode : ∀ v ∈ nodes, v ∈ net.g.nodes := fun v hv => hnn v ((o3 v).1 hv)
    have hdoms : mapPy (fun v => net.domain.get v) nodes = .ok (nodes.map net.dom) := by
      apply mapPy_map
      intro v hv
      obtain ⟨c, hc, hd⟩ := hG.complete v (hnode v hv)
      rw [Dict.get_ok]
      unfold Net.dom
      rw [hd]; rfl
    rw [hdoms] at h
    simp only at h
    have hzip : nodes.zip ((nodes.map net.dom).map List.length) = nodes.map (fun v => (v, (net.dom v).length)) := by
      rw [List.map_map]
      exact zip_map_self nodes _
    rw [hzip] at h
    generalize hg : growNodes pick ord decs net ⟨agents, [], [], [], [], []⟩ [] (nodes.map (fun v => (v, (net.dom v).length))) = x at h
    obtain ⟨n1, y⟩ := x
    cases y with
    | error e => simp at h
    | ok t1 =>
      simp only at h
      have hstart : Grown net decs agents [] ⟨agents, [], [], [], [], []⟩ := by
        constructor <;> simp [Dict.get?]
      obtain ⟨e1, L, hL, hI⟩ := growNodes_grown hG hN hj hord nodes (pre := []) (L := []) (by simpa using o2) (by simpa using hnode) (by simp)
        (by intro vs v idx; simp) hstart hg
      rw [List.nil_append] at hL
      rw [e1] at h
      have hprod : (nodes.map net.dom).map (fun d => List.range d.length) = nodes.map (fun v => List.range (net.dom v).length) := by
        rw [List.map_map]; rfl
      rw [hprod] at h
      have hnd : (product (nodes.map (fun v => List.range (net.dom v).length))).Nodup := by
        apply nodup_product
        intro l hl
        obtain ⟨v, _, rfl⟩ := List.mem_map.1 hl
        exact List.nodup_range
      obtain ⟨p1, p2, p3, p4⟩ := payoffs_spec hG hN hj hord _ hnd h
      have hpl : t.players = t1.players := by rw [p2]
      have hmv : t.moves = t1.moves := by rw [p2]
      have hin : t.infosets = t1.infosets := by rw [p2]
      have hke : t.keys = t1.keys := by rw [p2]
      have hat : ∀ idx, idx ∈ product (nodes.map (fun v => List.range (net.dom v).length)) ↔ ∃ a : Assign, At net.dom nodes idx (nodes.map a) := by
        intro idx
        rw [at_product]
        constructor
        · rintro ⟨xs, hxs⟩
          obtain ⟨a, rfl⟩ := hxs.assign o2
          exact ⟨a, hxs⟩
        · rintro ⟨a, ha⟩
          exact ⟨_, ha⟩
      have hst : ∀ a idx, At net.dom nodes idx (nodes.map a) → (t1.states.get? idx).getD [] = Given nodes a := by
        intro a idx ha
        rcases List.eq_nil_or_concat nodes with e | ⟨vs', v', e⟩
        · subst e
          cases ha
          exact hI.root
        · rw [List.concat_eq_append] at e
          subst e
          obtain ⟨idx1, i1, xs1, x1, e1, e2, h1, h2⟩ := ha.unsnoc
          subst e1
          rw [List.map_append] at e2
          obtain ⟨e3, _⟩ := List.append_inj' e2 rfl
          exact hI.states vs' v' idx1 ((hL _ _ _).2 ⟨⟨[], rfl⟩, a, e3 ▸ h1⟩) i1 a ha
      have hdec : ∀ vs v post, nodes = vs ++ v :: post → v ∈ decs → ∀ a idx, At net.dom vs idx (vs.map a) →
          ∃ agent i s, net.m.role v = .decision agent ∧ agent ∈ agents ∧ t.moves.get? idx = some (.decision i) ∧
          t.infosets[i]? = some s ∧ s.player = agent ∧ t.keys.get? (agent, Given (net.g.parents v) a) = some i := by
        intro vs v post e hv a idx ha
        obtain ⟨mv, h1, h2⟩ := hI.moves vs v idx ((hL _ _ _).2 ⟨⟨post, e⟩, a, ha⟩) a ha
        rcases h2 with ⟨_, ag, i, h3, h4, rfl, h6⟩ | ⟨h2, _⟩
        · obtain ⟨s, s1, s2, _⟩ := hI.keysOk _ _ h6
          exact ⟨ag, i, s, role_decision.2 h3, h4, by rw [hmv]; exact h1, by rw [hin]; exact s1, s2, by rw [hke]; exact h6⟩
        · exact absurd hv h2
      have hclosed : ∀ vs v post, nodes = vs ++ v :: post → ∀ p, net.g.Edge p v → p ∈ vs := by
        intro vs v post e
        obtain ⟨a, ha, _⟩ := exists_inDom hG (fun _ => 0) (fun _ => False) (by simp)
        obtain ⟨idx, hidx⟩ := At.exists (dom := net.dom) (vs := vs) (a := a) (fun w hw => ha w (hnode w (by rw [e]; simp [hw])))
        exact hI.closed vs v idx ((hL _ _ _).2 ⟨⟨post, e⟩, a, hidx⟩)
      refine ⟨p1, nodes, o2, hmem, hnode, o4, ⟨?_, hclosed, ?_, hdec, ?_, ?_, ?_, ?_, ?_⟩, ?_⟩
      · rw [hpl, hI.players]
      · intro vs v post e hv a idx ha
        obtain ⟨mv, h1, h2⟩ := hI.moves vs v idx ((hL _ _ _).2 ⟨⟨post, e⟩, a, ha⟩) a ha
        rcases h2 with ⟨h2, _⟩ | ⟨_, rfl⟩
        · exact absurd h2 hv
        · rw [hmv]; exact h1
      · intro idx mv h1
        rw [hmv] at h1
        obtain ⟨vs, v, h2⟩ := hI.only idx mv h1
        obtain ⟨⟨post, h3⟩, a, h4⟩ := (hL _ _ _).1 h2
        exact ⟨vs, v, post, a, h3, h4⟩
      · intro a idx ha
        rw [(p3 idx ((hat idx).2 ⟨a, ha⟩)).1, hst a idx ha]
      · intro a idx ha
        rw [← hst a idx ha]
        by_cases hag : agents = []
        · have hde : decs = [] := by
            by_contra hne
            obtain ⟨d, hd⟩ := List.exists_mem_of_ne_nil _ hne
            obtain ⟨vs, post, e⟩ := List.append_of_mem ((hmem d).2 (Or.inl hd))
            have hin := ha.mem
            obtain ⟨idx', hidx'⟩ := At.exists (dom := net.dom) (vs := vs) (a := a) (fun w hw => hin w (by rw [e]; simp [hw]))
            obtain ⟨ag, _, _, _, h1, _⟩ := hdec vs d post e hd a idx' hidx'
            rw [hag] at h1
            simp at h1
          have hno : nodes = [] := by
            rw [List.eq_nil_iff_forall_not_mem]
            intro v hv
            have := (hmem v).1 hv
            rw [hde] at this
            simp at this
          rw [hst a idx ha, hno]
          have : net.P (Ctx (Given [] a)) = 1 := by
            rw [P_eq_W]
            have := W_one (bn_prob hG hN)
            simpa [Given, Ctx] using this
          rw [this]
          exact one_ne_zero
        · exact (p3 idx ((hat idx).2 ⟨a, ha⟩)).2 hag
      · intro idx r h1
        by_cases hidx : idx ∈ product (nodes.map (fun v => List.range (net.dom v).length))
        · exact (hat idx).1 hidx
        · rw [p4 idx hidx, hI.payoffs] at h1
          simp [Dict.get?] at h1
      · rw [hke]; exact hI.keysInj
      · intro k i
        rw [hke, hin]
        exact hI.keysOk k i

end Net
end Verif

import Verif.Lemmas.Efg

/-!
# Growing the game tree: the loops
-/

namespace Verif
open Relation Graph Macid Net BN

theorem addStates_spec (node : Node) (idx : List Nat) : ∀ (xs : List Outcome) (k : Nat) (t : Efg),
    (Efg.addStates node idx t k xs).players = t.players ∧ (Efg.addStates node idx t k xs).moves = t.moves ∧
    (Efg.addStates node idx t k xs).infosets = t.infosets ∧ (Efg.addStates node idx t k xs).keys = t.keys ∧
    (Efg.addStates node idx t k xs).payoffs = t.payoffs ∧
    (∀ n x, xs[n]? = some x → (Efg.addStates node idx t k xs).states.get? (idx ++ [k + n]) = some (((t.states.get? idx).getD []).set node x)) ∧
    (∀ j, (∀ n, j ≠ idx ++ [n]) → (Efg.addStates node idx t k xs).states.get? j = t.states.get? j) ∧
    (∀ n, n < k → (Efg.addStates node idx t k xs).states.get? (idx ++ [n]) = t.states.get? (idx ++ [n]))
  | [], k, t => by simp [Efg.addStates]
  | x :: xs, k, t => by
    unfold Efg.addStates
    obtain ⟨h1, h2, h3, h4, h5, h6, h7, h8⟩ := addStates_spec node idx xs (k + 1)
      { t with states := t.states.set (idx ++ [k]) (((t.states.get? idx).getD []).set node x) }
    have hne : idx ≠ idx ++ [k] := by simp
    refine ⟨h1, h2, h3, h4, h5, ?_, ?_, ?_⟩
    · intro n y hy
      cases n with
      | zero =>
        simp only [List.getElem?_cons_zero, Option.some.injEq] at hy
        subst hy
        have := h8 k (by omega)
        simp only [Nat.add_zero]
        rw [this]
        simp [Dict.get?_set]
      | succ n =>
        have := h6 n y (by simpa using hy)
        rw [show k + (n + 1) = k + 1 + n by omega, this]
        simp [Dict.get?_set]
    · intro j hj
      rw [h7 j hj]
      simp [Dict.get?_set, hj k]
    · intro n hn
      rw [h8 n (by omega)]
      have : n ≠ k := by omega
      simp [Dict.get?_set, this]

namespace Net

/-- a move as it should be -/
def MoveOk (net : Net) (decs : List Node) (agents : List Agent) (t : Efg) (v : Node) (a : Assign) (mv : Move) : Prop :=
  (v ∈ decs ∧ ∃ ag i, net.m.decisionAgent.get? v = some ag ∧ ag ∈ agents ∧ mv = .decision i ∧
    t.keys.get? (ag, Given (net.g.parents v) a) = some i) ∨
  (v ∉ decs ∧ mv = .chance (net.dom v) ((net.dom v).map (fun x => net.kernel v (Assign.upd a v x))))

/-- the tree after the positions `L` have been handled: nodes before, node, position -/
structure Grown (net : Net) (decs : List Node) (agents : List Agent) (L : List (List Node × Node × List Nat)) (t : Efg) : Prop where
  players : t.players = agents
  moves : ∀ vs v idx, (vs, v, idx) ∈ L → ∀ a, At net.dom vs idx (vs.map a) →
    ∃ mv, t.moves.get? idx = some mv ∧ MoveOk net decs agents t v a mv
  only : ∀ idx mv, t.moves.get? idx = some mv → ∃ vs v, (vs, v, idx) ∈ L
  root : (t.states.get? []).getD [] = []
  states : ∀ vs v idx, (vs, v, idx) ∈ L → ∀ i a, At net.dom (vs ++ [v]) (idx ++ [i]) ((vs ++ [v]).map a) →
    (t.states.get? (idx ++ [i])).getD [] = Given (vs ++ [v]) a
  shape : ∀ vs v idx, (vs, v, idx) ∈ L → ∃ a, At net.dom vs idx (vs.map a)
  closed : ∀ vs v idx, (vs, v, idx) ∈ L → ∀ p, net.g.Edge p v → p ∈ vs
  keysInj : ∀ k k' i, t.keys.get? k = some i → t.keys.get? k' = some i → k = k'
  keysOk : ∀ k i, t.keys.get? k = some i → ∃ s, t.infosets[i]? = some s ∧ s.player = k.1 ∧
    ∃ d a, d ∈ decs ∧ net.m.decisionAgent.get? d = some k.1 ∧ k.2 = Given (net.g.parents d) a ∧ s.label = d ∧
      (net.Distinct decs → s.actions = net.dom d)
  payoffs : t.payoffs = []

theorem MoveOk.mono {net : Net} {decs : List Node} {agents : List Agent} {t t' : Efg} {v : Node} {a : Assign} {mv : Move}
    (h : ∀ k i, t.keys.get? k = some i → t'.keys.get? k = some i) (hm : MoveOk net decs agents t v a mv) :
    MoveOk net decs agents t' v a mv := by
  rcases hm with ⟨h1, ag, i, h2, h3, h4, h5⟩ | hm
  · exact Or.inl ⟨h1, ag, i, h2, h3, h4, h _ _ h5⟩
  · exact Or.inr hm

/-- one more position -/
theorem Grown.extend {net : Net} {decs : List Node} {agents : List Agent} {L : List (List Node × Node × List Nat)} {t t1 : Efg}
    (hI : Grown net decs agents L t) {vs : List Node} {v : Node} {idx : List Nat} {a0 : Assign} (h0 : At net.dom vs idx (vs.map a0))
    (hv : v ∉ vs) (hst : (t.states.get? idx).getD [] = Given vs a0) (hp : ∀ p, net.g.Edge p v → p ∈ vs) {mv : Move}
    (hnone : t.moves.get? idx = none) (hpl : t1.players = t.players) (hmv : t1.moves = t.moves.set idx mv) (hs : t1.states = t.states)
    (hpay : t1.payoffs = t.payoffs) (hkm : ∀ k i, t.keys.get? k = some i → t1.keys.get? k = some i)
    (hok : ∀ a, At net.dom vs idx (vs.map a) → MoveOk net decs agents t1 v a mv)
    (hinj : ∀ k k' i, t1.keys.get? k = some i → t1.keys.get? k' = some i → k = k')
    (hkeys : ∀ k i, t1.keys.get? k = some i → ∃ s, t1.infosets[i]? = some s ∧ s.player = k.1 ∧
      ∃ d a, d ∈ decs ∧ net.m.decisionAgent.get? d = some k.1 ∧ k.2 = Given (net.g.parents d) a ∧ s.label = d ∧
        (net.Distinct decs → s.actions = net.dom d)) :
    Grown net decs agents (L ++ [(vs, v, idx)]) (Efg.addStates v idx t1 0 (net.dom v)) := by
  obtain ⟨s1, s2, s3, s4, s5, s6, s7, _⟩ := addStates_spec v idx (net.dom v) 0 t1
  have hL : ∀ vs' v' idx', (vs', v', idx') ∈ L → idx' ≠ idx := by
    rintro vs' v' idx' hm rfl
    obtain ⟨a, ha⟩ := hI.shape _ _ _ hm
    obtain ⟨mv', h1, _⟩ := hI.moves _ _ _ hm a ha
    rw [hnone] at h1
    cases h1
  constructor
  · rw [s1, hpl, hI.players]
  · intro vs' v' idx' hm a ha
    rw [s2, hmv, Dict.get?_set]
    rcases List.mem_append.1 hm with hm | hm
    · have hne := hL _ _ _ hm
      rw [if_neg hne]
      obtain ⟨mv', h1, h2⟩ := hI.moves _ _ _ hm a ha
      exact ⟨mv', h1, h2.mono (fun k i hk => by rw [s4]; exact hkm k i hk)⟩
    · simp only [List.mem_singleton, Prod.mk.injEq] at hm
      obtain ⟨rfl, rfl, rfl⟩ := hm
      rw [if_pos rfl]
      exact ⟨mv, rfl, (hok a ha).mono (fun k i hk => by rw [s4]; exact hk)⟩
  · intro idx' mv' h
    rw [s2, hmv, Dict.get?_set] at h
    by_cases e : idx' = idx
    · subst e
      exact ⟨vs, v, by simp⟩
    · rw [if_neg e] at h
      obtain ⟨vs', v', h'⟩ := hI.only _ _ h
      exact ⟨vs', v', by simp [h']⟩
  · rw [s7 [] (by intro n h; simp at h), hs]
    exact hI.root
  · intro vs' v' idx' hm i a ha
    rcases List.mem_append.1 hm with hm | hm
    · have hne := hL _ _ _ hm
      rw [s7 (idx' ++ [i]) (fun n e => hne (List.append_inj_left' e rfl)), hs]
      exact hI.states _ _ _ hm i a ha
    · simp only [List.mem_singleton, Prod.mk.injEq] at hm
      obtain ⟨rfl, rfl, rfl⟩ := hm
      obtain ⟨idx1, i1, xs1, x1, e1, e2, h1, h2⟩ := ha.unsnoc
      obtain ⟨rfl, e3⟩ := List.append_inj' e1 rfl
      simp only [List.cons.injEq, and_true] at e3
      subst e3
      rw [List.map_append] at e2
      obtain ⟨rfl, e4⟩ := List.append_inj' e2 rfl
      simp only [List.map_cons, List.map_nil, List.cons.injEq, and_true] at e4
      subst e4
      have := s6 i (a v') h2
      rw [Nat.zero_add] at this
      rw [this, Option.getD_some, hs, hst, given_inj (h0.functional h1), given_set hv, Assign.upd_self]
  · intro vs' v' idx' hm
    rcases List.mem_append.1 hm with hm | hm
    · exact hI.shape _ _ _ hm
    · simp only [List.mem_singleton, Prod.mk.injEq] at hm
      obtain ⟨rfl, rfl, rfl⟩ := hm
      exact ⟨a0, h0⟩
  · intro vs' v' idx' hm
    rcases List.mem_append.1 hm with hm | hm
    · exact hI.closed _ _ _ hm
    · simp only [List.mem_singleton, Prod.mk.injEq] at hm
      obtain ⟨rfl, rfl, rfl⟩ := hm
      exact hp
  · rw [s4]; exact hinj
  · rw [s4, s3]; exact hkeys
  · rw [s5, hpay, hI.payoffs]

theorem parentsActions_ok {net : Net} {t : Efg} {idx : List Nat} {v : Node} {vs : List Node} {a : Assign} {pa : List (Node × Outcome)}
    (hst : (t.states.get? idx).getD [] = Given vs a) (h : net.parentsActions t idx v = .ok pa) :
    v ∈ net.g.nodes ∧ (∀ p ∈ net.g.parents v, p ∈ vs) ∧ pa = Given (net.g.parents v) a := by
  unfold parentsActions at h
  split at h
  · simp at h
  · rename_i hv
    push Not at hv
    refine ⟨hv, ?_⟩
    rw [mapPy_ok_iff, hst] at h
    have key : ∀ {ps : List Node} {pa : List (Node × Outcome)}, List.Forall₂ (fun p y => (match Dict.get (Given vs a) p with
        | .error e => .error e
        | .ok x => .ok (p, x)) = (.ok y : Py (Node × Outcome))) ps pa → (∀ p ∈ ps, p ∈ vs) ∧ pa = Given ps a := by
      intro ps pa h
      induction h with
      | nil => simp [Given]
      | @cons p y ps pa hy _ ih =>
        cases hg : Dict.get (Given vs a) p with
        | error e => rw [hg] at hy; simp at hy
        | ok x =>
          rw [hg] at hy
          simp only [Except.ok.injEq] at hy
          have hg' := Dict.get_ok.1 hg
          rw [given_get] at hg'
          split at hg'
          · rename_i hp
            refine ⟨?_, ?_⟩
            · intro q hq
              rcases List.mem_cons.1 hq with rfl | hq
              · exact hp
              · exact ih.1 q hq
            · rw [← hy, ih.2, ← Option.some.inj hg']
              rfl
          · simp at hg'
    exact key h

/-- the probabilities of a chance move -/
theorem chance_probs {net : Net} (hG : Good net) (hN : net.Normalised) {vs : List Node} (hn : vs.Nodup) (hvs : ∀ w ∈ vs, w ∈ net.g.nodes)
    (hanc : ∀ u w, net.g.Edge u w → w ∈ vs → u ∈ vs) {v : Node} (hvn : v ∈ net.g.nodes) (hv : v ∉ vs)
    (hp : ∀ p, net.g.Edge p v → p ∈ vs) (a : Assign) {f : Factor} (hfv : f.vars = [v])
    (hf : IsConditional f [v] net.dom net.P (Ctx (Given (net.g.parents v) a)))
    (hnn : f.values.any Option.isNone = false) :
    f.values.map (fun y => y.getD 0) = (net.dom v).map (fun x => net.kernel v (Assign.upd a v x)) := by
  have hpos := conditional_pos hG (by simpa using hvn) hf hnn
  obtain ⟨_, hf2, hf3⟩ := hf
  rw [hf3, hf2, hfv]
  have hprod : product ([v].map net.dom) = (net.dom v).map (fun x => [x]) := by
    simp only [List.map_cons, List.map_nil, product]
    induction net.dom v with
    | nil => rfl
    | cons x xs ih => simp [List.flatMap_cons, ih]
  rw [hprod, List.map_map, List.map_map]
  apply List.map_congr_left
  intro x hx
  simp only [Function.comp, if_neg hpos, Option.getD_some]
  rw [div_eq_iff hpos, P_eq_W, P_eq_W]
  have hdep : DependsOn (fun b : Assign => if Ctx (Given (net.g.parents v) a) b then (1 : Rat) else 0) (· ∈ vs) := by
    intro b b' hbb
    have := ctx_depends (Given (net.g.parents v) a) b b' (fun w hw => hbb w (by
      simp only [Given, List.map_map, Function.comp_def, List.map_id'] at hw
      exact hp w (Graph.mem_parents.1 hw)))
    simp only [this]
  have := W_family (bn_prob hG hN) hn hvs hanc hvn hv hp (dom_props hG hvn).1 hx hdep
    (c := net.kernel v (Assign.upd a v x)) (fun b hb => by
      apply kernel_depends hG hvn
      rintro w (rfl | hw)
      · simp [Assign.upd]
      · have hwv : w ≠ v := fun e => hv (e ▸ hp w hw)
        rw [Assign.upd_ne _ _ hwv, Assign.upd_ne _ _ hwv]
        by_contra hne
        apply hb
        rw [if_neg]
        intro hc
        simp only [Ctx, Given, List.all_map, List.all_eq_true, Function.comp, decide_eq_true_eq] at hc
        exact hne (hc w (Graph.mem_parents.2 hw)))
  rw [← this]
  congr 1
  funext b
  simp only [Has, List.map_cons, List.map_nil, List.cons.injEq, and_true]
  by_cases e : b v = x <;> simp [e]

theorem appendMove_ok {t t' : Efg} {idx : List Nat} {mv : Move} (h : t.appendMove idx mv = .ok t') :
    t.moves.get? idx = none ∧ t' = { t with moves := t.moves.set idx mv } := by
  unfold Efg.appendMove at h
  split at h
  · simp at h
  · rename_i hn
    exact ⟨hn, by simpa using h.symm⟩

theorem growAt_grown {net net' : Net} (hG : Good net) (hN : net.Normalised) (hj : Joined net.g) {pick : Pick} {ord : List Node → List Node}
    (hord : ∀ l, (ord l).Perm l) {decs : List Node} {agents : List Agent} {L : List (List Node × Node × List Nat)} {t t' : Efg}
    (hI : Grown net decs agents L t) {vs : List Node} {v : Node} {idx : List Nat} {a0 : Assign} (h0 : At net.dom vs idx (vs.map a0))
    (hn : vs.Nodup) (hvs : ∀ w ∈ vs, w ∈ net.g.nodes) (hanc : ∀ u w, net.g.Edge u w → w ∈ vs → u ∈ vs)
    (hv : v ∉ vs) (hst : (t.states.get? idx).getD [] = Given vs a0) (h : growAt pick ord decs v net t idx = (net', .ok t')) :
    net' = net ∧ Grown net decs agents (L ++ [(vs, v, idx)]) t' := by
  unfold growAt at h
  split at h
  · simp at h
  · cases hpa : net.parentsActions t idx v with
    | error e => rw [hpa] at h; simp at h
    | ok pa =>
      rw [hpa] at h
      simp only at h
      obtain ⟨hvn, hps, rfl⟩ := parentsActions_ok hst hpa
      have hp : ∀ p, net.g.Edge p v → p ∈ vs := fun p hp => hps p (Graph.mem_parents.2 hp)
      have hgiven : ∀ a : Assign, At net.dom vs idx (vs.map a) → Given (net.g.parents v) a = Given (net.g.parents v) a0 := by
        intro a ha
        have := List.map_inj_left.1 (h0.functional ha)
        exact given_inj (List.map_congr_left (fun p hp => (this p (hps p hp)).symm))
      obtain ⟨c, hc, hd⟩ := hG.complete v hvn
      have hdv : net.domain.get v = .ok (net.dom v) := by
        rw [Dict.get_ok]
        unfold Net.dom
        rw [hd]; rfl
      split at h
      · rename_i hdec
        cases hag : net.m.decisionAgent.get v with
        | error e => rw [hag] at h; simp at h
        | ok ag =>
          rw [hag] at h
          simp only at h
          have hag' := Dict.get_ok.1 hag
          split at h
          · simp at h
          · rename_i hagp
            push Not at hagp
            rw [hI.players] at hagp
            rw [hdv] at h
            simp only [Prod.mk.injEq] at h
            refine ⟨h.1.symm, ?_⟩
            have h := h.2
            unfold Efg.decideAt at h
            split at h
            · rename_i i hk
              split at h
              · simp at h
              · rename_i t1 ht1
                obtain ⟨hnone, rfl⟩ := appendMove_ok ht1
                simp only at h
                split at h
                · simp at h
                · rename_i s hs
                  split at h
                  · simp at h
                  · rename_i hlen
                    simp only [Except.ok.injEq] at h
                    rw [← h]
                    refine hI.extend h0 hv hst hp hnone rfl rfl rfl rfl (fun k i hk => hk) (fun a ha => Or.inl ⟨hdec, ag, i, hag', hagp, rfl, ?_⟩)
                      hI.keysInj ?_
                    · rw [hgiven a ha]; exact hk
                    · intro k j hkj
                      obtain ⟨s', h1, h2, d, a, h3, h4, h5, h6, h7⟩ := hI.keysOk k j hkj
                      simp only
                      by_cases e : i = j
                      · subst e
                        rw [hs] at h1
                        cases h1
                        have hk' := hI.keysInj _ _ _ hkj hk
                        refine ⟨{ s with actions := net.dom v ++ s.actions.drop (net.dom v).length }, ?_, h2, d, a, h3, h4, h5, h6, fun hdist => ?_⟩
                        · rw [List.getElem?_set_self' , hs]; rfl
                        · have hpar : net.g.parents d = net.g.parents v := by
                            rw [hk'] at h5
                            exact (given_eq_map h5).1.symm
                          have hdv : d = v := hdist d h3 v hdec (by rw [h4, hag', hk']) hpar
                          subst hdv
                          simp [h7 hdist]
                      · rw [List.getElem?_set_ne e]
                        exact ⟨s', h1, h2, d, a, h3, h4, h5, h6, h7⟩
            · rename_i hk
              simp only at h
              split at h
              · simp at h
              · rename_i t1 ht1
                obtain ⟨hnone, rfl⟩ := appendMove_ok ht1
                simp only [Except.ok.injEq] at h
                rw [← h]
                have hlt : ∀ k i, t.keys.get? k = some i → i < t.infosets.length := by
                  intro k i hki
                  obtain ⟨s, h1, _⟩ := hI.keysOk k i hki
                  exact (List.getElem?_eq_some_iff.1 h1).1
                refine hI.extend h0 hv hst hp hnone rfl rfl rfl rfl (fun k i hki => ?_)
                  (fun a ha => Or.inl ⟨hdec, ag, t.infosets.length, hag', hagp, rfl, ?_⟩) ?_ ?_
                · simp only
                  rw [Dict.get?_set, if_neg]
                  · exact hki
                  · rintro rfl
                    rw [hk] at hki
                    cases hki
                · simp only
                  rw [hgiven a ha, Dict.get?_set, if_pos rfl]
                · intro k k' i h1 h2
                  simp only [Dict.get?_set] at h1 h2
                  split at h1 <;> split at h2
                  · simp_all
                  · have := hlt _ _ h2
                    simp only [Option.some.injEq] at h1
                    omega
                  · have := hlt _ _ h1
                    simp only [Option.some.injEq] at h2
                    omega
                  · exact hI.keysInj _ _ _ h1 h2
                · intro k i hki
                  simp only [Dict.get?_set] at hki
                  split at hki
                  · rename_i e
                    subst e
                    simp only [Option.some.injEq] at hki
                    subst hki
                    refine ⟨⟨ag, v, net.dom v⟩, by simp, rfl, v, a0, hdec, hag', rfl, rfl, fun _ => rfl⟩
                  · obtain ⟨s, h1, h2⟩ := hI.keysOk k i hki
                    refine ⟨s, ?_, h2⟩
                    rw [List.getElem?_append_left (hlt _ _ hki)]
                    exact h1
      · rename_i hdec
        generalize hq : net.query pick ord [v] (Given (net.g.parents v) a0) [] = x at h
        obtain ⟨n1, y⟩ := x
        cases y with
        | error e => simp at h
        | ok f =>
          simp only at h
          obtain ⟨rfl, _, _, _, k5, k6⟩ := query_plain hG hN hj hord hq
          split at h
          · simp at h
          · rename_i hnn
            rw [hdv] at h
            simp only at h
            split at h
            · simp at h
            · rename_i t1 ht1
              obtain ⟨hnone, rfl⟩ := appendMove_ok ht1
              simp only [Prod.mk.injEq, Except.ok.injEq] at h
              refine ⟨h.1.symm, ?_⟩
              rw [← h.2]
              have hfv : f.vars = [v] := by rw [k6]; exact List.perm_singleton.1 (hord [v])
              have := chance_probs hG hN hn hvs hanc hvn hv hp a0 hfv k5 (by simpa only [Bool.not_eq_true] using hnn)
              refine hI.extend h0 hv hst hp hnone rfl rfl rfl rfl (fun k i hk => hk) (fun a ha => Or.inr ⟨hdec, ?_⟩) hI.keysInj hI.keysOk
              rw [this]
              congr 1
              apply List.map_congr_left
              intro x hx
              apply kernel_depends hG hvn
              rintro w (rfl | hw)
              · simp [Assign.upd]
              · have hwv : w ≠ v := fun e => hv (e ▸ hp w hw)
                rw [Assign.upd_ne _ _ hwv, Assign.upd_ne _ _ hwv]
                exact List.map_inj_left.1 (h0.functional ha) w (hp w hw)

/-- one node -/
theorem level_grown {net net' : Net} (hG : Good net) (hN : net.Normalised) (hj : Joined net.g) {pick : Pick} {ord : List Node → List Node}
    (hord : ∀ l, (ord l).Perm l) {decs : List Node} {agents : List Agent} {vs : List Node} {v : Node}
    (hn : vs.Nodup) (hvs : ∀ w ∈ vs, w ∈ net.g.nodes) (hanc : ∀ u w, net.g.Edge u w → w ∈ vs → u ∈ vs) (hv : v ∉ vs) :
    ∀ (is : List (List Nat)) {L : List (List Node × Node × List Nat)} {t t' : Efg}, Grown net decs agents L t →
    (∀ idx ∈ is, ∃ a0, At net.dom vs idx (vs.map a0)) →
    (∀ idx ∈ is, vs = [] ∨ ∃ vs' v' idx' i, vs = vs' ++ [v'] ∧ idx = idx' ++ [i] ∧ (vs', v', idx') ∈ L) →
    loopNet (growAt pick ord decs v) net t is = (net', .ok t') →
    net' = net ∧ Grown net decs agents (L ++ is.map (fun idx => (vs, v, idx))) t'
  | [], L, t, t', hI, _, _, h => by
    simp only [loopNet, Prod.mk.injEq, Except.ok.injEq] at h
    simpa [← h.1, ← h.2] using hI
  | idx :: is, L, t, t', hI, ha, hl, h => by
    unfold loopNet at h
    generalize hg : growAt pick ord decs v net t idx = x at h
    obtain ⟨n1, y⟩ := x
    cases y with
    | error e => simp at h
    | ok t1 =>
      simp only at h
      obtain ⟨a0, h0⟩ := ha idx (by simp)
      have hst : (t.states.get? idx).getD [] = Given vs a0 := by
        rcases hl idx (by simp) with e | ⟨vs', v', idx', i, e1, e2, e3⟩
        · subst e
          cases h0
          exact hI.root
        · subst e1 e2
          exact hI.states _ _ _ e3 i a0 h0
      obtain ⟨rfl, hI'⟩ := growAt_grown hG hN hj hord hI h0 hn hvs hanc hv hst hg
      have := level_grown hG hN hj hord hn hvs hanc hv is hI' (fun idx' h' => ha idx' (by simp [h'])) (fun idx' h' => by
        rcases hl idx' (by simp [h']) with e | ⟨vs', v', idx', i, e1, e2, e3⟩
        · exact Or.inl e
        · exact Or.inr ⟨vs', v', idx', i, e1, e2, by simp [e3]⟩) h
      simpa using this

/-- the positions of the nodes `pre` -/
def Positions (net : Net) (pre : List Node) (L : List (List Node × Node × List Nat)) : Prop :=
  ∀ vs v idx, (vs, v, idx) ∈ L ↔ (∃ post, pre = vs ++ v :: post) ∧ ∃ a, At net.dom vs idx (vs.map a)

/-- all nodes -/
theorem growNodes_grown {net net' : Net} (hG : Good net) (hN : net.Normalised) (hj : Joined net.g) {pick : Pick} {ord : List Node → List Node}
    (hord : ∀ l, (ord l).Perm l) {decs : List Node} {agents : List Agent} : ∀ (rest : List Node) {pre : List Node}
    {L : List (List Node × Node × List Nat)} {t t' : Efg}, (pre ++ rest).Nodup → (∀ w ∈ pre ++ rest, w ∈ net.g.nodes) →
    (∀ u w, net.g.Edge u w → w ∈ pre → u ∈ pre) → Positions net pre L → Grown net decs agents L t →
    growNodes pick ord decs net t (pre.map (fun v => List.range (net.dom v).length)) (rest.map (fun v => (v, (net.dom v).length))) = (net', .ok t') →
    net' = net ∧ ∃ L', Positions net (pre ++ rest) L' ∧ Grown net decs agents L' t'
  | [], pre, L, t, t', _, _, _, hL, hI, h => by
    simp only [List.map_nil, growNodes, Prod.mk.injEq, Except.ok.injEq] at h
    rw [List.append_nil]
    exact ⟨h.1.symm, L, hL, h.2 ▸ hI⟩
  | v :: rest, pre, L, t, t', hn, hm, hanc, hL, hI, h => by
    rw [List.map_cons, growNodes] at h
    generalize hg : loopNet (growAt pick ord decs v) net t (product (pre.map (fun v => List.range (net.dom v).length))) = x at h
    obtain ⟨n1, y⟩ := x
    cases y with
    | error e => simp at h
    | ok t1 =>
      simp only at h
      have hpn : pre.Nodup := (List.nodup_append.1 hn).1
      have hvp : v ∉ pre := fun hvp => (List.nodup_append.1 hn).2.2 v hvp v (by simp) rfl
      have hat : ∀ idx, idx ∈ product (pre.map (fun v => List.range (net.dom v).length)) ↔ ∃ a : Assign, At net.dom pre idx (pre.map a) := by
        intro idx
        rw [at_product]
        constructor
        · rintro ⟨xs, hxs⟩
          obtain ⟨a, rfl⟩ := hxs.assign hpn
          exact ⟨a, hxs⟩
        · rintro ⟨a, ha⟩
          exact ⟨_, ha⟩
      obtain ⟨hn1, hI'⟩ := level_grown hG hN hj hord hpn (fun w hw => hm w (by simp [hw])) hanc hvp _ hI (fun idx hidx => (hat idx).1 hidx)
        (fun idx hidx => by
          rcases List.eq_nil_or_concat pre with e | ⟨vs', v', e⟩
          · exact Or.inl e
          · rw [List.concat_eq_append] at e
            obtain ⟨a, ha⟩ := (hat idx).1 hidx
            subst e
            obtain ⟨idx1, i1, xs1, x1, e1, e2, h1, h2⟩ := ha.unsnoc
            rw [List.map_append] at e2
            obtain ⟨e3, _⟩ := List.append_inj' e2 rfl
            exact Or.inr ⟨vs', v', idx1, i1, rfl, e1, (hL _ _ _).2 ⟨⟨[], rfl⟩, a, e3 ▸ h1⟩⟩) hg
      rw [hn1] at h
      have hL' : Positions net (pre ++ [v]) (L ++ (product (pre.map (fun v => List.range (net.dom v).length))).map (fun idx => (pre, v, idx))) := by
        intro vs w idx
        rw [List.mem_append, hL, List.mem_map]
        constructor
        · rintro (⟨⟨post, e⟩, ha⟩ | ⟨idx', h1, h2⟩)
          · exact ⟨⟨post ++ [v], by rw [e]; simp⟩, ha⟩
          · simp only [Prod.mk.injEq] at h2
            obtain ⟨rfl, rfl, rfl⟩ := h2
            exact ⟨⟨[], rfl⟩, (hat _).1 h1⟩
        · rintro ⟨⟨post, e⟩, ha⟩
          rcases List.eq_nil_or_concat post with e' | ⟨post', y, e'⟩
          · subst e'
            obtain ⟨rfl, e2⟩ := List.append_inj' e rfl
            simp only [List.cons.injEq, and_true] at e2
            subst e2
            exact Or.inr ⟨idx, (hat _).2 ha, rfl⟩
          · rw [List.concat_eq_append] at e'
            subst e'
            rw [← List.cons_append, ← List.append_assoc] at e
            obtain ⟨e1, _⟩ := List.append_inj' e rfl
            exact Or.inl ⟨⟨post', e1⟩, ha⟩
      have hpar : ∀ p, net.g.Edge p v → p ∈ pre := by
        obtain ⟨a, ha, _⟩ := exists_inDom hG (fun _ => 0) (fun _ => False) (by simp)
        obtain ⟨idx, hidx⟩ := At.exists (dom := net.dom) (vs := pre) (a := a) (fun w hw => ha w (hm w (by simp [hw])))
        exact hI'.closed pre v idx ((hL' _ _ _).2 ⟨⟨[], rfl⟩, a, hidx⟩)
      have := growNodes_grown hG hN hj hord rest (pre := pre ++ [v]) (by simpa using hn) (by simpa using hm) (fun u w huw hw => by
        rcases List.mem_append.1 hw with hw | hw
        · exact List.mem_append_left _ (hanc u w huw hw)
        · simp only [List.mem_singleton] at hw
          subst hw
          exact List.mem_append_left _ (hpar u huw)) hL' hI' (by simpa using h)
      simpa using this

end Net
end Verif

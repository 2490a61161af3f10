import Verif.Lemmas.Relay
import Verif.Props.VoiComplete

/-!
# Property C85: the criterion for value of control is complete
-/

namespace Verif

open Graph Relation Macid Net

/-- a node with a way to a utility that avoids the decision -/
theorem direct_gain {net : Net} {d : Node} (h : OneDecision net d) {x u : Node} (hx : x ∈ net.g.nodes) (hxd : x ≠ d)
    (hu : net.m.role u = .utility 0) (hr : ReflTransGen (CutGraph net.g [d]).Edge x u) :
    ∃ rels cid, net.addCpds rels = (cid, .ok ()) ∧ cid.m = net.m ∧ cid.Usable ∧ ∃ r, cid.IsMaxEU 0 r ∧
      ∃ n, n.Usable ∧ OnlyRules cid (x :: cid.m.decisions) n ∧ r < n.EU 0 := by
  have hw := h.roles.wf
  obtain ⟨k, f, f0, fk, fs⟩ := exists_walk hr
  have hf : ∀ j ≤ k, f j ∈ net.g.nodes ∧ f j ≠ d := by
    intro j hj
    by_cases h0 : j = 0
    · subst h0; rw [f0]; exact ⟨hx, hxd⟩
    · have := cut_edge.1 (fs (j - 1) (by omega))
      rw [show j - 1 + 1 = j by omega] at this
      exact ⟨(hw.edgeNodes _ _ this.1).2, this.2⟩
  have hloc : ∀ op, (relay k f op).Local net.g := fun op => relay_local (fun j hj => (cut_edge.1 (fs j hj)).1)
  -- what a utility says
  have hval : ∀ {op N}, Follows net d (relay k f op) N → ∀ a, N.bn.Possible a → ∀ v ∈ (N.m.agentUtilities.get? 0).getD [],
      a v = (relay k f op).enc ((relay k f op).here v (fun _ => op)) := by
    intro op N hN a ha v hv
    have hrole : net.m.role v = .utility 0 := by rw [← hN.same]; exact (mem_utils hN.usable (agent := 0)).1 hv
    have hvn : v ∈ net.g.nodes := h.roles.nodes v (Or.inr (Dict.mem_keys.2 ⟨0, (role_utility h.roles).1 hrole⟩))
    have hvd : v ≠ d := by rintro rfl; rw [h.isDec] at hrole; simp at hrole
    have := ((hN.kern v hvn hvd a ha.1).1 (ha.2 v (hN.g ▸ hvn : v ∈ N.g.nodes))).1
    rw [this]
    refine Wiring.here_congr (fun i hi _ => ?_)
    exact relay_read hN hf ha (Nat.le_of_lt_succ (List.mem_range.1 hi))
  obtain ⟨rels, cid, k1, k2, k3, r, hr, hlt, n, n1, n2, n3⟩ := control_gain (B := 1) h.fresh h.roles h.base h.staffed h.dec hx hxd
    (W0 := relay k f false) (W1 := relay k f true) rfl (hloc false) (hloc true)
    (fun v hv a => ⟨relay_op (f0 ▸ hv), relay_op (f0 ▸ hv)⟩) (σ := spread (fun _ => (relay k f false).dom) (relay k f false).R d)
    (fun N hN => ((Wiring.allows hw (hloc false)).rule h.node (fun _ _ => 0)).congr hN.g (fun v hv => by
      refine hN.dom v ?_
      rcases hv with rfl | hv
      · exact h.node
      · exact (hw.edgeNodes _ _ hv).1))
    (fun N hN => by
      rw [EU_eq hN.usable, BN.W_impossible (Net.bn_prob hN.usable.good hN.usable.normalised)]
      · norm_num
      · intro a ha
        rw [List.map_congr_left (g := fun _ => (0 : Rat)) (fun v hv => by
          rw [hval hN a ha v hv]
          exact Wiring.enc_false _ (fun i _ => by simp [Wiring.here]))]
        simp)
    (fun N hN _ => by
      have hB := Net.bn_prob hN.usable.good hN.usable.normalised
      rw [EU_eq hN.usable, ← BN.W_const hB 1]
      refine BN.W_le_possible hB (fun a ha => ?_)
      have hmem : u ∈ (N.m.agentUtilities.get? 0).getD [] := (mem_utils hN.usable (agent := 0)).2 (by rw [hN.same]; exact hu)
      have h1 : 1 ≤ a u := by
        rw [hval hN a ha u hmem]
        refine Wiring.enc_pos _ (i := k) (List.mem_range.2 (by omega)) ?_
        show (decide (f k = u) && true) = true
        simp [fk]
      refine le_trans h1 (List.single_le_sum (fun y hy => ?_) _ (List.mem_map.2 ⟨u, hmem, rfl⟩))
      obtain ⟨v, hv, rfl⟩ := List.mem_map.1 hy
      rw [hval hN a ha v hv]
      exact Wiring.enc_nonneg _ _)
  exact ⟨rels, cid, k1, k2, k3, r, hr, n, n1, n2, lt_of_lt_of_le hlt n3⟩

/-- a node above a requisite observation -/
theorem indirect_gain {net : Net} {d : Node} (h : OneDecision net d) {x w : Node} (hx : x ∈ net.g.nodes) (hxd : x ≠ d)
    (hxw : net.g.DescEq x w) (hw : net.m.Requisite d w) (hno : ∀ u, net.m.role u = .utility 0 → ¬ ReflTransGen (CutGraph net.g [d]).Edge x u) :
    ∃ rels cid, net.addCpds rels = (cid, .ok ()) ∧ cid.m = net.m ∧ cid.Usable ∧ ∃ r, cid.IsMaxEU 0 r ∧
      ∃ n, n.Usable ∧ OnlyRules cid (x :: cid.m.decisions) n ∧ r < n.EU 0 := by
  have hac := h.roles.wf.acyclic
  obtain ⟨hwd, a, u, ra, ru, hdu, Z, hZ, hD⟩ := hw
  have ha : a = 0 := ((h.dec d a).1 ra).2
  subst ha
  have hcut : ReflTransGen (CutGraph net.g [d]).Edge x w := by
    have key : ∀ {w}, net.g.DescEq x w → net.g.DescEq w d → w ≠ d → ReflTransGen (CutGraph net.g [d]).Edge x w := by
      intro w hxw
      induction hxw with
      | refl => intro _ _; exact ReflTransGen.refl
      | @tail b c _ e ih =>
        intro h1 h2
        refine (ih (ReflTransGen.head e h1) ?_).tail (cut_edge.2 ⟨e, h2⟩)
        rintro rfl
        exact hac _ (TransGen.head' e h1)
    exact key hxw (ReflTransGen.single hwd) (by rintro rfl; exact hac _ (TransGen.single hwd))
  obtain ⟨P, hP, hu, hn, hl, hkey⟩ := Plan.ofControl hac hxd hcut hwd hdu (fun v => h.leaf u v 0 ru) hZ hD (hno u ru)
  have hArena : ∀ {op N}, Follows net d (P.wires op) N → Arena N P op d := by
    intro op N hN
    refine ⟨hN.usable, fun v hv => hN.dom v (hN.g ▸ hv), fun v hv => hN.kern v (hN.g ▸ hv), by rw [hN.same, hu]; exact ru, fun i hi q => ?_,
      by rw [hN.same]; exact h.isDec, hP.loc op (fun u v e _ => by rw [hN.g]; exact e), fun i hi => by rw [hN.g]; exact hP.nodes h.roles.wf.edgeNodes hi,
      fun i hi => hP.atD hi⟩
    rw [hN.same] at q
    rcases hP.child hi with e | ⟨v, e⟩
    · exact e
    · exact absurd e (h.leaf _ v 0 q)
  obtain ⟨rels, cid, k1, k2, k3, r, hr, hlt, n, n1, n2, n3⟩ := control_gain (B := P.prize) h.fresh h.roles h.base h.staffed h.dec hx hxd
    (W0 := P.wires false) (W1 := P.wires true) rfl (hP.loc false (fun _ _ e _ => e)) (hP.loc true (fun _ _ e _ => e))
    (fun v hv a => ⟨P.wires_op false true (hkey ▸ hv), P.wires_op true false (hkey ▸ hv)⟩) (σ := P.clever d)
    (fun N hN => hP.clever_rule hN.usable.good.wf.acyclic (fun v hv => by rw [hN.g]; exact hv) (hN.dom d h.node))
    (fun N hN => (hArena hN).loses (Or.inr hl) (Or.inl hn) (fun v hv s b s' b' => by
      rw [hN.g] at hv
      exact P.world_alike hP.ok P.allCells hv (fun q => absurd q (by simp)) (fun i hi => Plan.mem_allCells.1 hi)
        (fun i hi e => hP.plain hac hv hi e) s b s' b'))
    (fun N hN hσ => by
      refine le_of_eq ((hArena hN).wins (fun a ha => ?_)).symm
      have hpos := ha.2 d (hN.g ▸ h.node : d ∈ N.g.nodes)
      have : 0 < P.clever d a := by rw [← hσ a ha.1]; exact hpos
      exact hP.clever_guess this)
  exact ⟨rels, cid, k1, k2, k3, r, hr, n, n1, n2, lt_of_lt_of_le hlt n3⟩

/-! ## C85 -/

/-- **C85** If `admits_voc` is True for `x`, then the diagram can be given CPDs under which choosing also the CPD of `x` strictly
increases the maximal expected utility. -/
theorem C85_voc_complete {net : Net} {d : Node} (h : OneDecision net d) {pick : Pick} {tpick : List Node → Nat} {setOrd : ListOrder}
    (hset : ∀ l, (setOrd l).Perm l) {x : Node} (hx : x ∈ net.g.nodes) (hv : admitsVoc pick tpick setOrd net x = .ok true) :
    ∃ rels cid, net.addCpds rels = (cid, .ok ()) ∧ cid.m = net.m ∧ cid.Usable ∧ ∃ r, cid.IsMaxEU 0 r ∧
      ∃ n, n.Usable ∧ OnlyRules cid (x :: cid.m.decisions) n ∧ r < n.EU 0 := by
  have hrec : net.m.Recalls := fun a ds hds => recall_single (d := d) (fun e he => ((h.dec e a).1 ((hds e).1 he)).1)
  obtain ⟨rg, g1, _, g3⟩ := C51_single_decision h.analysable pick tpick hset h.isDec (fun e b q => ((h.dec e b).1 q).1)
  obtain ⟨b, e1, e2⟩ := C56_admits_voc h.analysable h.names hset h.agents hrec hx g1
  rw [hv] at e1
  obtain ⟨hnd, u, a, ru, hr⟩ := e2.1 (Except.ok.inj e1).symm
  have hxd : x ≠ d := by rintro rfl; exact hnd 0 h.isDec
  have huag : ∀ u a, net.m.role u = .utility a → a = 0 := by
    intro u a q
    have h1 : a ∈ net.m.agentUtilities.keys := by
      obtain ⟨l, hl, _⟩ := (h.roles.util.iff u a).1 ((role_utility h.roles).1 q)
      exact Dict.mem_keys.2 ⟨l, hl⟩
    rcases h.staffed.owns a h1 with ⟨⟨n, hn⟩, _⟩ | ⟨_, q⟩
    · exact ((h.dec n a).1 hn).2
    · exact q
  by_cases hdir : ∃ u, net.m.role u = .utility 0 ∧ ReflTransGen (CutGraph net.g [d]).Edge x u
  · obtain ⟨u, ru, hr⟩ := hdir
    exact direct_gain h hx hxd ru hr
  · push Not at hdir
    have key : ∀ {u}, rg.g.DescEq x u → ReflTransGen (CutGraph net.g [d]).Edge x u ∨ ∃ w, net.g.DescEq x w ∧ net.m.Requisite d w := by
      intro u hr
      induction hr with
      | refl => exact Or.inl ReflTransGen.refl
      | @tail b c hb e ih =>
        rcases ih with ih | ih
        · obtain ⟨q1, q2⟩ := (g3 b c).1 e
          by_cases hc : c = d
          · exact Or.inr ⟨b, ReflTransGen.mono (fun _ _ k => (cut_edge.1 k).1) _ _ ih, q2 hc⟩
          · exact Or.inl (ih.tail (cut_edge.2 ⟨q1, hc⟩))
        · exact Or.inr ih
    rcases key hr with q | ⟨w, q1, q2⟩
    · rw [huag u a ru] at ru
      exact absurd q (hdir u ru)
    · exact indirect_gain h hx hxd q1 q2 hdir

/-- **C85** So `admits_voc` is True for a node that is no decision exactly if the diagram can be given CPDs for which choosing also
the CPD of the node increases the maximal expected utility. -/
theorem C85_voc_iff {net : Net} {d : Node} (h : OneDecision net d) {pick : Pick} {tpick : List Node → Nat} {setOrd : ListOrder}
    (hset : ∀ l, (setOrd l).Perm l) {x : Node} (hx : x ∈ net.g.nodes) (hxd : x ≠ d) :
    admitsVoc pick tpick setOrd net x = .ok true ↔
      ∃ rels cid, net.addCpds rels = (cid, .ok ()) ∧ cid.m = net.m ∧ cid.Usable ∧ ∃ r, cid.IsMaxEU 0 r ∧
        ∃ n, n.Usable ∧ OnlyRules cid (x :: cid.m.decisions) n ∧ r < n.EU 0 := by
  refine ⟨C85_voc_complete h hset hx, ?_⟩
  rintro ⟨rels, cid, k1, k2, k3, r, hr, n, n1, n2, n3⟩
  have hrec : net.m.Recalls := fun a ds hds => recall_single (d := d) (fun e he => ((h.dec e a).1 ((hds e).1 he)).1)
  obtain ⟨rg, g1, _, _⟩ := C51_single_decision h.analysable pick tpick hset h.isDec (fun e b q => ((h.dec e b).1 q).1)
  obtain ⟨b, e1, _⟩ := C56_admits_voc h.analysable h.names hset h.agents hrec hx g1
  cases b with
  | true => exact e1
  | false =>
    have hg : cid.g = net.g := by show cid.m.g = net.m.g; rw [k2]
    obtain ⟨s, m1, m2⟩ := C57_no_value_of_control h.analysable h.names hset h.agents hrec hx (fun b q => hxd ((h.dec x b).1 q).1)
      (a := 0) (by
        refine (h.staffed.both 0).2 ?_
        obtain ⟨l, hl, _⟩ := (h.roles.dec.iff d 0).1 (role_decision.1 h.isDec)
        exact Dict.mem_keys.2 ⟨l, hl⟩) e1 k3 n1 (fun v => by rw [k2]) (fun u v => by rw [hg]) (fun u v => by rw [n2.g, hg])
      ⟨fun v => by rw [n2.g], fun v => by rw [n2.m], fun v _ => by rw [n2.dom], fun v _ hvd b _ => n2.kernel (by simpa using hvd) b⟩
    have := m2.bound n n1 (.rfl' _ _)
    rw [hr.unique m1] at n3
    exact absurd n3 (not_lt.2 this)

/-- **C85** The same with the node turned into a decision: under these CPDs the maximal expected utility with `x` a decision exceeds
that without. -/
theorem C85_controlled {net : Net} {d : Node} (h : OneDecision net d) {pick : Pick} {tpick : List Node → Nat} {setOrd : ListOrder}
    (hset : ∀ l, (setOrd l).Perm l) {x : Node} (hx : x ∈ net.g.nodes) (hr : net.m.role x = .chance)
    (hv : admitsVoc pick tpick setOrd net x = .ok true) :
    ∃ rels cid, net.addCpds rels = (cid, .ok ()) ∧ cid.m = net.m ∧ cid.Usable ∧
      ∃ r1 r2, r1 < r2 ∧ cid.IsMaxEU 0 r1 ∧ (∃ n, Controlling cid x n) ∧ ∀ n, Controlling cid x n → n.IsMaxEU 0 r2 := by
  obtain ⟨rels, cid, k1, k2, k3, r, hm, n, n1, n2, n3⟩ := C85_voc_complete h hset hx hv
  have hg : cid.g = net.g := by show cid.m.g = net.m.g; rw [k2]
  have h0 : ∀ {n : Net}, n.m = net.m → 0 ∈ n.m.agentUtilities.keys := fun e => by
    rw [e]
    refine (h.staffed.both 0).2 ?_
    obtain ⟨l, hl, _⟩ := (h.roles.dec.iff d 0).1 (role_decision.1 h.isDec)
    exact Dict.mem_keys.2 ⟨l, hl⟩
  have hcon : Controlling cid x (cid.control x) :=
    ⟨k3.control (hg ▸ hx) (by rw [k2]; exact hr) (h0 k2), fun _ => Iff.rfl, fun _ _ => Iff.rfl, control_role x, fun _ _ => rfl, fun _ _ _ _ _ _ => rfl⟩
  have hone : ∀ N, Controlling cid x N → ∀ e b, N.m.role e = .decision b → b = 0 := fun N hN e b q => by
    rw [hN.roles] at q
    split at q
    · cases q; rfl
    · rw [k2] at q; exact ((h.dec e b).1 q).2
  obtain ⟨r2, hr2⟩ := exists_maxEU (agent := 0) hcon.usable (hone _ hcon)
  refine ⟨rels, cid, k1, k2, k3, r, r2, ?_, hm, ⟨_, hcon⟩, fun N hN => ?_⟩
  · refine lt_of_lt_of_le n3 ?_
    have hc2 : (n.control x).Usable := n1.control (by rw [n2.g, hg]; exact hx) (by rw [n2.m, k2]; exact hr) (h0 (n2.m.trans k2))
    have e : (n.control x).EU 0 = n.EU 0 := rfl
    rw [← e]
    refine hr2.bound _ hc2 ?_
    refine ⟨?_, n2.base, n2.domain, fun w hw => n2.cpds w (fun q => hw ?_), fun w hw => n2.rels w (fun q => hw ?_)⟩
    · unfold Net.control; rw [n2.m]
    · rw [control_decisions]; simpa using q
    · rw [control_decisions]; simpa using q
  · refine IsMaxEU.same hcon.usable hN.usable (hone _ hcon) ⟨fun v => (hN.nodes v).trans (hcon.nodes v).symm, fun v => by rw [hN.roles, hcon.roles],
      fun v hv => ?_, fun v hv hd a ha => ?_⟩ (fun u v => (hcon.edges u v).trans (hN.edges u v).symm) hr2
    · have hv' := (hcon.nodes v).1 hv
      rw [hN.outcomes v hv', hcon.outcomes v hv']
    · rw [control_decisions] at hd
      exact hN.kernels v hv (fun q => hd (Or.inr q)) (fun q => hd (Or.inl q)) a ha

/-- **C85** Under these CPDs `quantitative_voc`, whenever it returns a number and the diagram has sufficient recall with the node as a
decision, returns a positive one. -/
theorem C85_quantitative_positive {net : Net} {d : Node} (h : OneDecision net d) {pick : Pick} {tpick : List Node → Nat} {setOrd : ListOrder}
    (hset : ∀ l, (setOrd l).Perm l) {x : Node} (hx : x ∈ net.g.nodes) (hr : net.m.role x = .chance)
    (hv : admitsVoc pick tpick setOrd net x = .ok true) :
    ∃ rels cid, net.addCpds rels = (cid, .ok ()) ∧ cid.m = net.m ∧ cid.Usable ∧
      ((∀ n, Controlling cid x n → n.m.NoRelianceCycle n.m.decisions) →
        ∀ (pick : Pick) (tpick : List Node → Nat) (ord setOrd : List Node → List Node) (rnd1 rnd2 : Nat), (∀ l, (ord l).Perm l) → (∀ l, (setOrd l).Perm l) →
          ∀ after r, quantitativeVoc pick tpick ord setOrd rnd1 rnd2 cid x = (after, .ok r) → 0 < r) := by
  obtain ⟨rels, cid, k1, k2, k3, r1, r2, hlt, hm, ⟨n, hn⟩, hall⟩ := C85_controlled h hset hx hr hv
  refine ⟨rels, cid, k1, k2, k3, fun hrec pick tpick ord setOrd rnd1 rnd2 ho hs after r q => ?_⟩
  obtain ⟨_, s1, s2, e, q1, _, _, q2⟩ := C58_voc_single_decision k3 (by show NamesOk cid.m.g; rw [k2]; exact h.names) (d := d)
    (fun e b => by rw [k2]; exact h.dec e b) (by rw [k2]; exact hr) ho hs q
  rw [e, ← hm.unique q1, ← (hall n hn).unique ((q2 hrec).2 n hn)]
  linarith

/-- the hypotheses of `C85_voc_complete` are met: `C` matters only as an observation, `Y` also directly, `V` and `X` not at all in
the requisite graph except through `C` -/
example : OneDecision exColliderNet "D" ∧ exColliderNet.m.role "C" = .chance ∧
    admitsVoc (fun _ => 0) (fun _ => 0) id exColliderNet "C" = .ok true ∧ admitsVoc (fun _ => 0) (fun _ => 0) id exColliderNet "Y" = .ok true ∧
    admitsVoc (fun _ => 0) (fun _ => 0) id exColliderNet "V" = .ok true ∧ admitsDirVoc (fun _ => 0) (fun _ => 0) id exColliderNet "V" = .ok false :=
  ⟨exCollider_one, by decide, by decide +kernel, by decide +kernel, by decide +kernel, by decide +kernel⟩

end Verif

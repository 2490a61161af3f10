import Verif.Lemmas.Guess
import Verif.Lemmas.Realize
import Verif.Lemmas.Prospect

/-!
# A game in which a decision needs to know a CPD

The CPD of `v` contains a bit that travels along a trail. In the wiring it is the cell `main 0`, placed at an imaginary parent of `v`.
-/

namespace Verif

open Graph Relation Macid Net

/-- `g` with a new parent of `v` that `d` observes -/
def spied (g : Graph) (n v d : Node) : Graph := ⟨n :: g.nodes, (n, v) :: (n, d) :: g.edges⟩

theorem spied_edge {g : Graph} {n v d a b : Node} : (spied g n v d).Edge a b ↔ (a = n ∧ b = v) ∨ (a = n ∧ b = d) ∨ g.Edge a b := by
  simp [spied, Graph.Edge]

theorem spied_old {g : Graph} {n v d a b : Node} (ha : a ≠ n) : (spied g n v d).Edge a b ↔ g.Edge a b := by
  rw [spied_edge]; simp [ha]

theorem spied_ext {g : Graph} (hw : g.WF) {n v d : Node} (hn : n ∉ g.nodes) (hv : v ∈ g.nodes) (hd : d ∈ g.nodes) {a : Node}
    (h : (spied g n v d).Edge a n) : False := by
  rcases spied_edge.1 h with ⟨_, q⟩ | ⟨_, q⟩ | q
  · exact hn (q ▸ hv)
  · exact hn (q ▸ hd)
  · exact hn (hw.edgeNodes _ _ q).2

theorem spied_acyclic {g : Graph} (hw : g.WF) {n v d : Node} (hn : n ∉ g.nodes) (hv : v ∈ g.nodes) (hd : d ∈ g.nodes) : (spied g n v d).Acyclic := by
  intro a h
  have key : ∀ b, TransGen (spied g n v d).Edge a b → a ∈ g.nodes → g.Desc a b := by
    intro b h ha
    induction h with
    | single h =>
      exact TransGen.single ((spied_old (by rintro rfl; exact hn ha)).1 h)
    | tail _ h ih =>
      refine ih.tail ((spied_old ?_).1 h)
      rintro rfl
      exact hn (descEq_mem hw ih.to_reflTransGen ha)
  have ha : a ∈ g.nodes := by
    obtain ⟨c, _, hc⟩ := TransGen.tail'_iff.1 h
    rcases spied_edge.1 hc with ⟨_, rfl⟩ | ⟨_, rfl⟩ | q
    · exact hv
    · exact hd
    · exact (hw.edgeNodes _ _ q).2
  exact hw.acyclic a (key a h ha)

theorem spied_dconn {g : Graph} (hw : g.WF) {n v d u : Node} (hn : n ∉ g.nodes) (hv : v ∈ g.nodes) {Z : List Node}
    (h : (g.withParent n v).DConn n u Z) : (spied g n v d).DConn n u Z := by
  have hE := sourceExt_withParent hn hv
  obtain ⟨h1, h2, p, ⟨p1, p2, p3, p4⟩, ha⟩ := h
  have hup : ∀ a b, (g.withParent n v).Edge a b → (spied g n v d).Edge a b := by
    intro a b q
    rcases (hE.edge a b).1 q with q | q
    · exact spied_edge.2 (Or.inr (Or.inr q))
    · exact spied_edge.2 (Or.inl q)
  have hdown : ∀ a b, (g.withParent n v).Adj a b → (spied g n v d).Edge a b → (g.withParent n v).Edge a b := by
    intro a b had q
    rcases spied_edge.1 q with q | ⟨rfl, rfl⟩ | q
    · exact (hE.edge a b).2 (Or.inr q)
    · exact (hE.edge a b).2 (Or.inr (hE.adj_new hw hn had))
    · exact (hE.edge a b).2 (Or.inl q)
  refine ⟨h1, h2, p, ⟨p1, p2, p3.imp (fun a b q => q.imp (hup a b) (hup b a)), p4⟩, fun l a b c r e => ?_⟩
  have hc : (g.withParent n v).Adj a b ∧ (g.withParent n v).Adj b c := by
    rw [e] at p3
    have := (List.isChain_append.1 p3).2.1
    rw [List.isChain_cons_cons, List.isChain_cons_cons] at this
    exact ⟨this.1, this.2.1⟩
  obtain ⟨k1, k2⟩ := ha l a b c r e
  refine ⟨fun ⟨q1, q2⟩ => ?_, fun q => k2 (fun ⟨q1, q2⟩ => q ⟨hup _ _ q1, hup _ _ q2⟩)⟩
  obtain ⟨z, hz, hd⟩ := k1 ⟨hdown _ _ hc.1 q1, hdown _ _ hc.2.symm q2⟩
  exact ⟨z, hz, ReflTransGen.mono (fun a b q => hup a b q) _ _ hd⟩

namespace Plan

/-- the imaginary cell holds `s` -/
def fix (s : Bool) (β : Cell → Bool) (i : Cell) : Bool := if i = .main 0 then s else β i

/-- the other cells -/
def ownCells (P : Plan) : List Cell := P.allCells.filter (fun i => decide (i ≠ .main 0))

/-- the wiring of the real nodes -/
def rigged (P : Plan) (s : Bool) : Wiring Cell := ⟨P.ownCells, P.node, P.coin, fun i β => P.rule true i (fix s β)⟩

theorem mem_ownCells {P : Plan} {i : Cell} : i ∈ P.ownCells ↔ i ∈ P.allCells ∧ i ≠ .main 0 := by
  simp [ownCells]

/-- the plan runs from an imaginary parent of `v` to a utility below `d` -/
structure Rig (P : Plan) (g : Graph) (n v d : Node) : Prop where
  placed : P.Placed (spied g n v d) d
  start : P.w 0 = n
  gate : P.h = 0
  wf : g.WF
  fresh : n ∉ g.nodes
  vn : v ∈ g.nodes
  dn : d ∈ g.nodes

namespace Rig

variable {P : Plan} {g : Graph} {n v d : Node}

theorem noIn (h : P.Rig g n v d) {a : Node} (e : (spied g n v d).Edge a n) : False := spied_ext h.wf h.fresh h.vn h.dn e

theorem noInCut (h : P.Rig g n v d) {a : Node} (e : (CutGraph (spied g n v d) [d]).Edge a n) : False := h.noIn (cut_edge.1 e).1

theorem dne (h : P.Rig g n v d) : d ≠ n := fun e => h.fresh (e ▸ h.dn)

theorem node_ne (h : P.Rig g n v d) {i : Cell} (hi : i ∈ P.ownCells) : P.node i ≠ n := by
  obtain ⟨hi, h0⟩ := mem_ownCells.1 hi
  intro e
  rcases mem_allCells.1 hi with hi | hi
  · rcases mem_trailCells.1 hi with ⟨p, hp, rfl⟩ | ⟨p, j, hc, hj, rfl⟩
    · have hp0 : p ≠ 0 := fun q => h0 (by rw [q])
      have e' : P.w p = n := e
      cases hc : P.col p with
      | false => exact h.placed.ok.free p hp0 hp hc (by rw [e']; exact spied_edge.2 (Or.inr (Or.inl ⟨rfl, rfl⟩)))
      | true =>
        have := left_edge h.placed.ok hp (by rw [col_eq] at hc; simp only [Bool.and_eq_true] at hc; exact hc.1)
        rw [e'] at this
        exact h.noInCut this
    · have := h.placed.ok.fall p hc j hj
      have e' : P.path p (j + 1) = n := e
      rw [e'] at this
      exact h.noInCut this
  · rcases mem_gameCells.1 hi with ⟨j, hj, rfl⟩ | ⟨j, hj, rfl⟩ | rfl
    · rw [h.gate] at hj; omega
    · have e' : P.act j = n := e
      by_cases hj0 : j = 0
      · rw [hj0, h.placed.act0] at e'; exact h.dne e'
      · have := h.placed.game.acts (j - 1) (by omega)
        rw [show j - 1 + 1 = j by omega, e'] at this
        exact h.noInCut this
    · have e' : P.u = n := e
      have := h.placed.game.pay
      rw [e'] at this
      exact h.noInCut this

theorem spied_nodes (h : P.Rig g n v d) (a b : Node) (e : (spied g n v d).Edge a b) : a ∈ (spied g n v d).nodes ∧ b ∈ (spied g n v d).nodes := by
  rcases spied_edge.1 e with ⟨rfl, rfl⟩ | ⟨rfl, rfl⟩ | q
  · exact ⟨List.mem_cons_self, List.mem_cons_of_mem _ h.vn⟩
  · exact ⟨List.mem_cons_self, List.mem_cons_of_mem _ h.dn⟩
  · exact ⟨List.mem_cons_of_mem _ (h.wf.edgeNodes _ _ q).1, List.mem_cons_of_mem _ (h.wf.edgeNodes _ _ q).2⟩

theorem node_mem (h : P.Rig g n v d) {i : Cell} (hi : i ∈ P.ownCells) : P.node i ∈ g.nodes := by
  have := h.placed.nodes h.spied_nodes (mem_ownCells.1 hi).1
  exact (List.mem_cons.1 this).resolve_left (h.node_ne hi)

theorem big (h : P.Rig g n v d) : (P.wires true).Local (spied g n v d) := h.placed.loc true (fun _ _ e _ => e)

theorem loc (h : P.Rig g n v d) (s : Bool) : (P.rigged s).Local g := by
  refine ⟨fun i hi hc β β' hβ => ?_⟩
  refine h.big.loc i (mem_ownCells.1 hi).1 hc _ _ (fun j hj e => ?_)
  unfold fix
  split
  · rfl
  · rename_i hj0
    have hj' : j ∈ P.ownCells := mem_ownCells.2 ⟨hj, hj0⟩
    exact hβ j hj' (e.imp (spied_old (h.node_ne hj')).1 id)

theorem at_d (h : P.Rig g n v d) {i : Cell} (hi : i ∈ P.ownCells) : P.node i = d ↔ i = .guess 0 := h.placed.atD (mem_ownCells.1 hi).1

/-- only the cells at `v` look at the imaginary cell -/
theorem blind (h : P.Rig g n v d) {i : Cell} (hi : i ∈ P.ownCells) (hv : P.node i ≠ v) (hc : ¬ P.coin i) (s s' : Bool) (β : Cell → Bool) :
    P.rule true i (fix s β) = P.rule true i (fix s' β) := by
  refine h.big.loc i (mem_ownCells.1 hi).1 hc _ _ (fun j hj e => ?_)
  unfold fix
  split
  · rename_i hj0
    exfalso
    subst hj0
    have e' : (spied g n v d).Edge (P.w 0) (P.node i) ∨ (P.w 0 = P.node i ∧ P.coin (.main 0)) := e
    rw [h.start] at e'
    rcases e' with q | q
    · rcases spied_edge.1 q with q | q | q
      · exact hv q.2
      · rw [h.at_d hi] at q
        rw [q.2] at hc
        exact hc rfl
      · exact h.fresh (h.wf.edgeNodes _ _ q).1
    · exact h.node_ne hi q.1.symm
  · rfl

theorem R_iff (h : P.Rig g n v d) {w : Node} (hw : w ≠ v) (s s' : Bool) (a : Assign) : (P.rigged s).R w a ↔ (P.rigged s').R w a := by
  have key : ∀ s s', (P.rigged s).R w a → (P.rigged s').R w a := by
    intro s s' ⟨h1, h2⟩
    refine ⟨h1, fun i hi e => ?_⟩
    by_cases hc : P.coin i
    · exact Or.inl hc
    · right
      have e' : P.node i = w := e
      refine ((h2 i hi e).resolve_left hc).trans ?_
      exact h.blind hi (by rw [e']; exact hw) hc s s' _
  exact ⟨key s s', key s' s⟩

theorem main0 (h : P.Rig g n v d) : P.coin (.main 0) := by
  refine ⟨by simp [left], ?_⟩
  cases hr : P.right 0 with
  | false => rfl
  | true =>
    exfalso
    have := right_edge h.placed.ok hr
    rw [h.start] at this
    exact h.noInCut this

theorem landing_own (_ : P.Rig g n v d) {p : Nat} (hp : P.col p = true) : P.landing p ∈ P.ownCells := by
  refine mem_ownCells.2 ⟨mem_allCells.2 (Or.inl (landing_mem hp)), ?_⟩
  unfold landing
  split
  · simp only [ne_eq, Cell.main.injEq]
    rintro rfl
    rw [P.not_col_zero] at hp
    simp at hp
  · simp

theorem guess_own (_ : P.Rig g n v d) {j : Nat} (hj : j ≤ P.m) : Cell.guess j ∈ P.ownCells := mem_ownCells.2 ⟨guess_mem hj, by simp⟩

theorem win_own (_ : P.Rig g n v d) : Cell.win ∈ P.ownCells := mem_ownCells.2 ⟨win_mem, by simp⟩

end Rig

/-- the action that guesses `b` -/
def bid (P : Plan) (b : Bool) : Outcome := (P.rigged true).enc (fun i => decide (i = .guess 0) && b)

/-- the prize -/
def stake (P : Plan) : Rat := (P.rigged true).enc (fun i => decide (i = .win))

/-- what the decision sees -/
def view (P : Plan) : Assign := (P.rigged true).assign (P.world true false false)

theorem stake_pos {P : Plan} (hw : Cell.win ∈ P.ownCells) : 0 < P.stake := by
  obtain ⟨n, _, hn⟩ := Wiring.mem_dom.1 ((P.rigged true).enc_dom (fun i => decide (i = .win)))
  have h0 : P.stake ≠ 0 := by
    intro h
    have h1 := Wiring.bit_enc (W := P.rigged true) (i := .win) hw (fun i => decide (i = .win))
    unfold stake at h
    rw [h] at h1
    simp [Wiring.bit] at h1
  have : P.stake = n := hn
  rw [this] at h0 ⊢
  exact lt_of_le_of_ne (Nat.cast_nonneg n) (Ne.symm h0)

end Plan

/-- The network plays the rigged game. -/
structure Match (N : Net) (P : Plan) (s : Bool) (n v d : Node) (agent : Agent) : Prop where
  rig : P.Rig N.g n v d
  usable : N.Usable
  dom : ∀ w ∈ N.g.nodes, N.dom w = (P.rigged s).dom
  kern : ∀ w ∈ N.g.nodes, w ≠ d → ∀ a, N.InDom a → (0 < N.kernel w a ↔ (P.rigged s).R w a)
  util : N.m.role P.u = .utility agent
  only : ∀ i ∈ P.ownCells, N.m.role (P.node i) = .utility agent → i = .win
  dec : N.m.role d = .decision agent

namespace Match

variable {N : Net} {P : Plan} {s : Bool} {n v d : Node} {agent : Agent}

/-- the utilities pay the stake or nothing -/
theorem pays (h : Match N P s n v d agent) {a : Assign} (hin : N.InDom a) (ha : ∀ w ∈ N.g.nodes, w ≠ d → 0 < N.kernel w a) :
    ((N.utils agent).map a).sum = if (P.rigged s).read a .win then P.stake else 0 := by
  have hval : ∀ w, N.m.role w = .utility agent → a w = if w = P.u then (if (P.rigged s).read a .win then P.stake else 0) else 0 := by
    intro w hw
    have hn : w ∈ N.g.nodes := h.usable.roles.nodes w (Or.inr (Dict.mem_keys.2 ⟨agent, (role_utility h.usable.roles).1 hw⟩))
    have hwd : w ≠ d := by rintro rfl; rw [h.dec] at hw; cases hw
    have hR := (h.kern w hn hwd a hin).1 (ha w hn hwd)
    rw [hR.1]
    have e : (P.rigged s).enc ((P.rigged s).here w ((P.rigged s).read a)) =
        (P.rigged s).enc (fun i => decide (i = .win) && (decide (w = P.u) && (P.rigged s).read a .win)) := by
      apply Wiring.enc_congr
      intro i hi
      unfold Wiring.here
      by_cases hi' : P.node i = w
      · have hw := h.only i hi (hi' ▸ hw)
        subst hw
        have : w = P.u := hi'.symm
        subst this
        show (decide (P.u = P.u) && _) = _
        simp
      · have h1 : ((P.rigged s).node i = w) = False := eq_false hi'
        simp only [h1, decide_false, Bool.false_and]
        by_cases hw : i = .win
        · subst hw
          have : w ≠ P.u := fun e => hi' e.symm
          simp [this]
        · simp [hw]
    rw [e]
    by_cases h1 : w = P.u
    · cases h2 : (P.rigged s).read a .win
      · simp only [h1]; simp [Plan.enc_false]
      · simp only [h1]; simp; rfl
    · simp only [h1]; simp [Plan.enc_false]
  have hm := fun w => mem_utils h.usable (agent := agent) (u := w)
  have hnd : (N.utils agent).Nodup := utils_nodup h.usable.roles agent
  generalize N.utils agent = l at hm hnd ⊢
  generalize (if (P.rigged s).read a .win then P.stake else 0) = c at hval ⊢
  have e : l.map a = l.map (fun v => if v = P.u then c else 0) := List.map_congr_left (fun v hv => hval v ((hm v).1 hv))
  rw [e]
  have hu : P.u ∈ l := (hm _).2 h.util
  have key : ∀ (l : List Node), l.Nodup → (l.map (fun v => if v = P.u then c else 0)).sum = if P.u ∈ l then c else 0 := by
    intro l
    induction l with
    | nil => simp
    | cons v l ih =>
      intro hn
      obtain ⟨n1, n2⟩ := List.nodup_cons.1 hn
      simp only [List.map_cons, List.sum_cons, ih n2, List.mem_cons]
      by_cases e : v = P.u
      · subst e; simp [n1]
      · simp [e, Ne.symm e]
  rw [key l hnd, if_pos hu]

/-- the bit decides who wins -/
theorem outcome (h : Match N P s n v d agent) {b : Bool} {a : Assign} (hin : N.InDom a) (ha : ∀ w ∈ N.g.nodes, w ≠ d → 0 < N.kernel w a)
    (hd : (P.rigged true).bit (.guess 0) (a d) = b) (hz : ∀ w, N.g.Edge w d → a w = P.view w) : (P.rigged s).read a .win = (s == b) := by
  have hR := h.rig
  let β := Plan.fix s ((P.rigged s).read a)
  have hown : ∀ i, i ≠ .main 0 → β i = (P.rigged s).read a i := fun i hi => by simp [β, Plan.fix, hi]
  have hrule : ∀ i ∈ P.ownCells, i ≠ .guess 0 → P.coin i ∨ β i = P.rule true i β := by
    intro i hi hg
    rw [hown i (Plan.mem_ownCells.1 hi).2]
    have hnd : P.node i ≠ d := fun e => hg ((hR.at_d hi).1 e)
    have hn := hR.node_mem hi
    exact ((h.kern _ hn hnd a hin).1 (ha _ hn hnd)).2 i hi rfl
  have hruns : P.Runs true β := by
    intro i hi
    by_cases h0 : i = .main 0
    · subst h0; exact Or.inl hR.main0
    · refine hrule i (Plan.mem_ownCells.2 ⟨Plan.mem_allCells.2 (Or.inl hi), h0⟩) ?_
      rintro rfl
      rcases Plan.mem_trailCells.1 hi with ⟨_, _, q⟩ | ⟨_, _, _, _, q⟩ <;> simp at q
  have hopen : P.gateOpen true β = true := by unfold Plan.gateOpen; rw [if_pos hR.gate]
  have hs := P.signal hruns hopen
  rw [P.total_seen hruns] at hs
  have hseen : P.seen β P.n = false := by
    rw [← P.seen_false P.n]
    apply Plan.seen_congr
    intro p hp
    have ho := hR.landing_own hp
    rw [hown _ (Plan.mem_ownCells.1 ho).2]
    have hl := hR.placed.ok.land p hp
    rw [← Plan.landing_node hR.placed.ok hp] at hl
    have hl' := (spied_old (hR.node_ne ho)).1 hl
    have : (P.rigged s).read a (P.landing p) = (P.rigged true).read P.view (P.landing p) := by
      show (P.rigged s).bit _ (a (P.node _)) = (P.rigged true).bit _ (P.view (P.node _))
      rw [hz _ hl']
      rfl
    rw [this]
    unfold Plan.view
    rw [Wiring.read_assign ho]
    unfold Plan.landing
    split <;> simp [Plan.world]
  have h0 : β (.main 0) = s := by simp [β, Plan.fix]
  rw [hseen, h0, Bool.xor_false] at hs
  have hg0 : β (.guess 0) = b := by
    rw [hown _ (by simp)]
    show (P.rigged s).bit _ (a (P.act 0)) = b
    rw [hR.placed.act0]
    exact hd
  have hgm : ∀ j ≤ P.m, β (.guess j) = b := by
    intro j
    induction j with
    | zero => intro _; exact hg0
    | succ j ih =>
      intro hj
      rcases hrule _ (hR.guess_own hj) (by simp) with q | q
      · exact absurd q (by simp [Plan.coin])
      · simp only [Plan.rule, Nat.add_sub_cancel] at q
        rw [q, ih (by omega)]
  rw [← hown _ (by simp)]
  rcases hrule _ hR.win_own (by simp) with q | q
  · exact absurd q (by simp [Plan.coin])
  · rw [q]
    simp only [Plan.rule]
    rw [hs, hgm _ (le_refl _)]

/-- both actions are outcomes -/
theorem bid_dom (h : Match N P s n v d agent) (b : Bool) : P.bid b ∈ N.dom d := by
  rw [h.dom d h.rig.dn]
  exact (P.rigged true).enc_dom _

/-- what the decision sees may happen -/
theorem may (h : Match N P s n v d agent) (b : Bool) : 0 < N.bn.act d (N.g.parents d) P.view (P.bid b) (fun _ => 1) := by
  have hR := h.rig
  have hB := Net.bn_prob h.usable.good h.usable.normalised
  have hZ : ∀ v, v ∈ N.g.parents d ↔ N.bn.g.Edge v d := fun v => Graph.mem_parents
  have hσ := BN.isRule_ind hB (d := d) hR.dn (h.bid_dom b)
  have e := BN.W_fam hB hR.dn hZ hσ.scope P.view (P.bid b) (fun _ => 1)
  simp only [Assign.upd_same, if_true, one_mul] at e
  rw [← e]
  let a := (P.rigged s).assign (P.world true s b)
  have hin : N.InDom a := fun w hw => by rw [h.dom w hw]; exact Wiring.assign_dom
  have had : a d = P.bid b := by
    show (P.rigged s).enc _ = (P.rigged s).enc (fun i => decide (i = .guess 0) && b)
    apply Wiring.enc_congr (W := P.rigged s)
    intro i hi
    unfold Wiring.here
    have : decide ((P.rigged s).node i = d) = decide (i = .guess 0) := by
      rw [decide_eq_decide]; exact hR.at_d hi
    rw [this]
    by_cases hg : i = .guess 0
    · subst hg; simp [Plan.world]
    · simp [hg]
  have hfix : Plan.fix s (P.world true s b) = P.world true s b := by
    funext i
    unfold Plan.fix
    split
    · rename_i q; subst q; simp [Plan.world, P.not_col_zero]
    · rfl
  have hsol : (P.rigged s).Solves (P.world true s b) := by
    intro i hi
    have := P.world_rule (op := true) (Or.inl rfl) s b (i := i) (fun p j q => by
      subst q
      rcases Plan.mem_allCells.1 (Plan.mem_ownCells.1 hi).1 with q | q
      · rcases Plan.mem_trailCells.1 q with ⟨_, _, q⟩ | ⟨p', j', hc', _, q⟩
        · simp at q
        · simp only [Cell.down.injEq] at q; rw [q.1]; exact hc'
      · rcases Plan.mem_gameCells.1 q with ⟨_, _, q⟩ | ⟨_, _, q⟩ | q <;> simp at q)
    refine this.imp id (fun q => ?_)
    show _ = P.rule true i (Plan.fix s _)
    rw [hfix]; exact q
  have hposs : (N.bn.withRule d (fun a => if a d = P.bid b then 1 else 0)).Possible a := by
    refine ⟨hin, fun w hw => ?_⟩
    show 0 < (if w = d then fun a : Assign => (if a d = P.bid b then (1 : Rat) else 0) else N.kernel w) a
    split
    · simp [had]
    · rename_i hne
      exact (h.kern w hw hne a hin).2 (Wiring.R_assign (hR.loc s) hsol w)
  have hview : ∀ w ∈ N.g.parents d, a w = P.view w := by
    intro w hw
    have hE := (Graph.mem_parents.1 hw)
    have hwn : w ≠ n := by rintro rfl; exact hR.fresh (hR.wf.edgeNodes _ _ hE).1
    have hE' : (spied N.g n v d).Edge w d := (spied_old hwn).2 hE
    exact P.world_alike hR.placed.ok P.ownCells (op := true) hE' (fun _ => by rw [hR.start]; exact hwn)
      (fun i hi => Plan.mem_allCells.1 (Plan.mem_ownCells.1 hi).1)
      (fun i hi q => hR.placed.plain (spied_acyclic hR.wf hR.fresh hR.vn hR.dn) hE' (Plan.mem_ownCells.1 hi).1 q) s b false false
  refine BN.W_pos (BN.withRule_prob hB hσ) (fun x _ => ?_) (fun x y hxy => ?_) hposs ?_
  · unfold BN.at_; split <;> norm_num
  · unfold BN.at_
    have : (∀ w ∈ d :: N.g.parents d, x w = Assign.upd P.view d (P.bid b) w) ↔ ∀ w ∈ d :: N.g.parents d, y w = Assign.upd P.view d (P.bid b) w := by
      refine forall₂_congr (fun w hw => ?_)
      rw [hxy w]
      show w ∈ N.g.nodes
      rcases List.mem_cons.1 hw with rfl | q
      · exact hR.dn
      · exact (hR.wf.edgeNodes _ _ (Graph.mem_parents.1 q)).1
    simp only [this]
  · rw [BN.at_cons (BN.not_mem_parents hB hZ), if_pos had]
    unfold BN.at_
    rw [if_pos hview]
    norm_num

/-- the stake is won by those who guess the bit -/
theorem weigh (h : Match N P s n v d agent) {x : Outcome} (hx : x ∈ N.dom d) :
    N.bn.act d (N.g.parents d) P.view x (fun a => ((N.utils agent).map a).sum) =
      (if s = (P.rigged true).bit (.guess 0) x then P.stake else 0) * N.bn.act d (N.g.parents d) P.view x (fun _ => 1) := by
  have hR := h.rig
  have hB := Net.bn_prob h.usable.good h.usable.normalised
  have hZ : ∀ v, v ∈ N.g.parents d ↔ N.bn.g.Edge v d := fun v => Graph.mem_parents
  have hσ := BN.isRule_ind hB (d := d) hR.dn hx
  have e := fun F => BN.W_fam hB hR.dn hZ hσ.scope P.view x F
  simp only [Assign.upd_same, if_true, one_mul] at e
  rw [← e, ← e, ← BN.W_mul_const]
  refine BN.W_possible (BN.withRule_prob hB hσ) (fun a ha => ?_)
  have h1 : a d = x := by
    have := ha.2 d hR.dn
    by_contra hc
    simp [BN.withRule, hc] at this
  have hk : ∀ w ∈ N.g.nodes, w ≠ d → 0 < N.kernel w a := by
    intro w hw hne
    have := ha.2 w hw
    simp only [BN.withRule, hne, if_false] at this
    exact this
  rw [BN.at_cons (BN.not_mem_parents hB hZ), BN.at_cons (BN.not_mem_parents hB hZ), if_pos h1, if_pos h1]
  unfold BN.at_
  split
  · rename_i hz
    show ((N.utils agent).map a).sum = (if s = (P.rigged true).bit (.guess 0) x then P.stake else 0) * 1
    rw [h.pays ha.1 hk, h.outcome ha.1 hk (by rw [h1]) (fun w hw => hz w (Graph.mem_parents.2 hw)), mul_one]
    cases s <;> cases (P.rigged true).bit (.guess 0) x <;> simp
  · simp

theorem bit_bid (h : Match N P s n v d agent) (b : Bool) : (P.rigged true).bit (.guess 0) (P.bid b) = b := by
  have := Wiring.bit_enc (W := P.rigged true) (h.rig.guess_own (Nat.zero_le P.m)) (fun i => decide (i = .guess 0) && b)
  simp only [decide_true, Bool.true_and] at this
  exact this

theorem prospect (h : Match N P s n v d agent) (b : Bool) : N.Prospect agent d P.view (P.bid b) = if s = b then P.stake else 0 := by
  rw [prospect_act h.usable h.rig.dn (h.bid_dom b), h.weigh (h.bid_dom b), h.bit_bid, mul_div_assoc, div_self (ne_of_gt (h.may b)), mul_one]

theorem prefers (h : Match N P s n v d agent) : N.Prefers agent d P.view (P.bid s) (P.bid !s) := by
  have hR := h.rig
  refine ⟨?_, ?_⟩
  · rw [← P_seen h.usable hR.dn (h.bid_dom s) P.view (fun p hp => ?_)]
    · exact ne_of_gt (h.may s)
    · rw [h.dom p (hR.wf.edgeNodes _ _ (Graph.mem_parents.1 hp)).1]
      exact Wiring.assign_dom (W := P.rigged true)
  · rw [h.prospect, h.prospect, if_neg (by cases s <;> simp), if_pos rfl]
    exact Plan.stake_pos hR.win_own

theorem view_dom (h : Match N P s n v d agent) : ∀ p ∈ N.g.parents d, P.view p ∈ N.dom p := by
  intro p hp
  rw [h.dom p (h.rig.wf.edgeNodes _ _ (Graph.mem_parents.1 hp)).1]
  exact Wiring.assign_dom (W := P.rigged true)

/-- a best response never plays a losing action -/
theorem never (h : Match N P s n v d agent) (hb : N.BestRule agent d) {x : Outcome} (hx : x ∈ N.dom d)
    (hlose : (P.rigged true).bit (.guess 0) x ≠ s) : N.kernel d (Assign.upd P.view d x) = 0 := by
  have hR := h.rig
  have hB := Net.bn_prob h.usable.good h.usable.normalised
  have hZ : ∀ v, v ∈ N.g.parents d ↔ N.bn.g.Edge v d := fun v => Graph.mem_parents
  have hnn : 0 ≤ N.kernel d (Assign.upd P.view d x) := by
    refine hB.nonneg d hR.dn _ (fun u hu => ?_)
    rcases hu with rfl | hu
    · rw [Assign.upd_same]; exact hx
    · have hne : u ≠ d := by rintro rfl; exact hR.wf.acyclic _ (TransGen.single hu)
      rw [Assign.upd_ne _ _ hne]
      exact h.view_dom u ((hZ u).2 hu)
  by_contra hc
  have hpos := lt_of_le_of_ne hnn (Ne.symm hc)
  obtain ⟨σ, hσ, he⟩ := BN.deviate hB hR.dn hZ (BN.isRule_k hB hR.dn) (P.view) (h.bid_dom s)
  obtain ⟨N1, u1, o1, k1⟩ := realize1 h.usable hR.dn hσ
  have hle := hb N1 u1 o1
  have hwf : N1.bn.W (fun a => ((N.utils agent).map a).sum) = (N.bn.withRule d σ).W (fun a => ((N.utils agent).map a).sum) := by
    rw [bn_only o1]
    refine BN.W_same (B := N.bn.withRule d σ) (B' := N.bn.withRule d (N1.kernel d)) rfl rfl (fun w hw a ha => ?_) _
    show (if w = d then N1.kernel d else N.bn.k w) a = (if w = d then σ else N.bn.k w) a
    split
    · exact k1 a ha
    · rfl
  rw [EU_eq u1, EU_eq h.usable, o1.m] at hle
  have hle' : (N.bn.withRule d σ).W (fun a => ((N.utils agent).map a).sum) ≤ N.bn.W (fun a => ((N.utils agent).map a).sum) := by
    rw [← hwf]; exact hle
  have he' := he (fun a => ((N.utils agent).map a).sum)
  rw [BN.withRule_self, h.weigh (h.bid_dom s), h.bit_bid, if_pos rfl] at he'
  set p := N.bn.act d (N.g.parents d) P.view (P.bid s) (fun _ => 1) with hp
  have hp0 : 0 < p := h.may s
  have hsum : ((N.bn.dom d).map (fun y => N.bn.k d (Assign.upd P.view d y) * N.bn.act d (N.g.parents d) P.view y (fun a => ((N.utils agent).map a).sum))).sum <
      ((N.bn.dom d).map (fun y => N.bn.k d (Assign.upd P.view d y) * (P.stake * p))).sum := by
    have hst := Plan.stake_pos hR.win_own
    have hk : ∀ y ∈ N.dom d, 0 ≤ N.bn.k d (Assign.upd P.view d y) := by
      intro y hy
      refine hB.nonneg d hR.dn _ (fun u hu => ?_)
      rcases hu with rfl | hu
      · rw [Assign.upd_same]; exact hy
      · have hne : u ≠ d := by rintro rfl; exact hR.wf.acyclic _ (TransGen.single hu)
        rw [Assign.upd_ne _ _ hne]
        exact h.view_dom u ((hZ u).2 hu)
    have e1 : ∀ y ∈ N.dom d, N.bn.act d (N.g.parents d) P.view y (fun _ => 1) = p := fun y hy => BN.act_one hB hR.dn hZ hy (h.bid_dom s) _
    refine List.sum_lt_sum _ _ (fun y hy => ?_) ⟨x, hx, ?_⟩
    · rw [h.weigh hy, e1 y hy]
      refine mul_le_mul_of_nonneg_left ?_ (hk y hy)
      refine mul_le_mul_of_nonneg_right ?_ hp0.le
      split
      · exact le_refl _
      · exact hst.le
    · rw [h.weigh hx, if_neg (fun q => hlose q.symm), zero_mul, mul_zero]
      exact mul_pos hpos (mul_pos hst hp0)
  rw [List.sum_map_mul_right, hB.norm d hR.dn _ (fun q hq => h.view_dom q ((hZ q).2 hq)), one_mul] at hsum
  linarith

end Match

/-- changing the CPD of `v` changes what `d` has to do -/
theorem no_common_rule {N N' : Net} {P : Plan} {n v d : Node} {agent : Agent} (h : Match N P true n v d agent) (h' : Match N' P false n v d agent)
    (hO : OnlyRules N [v] N') : ¬ CommonRule N N' agent d := by
  rintro ⟨m, m', u1, o1, u2, o2, hk, b1, b2⟩
  have hR := h.rig
  have lift : ∀ {M M' : Net} {s : Bool}, Match M P s n v d agent → M'.Usable → OnlyRules M [d] M' → Match M' P s n v d agent := by
    intro M M' s hM hu ho
    refine ⟨by rw [ho.g]; exact hM.rig, hu, fun w hw => ?_, fun w hw hne a ha => ?_, by rw [ho.m]; exact hM.util, by rw [ho.m]; exact hM.only,
      by rw [ho.m]; exact hM.dec⟩
    · rw [ho.dom]; exact hM.dom w (by rw [← ho.g]; exact hw)
    · rw [ho.kernel (by simpa using hne)]
      exact hM.kern w (by rw [← ho.g]; exact hw) hne a ((ho.inDom a).1 ha)
  have m1 := lift h u1 o1
  have m2 := lift h' u2 o2
  have hdm : m.dom d = N.dom d := by rw [o1.dom]
  have hdm' : m'.dom d = N.dom d := by rw [o2.dom, hO.dom]
  have hB := Net.bn_prob u1.good u1.normalised
  have hsum := hB.norm d (by show d ∈ m.g.nodes; rw [o1.g]; exact hR.dn) P.view (fun p hp => m1.view_dom p (Graph.mem_parents.2 hp))
  have hz : ∀ x ∈ m.dom d, m.kernel d (Assign.upd P.view d x) = 0 := by
    intro x hx
    cases hbit : (P.rigged true).bit (.guess 0) x with
    | false => exact m1.never b1 hx (by rw [hbit]; simp)
    | true =>
      have h2 := m2.never b2 (x := x) (by rw [hdm', ← hdm]; exact hx) (by rw [hbit]; simp)
      -- the rules agree where all values are in the domains; choose the other values suitably
      let a : Assign := fun w => if w = d ∨ N.g.Edge w d then Assign.upd P.view d x w else P.view w
      have haw : ∀ w, w = d ∨ N.g.Edge w d → a w = Assign.upd P.view d x w := fun w hw => by simp [a, hw]
      have hin : N.InDom a := by
        intro w hw
        by_cases e : w = d
        · subst e; rw [haw w (Or.inl rfl), Assign.upd_same, ← hdm]; exact hx
        · have : a w = P.view w := by
            simp only [a]
            split
            · exact Assign.upd_ne _ _ e
            · rfl
          rw [this, h.dom w hw]
          exact Wiring.assign_dom (W := P.rigged true)
      have e1 : m.kernel d a = m.kernel d (Assign.upd P.view d x) :=
        kernel_depends u1.good (by rw [o1.g]; exact hR.dn) _ _ (fun u hu => haw u (by rw [o1.g] at hu; exact hu))
      have e2 : m'.kernel d a = m'.kernel d (Assign.upd P.view d x) :=
        kernel_depends u2.good (by rw [o2.g, hO.g]; exact hR.dn) _ _ (fun u hu => haw u (by rw [o2.g, hO.g] at hu; exact hu))
      rw [← e1, hk a hin, e2]
      exact h2
  have : ((m.bn.dom d).map (fun x => m.bn.k d (Assign.upd P.view d x))).sum = 0 := by
    have e : (m.bn.dom d).map (fun x => m.bn.k d (Assign.upd P.view d x)) = (m.bn.dom d).map (fun _ => (0 : Rat)) :=
      List.map_congr_left (fun x hx => hz x hx)
    rw [e]
    simp
  rw [this] at hsum
  norm_num at hsum

end Verif

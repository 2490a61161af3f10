import Verif.Lemmas.Signals
import Verif.Props.Quantify

/-!
# A game about guessing a bit
-/

namespace Verif

open Graph Relation Macid Net

namespace Plan

/-- all cells -/
def allCells (P : Plan) : List Cell := P.trailCells ++ P.gameCells

/-- the wiring of the game -/
def wires (P : Plan) (op : Bool) : Wiring Cell := P.wiring P.allCells op

theorem mem_allCells {P : Plan} {i : Cell} : i ∈ P.allCells ↔ i ∈ P.trailCells ∨ i ∈ P.gameCells := List.mem_append

theorem main_mem {P : Plan} {p : Nat} (hp : p ≤ P.n) : Cell.main p ∈ P.allCells := mem_allCells.2 (Or.inl (mem_trailCells.2 (Or.inl ⟨p, hp, rfl⟩)))

theorem guess_mem {P : Plan} {j : Nat} (hj : j ≤ P.m) : Cell.guess j ∈ P.allCells :=
  mem_allCells.2 (Or.inr (mem_gameCells.2 (Or.inr (Or.inl ⟨j, hj, rfl⟩))))

theorem gate_mem {P : Plan} {j : Nat} (hj : j < P.h) : Cell.gate j ∈ P.allCells :=
  mem_allCells.2 (Or.inr (mem_gameCells.2 (Or.inl ⟨j, hj, rfl⟩)))

theorem win_mem {P : Plan} : Cell.win ∈ P.allCells := mem_allCells.2 (Or.inr (mem_gameCells.2 (Or.inr (Or.inr rfl))))

/-- the prize -/
def prize (P : Plan) : Rat := (P.wires true).enc (fun i => decide (i = .win))

theorem enc_false (W : Wiring Cell) : W.enc (fun _ => false) = 0 := by
  have : Nat.ofBits (fun _ : Fin W.cells.length => false) = 0 := by
    apply Nat.eq_of_testBit_eq
    intro k
    by_cases hk : k < W.cells.length
    · rw [Nat.testBit_ofBits_lt _ _ hk]; simp
    · rw [Nat.testBit_ofBits_ge _ _ (by omega)]; simp
  unfold Wiring.enc
  rw [this]; simp

theorem prize_pos (P : Plan) : 0 < P.prize := by
  obtain ⟨n, _, hn⟩ := Wiring.mem_dom.1 ((P.wires true).enc_dom (fun i => decide (i = .win)))
  have h0 : P.prize ≠ 0 := by
    intro h
    have h1 := Wiring.bit_enc (W := P.wires true) (i := .win) P.win_mem (fun i => decide (i = .win))
    unfold prize at h
    rw [h] at h1
    simp [Wiring.bit] at h1
  have : P.prize = n := hn
  rw [this] at h0 ⊢
  exact lt_of_le_of_ne (Nat.cast_nonneg n) (Ne.symm h0)

end Plan

/-- The network plays the game of the plan, whatever the rule of `d` is. -/
structure Arena (N : Net) (P : Plan) (op : Bool) (d : Node) : Prop where
  usable : N.Usable
  dom : ∀ v ∈ N.g.nodes, N.dom v = (P.wires op).dom
  kern : ∀ v ∈ N.g.nodes, v ≠ d → ∀ a, N.InDom a → (0 < N.kernel v a ↔ (P.wires op).R v a)
  util : N.m.role P.u = .utility 0
  only : ∀ i ∈ P.allCells, N.m.role (P.node i) = .utility 0 → i = .win
  dec : N.m.role d = .decision 0
  loc : (P.wires op).Local N.g
  nodes : ∀ i ∈ P.allCells, P.node i ∈ N.g.nodes
  atD : ∀ i ∈ P.allCells, P.node i = d ↔ i = .guess 0

namespace Arena

variable {N : Net} {P : Plan} {op : Bool} {d : Node}

theorem util_ne (h : Arena N P op d) {v : Node} (hv : N.m.role v = .utility 0) : v ≠ d := by
  rintro rfl
  rw [h.dec] at hv; simp at hv

/-- the utilities pay the prize or nothing -/
theorem pays (h : Arena N P op d) {a : Assign} (ha : N.bn.Possible a) :
    (((N.m.agentUtilities.get? 0).getD []).map a).sum = if (P.wires op).read a .win then P.prize else 0 := by
  have hval : ∀ v, N.m.role v = .utility 0 → a v = if v = P.u then (if (P.wires op).read a .win then P.prize else 0) else 0 := by
    intro v hv
    have hn : v ∈ N.g.nodes := h.usable.roles.nodes v (Or.inr (Dict.mem_keys.2 ⟨0, (role_utility h.usable.roles).1 hv⟩))
    have hR := (h.kern v hn (h.util_ne hv) a ha.1).1 (ha.2 v hn)
    rw [hR.1]
    have e : (P.wires op).enc ((P.wires op).here v ((P.wires op).read a)) =
        (P.wires op).enc (fun i => decide (i = .win) && (decide (v = P.u) && (P.wires op).read a .win)) := by
      apply Wiring.enc_congr
      intro i hi
      unfold Wiring.here
      by_cases hi' : P.node i = v
      · have hw := h.only i hi (hi' ▸ hv)
        subst hw
        have : v = P.u := hi'.symm
        subst this
        show (decide (P.u = P.u) && _) = _
        simp
      · have h1 : ((P.wires op).node i = v) = False := eq_false hi'
        simp only [h1, decide_false, Bool.false_and]
        by_cases hw : i = .win
        · subst hw
          have : v ≠ P.u := fun e => hi' e.symm
          simp [this]
        · simp [hw]
    rw [e]
    by_cases h1 : v = P.u
    · cases h2 : (P.wires op).read a .win
      · simp only [h1]; simp [Plan.enc_false]
      · simp only [h1]; simp; rfl
    · simp only [h1]; simp [Plan.enc_false]
  have hm := fun v => mem_utils h.usable (agent := 0) (u := v)
  unfold utils at hm
  have hnd : ((N.m.agentUtilities.get? 0).getD []).Nodup := utils_nodup h.usable.roles 0
  generalize hl : (N.m.agentUtilities.get? 0).getD [] = l at hm hnd ⊢
  generalize (if (P.wires op).read a .win then P.prize else 0) = c at hval ⊢
  have e : l.map a = l.map (fun v => if v = P.u then c else 0) := List.map_congr_left (fun v hv => hval v ((hm v).1 hv))
  rw [e]
  have hu : P.u ∈ l := (hm _).2 h.util
  have key : ∀ (l : List Node), l.Nodup → (l.map (fun v => if v = P.u then c else 0)).sum = if P.u ∈ l then c else 0 := by
    intro l
    induction l with
    | nil => simp
    | cons v l ih =>
      intro hn
      obtain ⟨n1, n2⟩ := List.nodup_cons.1 hn
      simp only [List.map_cons, List.sum_cons, ih n2, List.mem_cons]
      by_cases e : v = P.u
      · subst e; simp [n1]
      · simp [e, Ne.symm e]
  rw [key l hnd, if_pos hu]

theorem bn_prob (h : Arena N P op d) : N.bn.Prob := Net.bn_prob h.usable.good h.usable.normalised

theorem EU_le (h : Arena N P op d) : N.EU 0 ≤ P.prize := by
  rw [EU_eq h.usable]
  have := BN.W_le_possible h.bn_prob (f := fun a => (((N.m.agentUtilities.get? 0).getD []).map a).sum) (h := fun _ => P.prize) (fun a ha => by
    rw [h.pays ha]
    split
    · exact le_refl _
    · exact le_of_lt P.prize_pos)
  rwa [BN.W_const h.bn_prob] at this

/-- the bits follow the rules -/
theorem runs (h : Arena N P op d) {a : Assign} (ha : N.bn.Possible a) {i : Cell} (hi : i ∈ P.allCells) :
    P.coin i ∨ (P.wires op).read a i = P.rule op i ((P.wires op).read a) := by
  by_cases hd : P.node i = d
  · rw [h.atD i hi] at hd
    left; rw [hd]; rfl
  · have hn := h.nodes i hi
    exact ((h.kern _ hn hd a ha.1).1 (ha.2 _ hn)).2 i hi rfl

theorem gates (h : Arena N P op d) {a : Assign} (ha : N.bn.Possible a) : P.gateOpen op ((P.wires op).read a) = op := by
  have key : ∀ j < P.h, (P.wires op).read a (.gate j) = op := by
    intro j
    induction j with
    | zero =>
      intro hj
      rcases h.runs ha (P.gate_mem hj) with q | q
      · exact absurd q (by simp [Plan.coin])
      · simpa [Plan.rule] using q
    | succ j ih =>
      intro hj
      rcases h.runs ha (P.gate_mem hj) with q | q
      · exact absurd q (by simp [Plan.coin])
      · simp only [Plan.rule, Nat.add_one_ne_zero, if_false, Nat.add_sub_cancel] at q
        rw [q, ih (by omega)]
  unfold Plan.gateOpen
  split
  · rfl
  · exact key _ (by omega)

theorem guesses (h : Arena N P op d) {a : Assign} (ha : N.bn.Possible a) : (P.wires op).read a (.guess P.m) = (P.wires op).read a (.guess 0) := by
  have key : ∀ j ≤ P.m, (P.wires op).read a (.guess j) = (P.wires op).read a (.guess 0) := by
    intro j
    induction j with
    | zero => intro _; rfl
    | succ j ih =>
      intro hj
      rcases h.runs ha (P.guess_mem hj) with q | q
      · exact absurd q (by simp [Plan.coin])
      · simp only [Plan.rule, Nat.add_sub_cancel] at q
        rw [q, ih (by omega)]
  exact key _ (le_refl _)

/-- whoever guesses right always wins -/
theorem wins (h : Arena N P true d) (hg : ∀ a, N.bn.Possible a →
    (P.wires true).read a (.guess 0) = ((P.wires true).read a (.main 0) ^^ P.seen ((P.wires true).read a) P.n)) : N.EU 0 = P.prize := by
  rw [EU_eq h.usable, ← BN.W_const h.bn_prob P.prize]
  refine BN.W_possible h.bn_prob (fun a ha => ?_)
  rw [h.pays ha, if_pos]
  rcases h.runs ha P.win_mem with q | q
  · exact absurd q (by simp [Plan.coin])
  · have hr : P.Runs true ((P.wires true).read a) := fun i hi => h.runs ha (Plan.mem_allCells.2 (Or.inl hi))
    have hs := P.signal hr (h.gates ha)
    rw [P.total_seen hr, ← hg a ha] at hs
    rw [q]
    simp only [Plan.rule]
    rw [h.guesses ha, hs]
    simp

/-- whoever sees only what is alike in both worlds sometimes loses -/
theorem loses (h : Arena N P op d) (hop : op = true ∨ P.left 1 = false) (hn0 : P.n ≠ 0 ∨ op = true)
    (halike : ∀ v, N.g.Edge v d → ∀ s b s' b', (P.wires op).assign (P.world op s b) v = (P.wires op).assign (P.world op s' b') v) :
    N.EU 0 < P.prize := by
  have hB := h.bn_prob
  have hdn : d ∈ N.g.nodes := h.usable.roles.nodes d (Or.inl (decisions_role.2 ⟨0, h.dec⟩))
  let a0 := (P.wires op).assign (P.world op false false)
  have hin0 : N.InDom a0 := fun v hv => by rw [h.dom v hv]; exact Wiring.assign_dom
  obtain ⟨c, hc, hcp⟩ : ∃ c ∈ N.dom d, 0 < N.kernel d (Assign.upd a0 d c) := by
    by_contra hcon
    push Not at hcon
    have hsum := (h.usable.normalised d hdn a0 hin0).2
    have : ((N.dom d).map (fun x => N.kernel d (Assign.upd a0 d x))).sum ≤ 0 := by
      have : ∀ (l : List Outcome), (∀ x ∈ l, N.kernel d (Assign.upd a0 d x) ≤ 0) → (l.map (fun x => N.kernel d (Assign.upd a0 d x))).sum ≤ 0 := by
        intro l
        induction l with
        | nil => simp
        | cons x l ih =>
          intro hl
          simp only [List.map_cons, List.sum_cons]
          have := ih (fun y hy => hl y (by simp [hy]))
          have := hl x (by simp)
          linarith
      exact this _ hcon
    rw [hsum] at this
    linarith
  let b := (P.wires op).bit (.guess 0) c
  let as : Bool → Assign := fun s v => if v = d then c else (P.wires op).assign (P.world op s b) v
  have hread : ∀ s, ∀ i ∈ P.allCells, (P.wires op).read (as s) i = P.world op s b i := by
    intro s i hi
    by_cases hd : P.node i = d
    · have hd' := hd
      rw [h.atD i hi] at hd
      subst hd
      show (P.wires op).bit _ (as s (P.node (.guess 0))) = b
      rw [hd']
      simp [as, b]
    · rw [← Wiring.read_assign (W := P.wires op) (β := P.world op s b) hi]
      unfold Wiring.read
      show (P.wires op).bit i (as s (P.node i)) = _
      simp only [as, hd, if_false]
      rfl
  have hin : ∀ s, N.InDom (as s) := fun s v hv => by
    by_cases e : v = d
    · subst e; simp [as, hc]
    · simp only [as, e, if_false]; rw [h.dom v hv]; exact Wiring.assign_dom
  have hposs : ∀ s, N.bn.Possible (as s) := by
    intro s
    refine ⟨hin s, fun v hv => ?_⟩
    by_cases e : v = d
    · subst e
      have : N.kernel v (as s) = N.kernel v (Assign.upd a0 v c) := by
        refine kernel_depends h.usable.good hdn _ _ (fun u hu => ?_)
        rcases hu with rfl | hu
        · simp [as]
        · have hne : u ≠ v := by rintro rfl; exact h.usable.good.wf.acyclic _ (TransGen.single hu)
          rw [Assign.upd_ne _ _ hne]
          simp only [as, hne, if_false]
          exact halike u hu _ _ _ _
      show 0 < N.kernel v (as s)
      rw [this]; exact hcp
    · refine (h.kern v hv e _ (hin s)).2 (Wiring.R_of_read h.loc (hread s) (by simp [as, e]) (fun i hi _ => ?_))
      refine P.world_rule hop s b (fun p j q => ?_)
      subst q
      rcases Plan.mem_allCells.1 hi with q | q
      · rcases Plan.mem_trailCells.1 q with ⟨_, _, q⟩ | ⟨p', j', hc', _, q⟩
        · simp at q
        · simp only [Cell.down.injEq] at q; rw [q.1]; exact hc'
      · rcases Plan.mem_gameCells.1 q with ⟨_, _, q⟩ | ⟨_, _, q⟩ | q <;> simp at q
  rw [EU_eq h.usable]
  refine BN.W_lt hB (fun a ha => ?_) (fun x y hxy => ?_) (hposs (!b)) ?_
  · rw [h.pays ha]
    split
    · exact le_refl _
    · exact le_of_lt P.prize_pos
  · congr 1
    apply List.map_congr_left
    intro u hu
    have := (mem_utils h.usable (agent := 0) (u := u)).1 hu
    exact hxy u (h.usable.roles.nodes u (Or.inr (Dict.mem_keys.2 ⟨0, (role_utility h.usable.roles).1 this⟩)))
  · rw [h.pays (hposs _), if_neg]
    · exact P.prize_pos
    · rw [hread _ _ P.win_mem]
      simp only [Plan.world]
      have : (decide (P.n ≠ 0) || op) = true := by
        rcases hn0 with q | q
        · simp [q]
        · simp [q]
      rw [this]
      cases b <;> simp

end Arena

end Verif

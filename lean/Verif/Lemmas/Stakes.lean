import Verif.Lemmas.Bet
import Verif.Lemmas.Relay

/-!
# Who bets in the betting game
-/

namespace Verif

open Graph Relation Macid Net

/-- playing an outcome that the parents determine -/
theorem BN.isRule_point {B : BN} {d : Node} (hac : B.g.Acyclic) (hnd : (B.dom d).Nodup) {c : Assign → Outcome}
    (hc : DependsOn c (fun u => B.g.Edge u d)) (hd : ∀ a, c a ∈ B.dom d) : B.IsRule d (fun a => if a d = c a then 1 else 0) := by
  refine ⟨fun a b hab => ?_, fun a _ => ?_, fun a _ => by split <;> norm_num⟩
  · rw [hc a b (fun u hu => hab u (Or.inr hu)), hab d (Or.inl rfl)]
  · have e : ∀ x, c (Assign.upd a d x) = c a := fun x => hc _ _ (fun u hu => Assign.upd_ne _ _ (by
      rintro rfl; exact hac _ (TransGen.single hu)))
    simp only [Assign.upd_same, e]
    have hmem := hd a
    generalize c a = y at hmem
    generalize B.dom d = l at hmem hnd
    induction l with
    | nil => simp at hmem
    | cons z l ih =>
      obtain ⟨n1, n2⟩ := List.nodup_cons.1 hnd
      simp only [List.map_cons, List.sum_cons]
      by_cases e : z = y
      · subst e
        have : (l.map (fun x => if x = z then (1 : Rat) else 0)).sum = 0 := by
          apply List.sum_eq_zero
          intro w hw
          obtain ⟨x, hx, rfl⟩ := List.mem_map.1 hw
          rw [if_neg]
          rintro rfl
          exact n1 hx
        rw [this]; simp
      · rw [ih ((List.mem_cons.1 hmem).resolve_left (Ne.symm e)) n2]; simp [e]

namespace Bet

/-- what is paid: `M` without a bet, `M + 1` for a good bet, nothing for a bad one -/
def pay (T : Bet) (M : Rat) (β : Pin → Bool) : Rat :=
  if β (.bet T.P.m) then (if β (.sig (.main T.P.n)) == β (.guess T.P.m) then M + 1 else 0) else M

def dom (T : Bet) (M : Rat) (v : Node) : List Outcome := if v = T.P.u then [0, M, M + 1] else T.wires.dom

def R (T : Bet) (M : Rat) (v : Node) (a : Assign) : Prop := if v = T.P.u then a v = T.pay M (T.wires.read a) else T.wires.R v a

/-- a bound for the number of outcomes -/
def size (T : Bet) : Nat := 2 ^ T.cells.length + 3

variable {T : Bet} {g : Graph} {d : Node} {M : Rat}

theorem pay_congr {β β' : Pin → Bool} (h : ∀ i ∈ T.cells, β i = β' i) : T.pay M β = T.pay M β' := by
  unfold pay
  rw [h _ (bet_mem (le_refl _)), h _ (guess_mem (le_refl _)), h _ (main_mem (le_refl _))]

theorem pay_mem (β : Pin → Bool) : T.pay M β ∈ [0, M, M + 1] := by
  unfold pay
  split
  · split <;> simp
  · simp

theorem dom_length (v : Node) : (T.dom M v).length ≤ T.size := by
  unfold dom size Wiring.dom
  split
  · simp
  · simp [wires]

theorem dom_sorted (hM : 0 < M) (v : Node) : (T.dom M v).Pairwise (· < ·) := by
  unfold dom
  split
  · simp only [List.pairwise_cons, List.mem_cons, List.not_mem_nil, or_false, forall_eq_or_imp, forall_eq, List.Pairwise.nil]
    exact ⟨⟨hM, by linarith⟩, by linarith, by simp, trivial⟩
  · exact T.wires.dom_sorted

theorem dom_ne (v : Node) : T.dom M v ≠ [] := by
  unfold dom
  split
  · simp
  · exact T.wires.dom_ne

theorem Ok.allows (h : T.Ok g d) (hw : g.WF) : Allows g (T.dom M) (T.R M) := by
  have hpay : ∀ a b : Assign, (∀ u, g.Edge u T.P.u → a u = b u) → T.pay M (T.wires.read a) = T.pay M (T.wires.read b) := by
    intro a b hab
    have h1 : a (T.P.act T.P.m) = b (T.P.act T.P.m) := hab _ (cut_edge.1 h.placed.game.pay).1
    have h2 : a (T.P.w T.P.n) = b (T.P.w T.P.n) := hab _ (cut_edge.1 h.placed.game.take).1
    have e1 : T.wires.read a (.bet T.P.m) = T.wires.read b (.bet T.P.m) := by
      show T.wires.bit _ (a (T.P.act T.P.m)) = T.wires.bit _ (b (T.P.act T.P.m)); rw [h1]
    have e2 : T.wires.read a (.guess T.P.m) = T.wires.read b (.guess T.P.m) := by
      show T.wires.bit _ (a (T.P.act T.P.m)) = T.wires.bit _ (b (T.P.act T.P.m)); rw [h1]
    have e3 : T.wires.read a (.sig (.main T.P.n)) = T.wires.read b (.sig (.main T.P.n)) := by
      show T.wires.bit _ (a (T.P.w T.P.n)) = T.wires.bit _ (b (T.P.w T.P.n)); rw [h2]
    unfold pay
    rw [e1, e2, e3]
  refine ⟨fun v hv a b hab hR => ?_, fun v hv a => ?_⟩
  · unfold R at hR ⊢
    split
    · rename_i e
      rw [if_pos e] at hR
      rw [← hab v (Or.inl rfl), hR]
      exact hpay a b (fun u hu => hab u (Or.inr (e ▸ hu)))
    · rename_i e
      rw [if_neg e] at hR
      exact Wiring.R_scope h.local hab hR
  · by_cases e : v = T.P.u
    · subst e
      refine ⟨T.pay M (T.wires.read a), by unfold dom; rw [if_pos rfl]; exact pay_mem _, ?_⟩
      unfold R
      rw [if_pos rfl, Assign.upd_same]
      refine hpay _ _ (fun u hu => (Assign.upd_ne _ _ ?_).symm)
      rintro rfl
      exact hw.acyclic _ (TransGen.single hu)
    · obtain ⟨x, h1, h2⟩ := (Wiring.allows hw h.local).some v hv a
      refine ⟨x, by unfold dom; rw [if_neg e]; exact h1, ?_⟩
      unfold R
      rw [if_neg e]; exact h2

/-- The network plays the game, whatever the rule of `d` is. -/
structure Stakes (N : Net) (T : Bet) (M : Rat) (d : Node) : Prop where
  usable : N.Usable
  ok : T.Ok N.g d
  dom : ∀ v ∈ N.g.nodes, N.dom v = T.dom M v
  kern : ∀ v ∈ N.g.nodes, v ≠ d → ∀ a, N.InDom a → (0 < N.kernel v a ↔ T.R M v a)
  low : ∀ v ∈ N.g.nodes, v ≠ d → ∀ a, N.InDom a → 0 < N.kernel v a → 1 / (T.size : Rat) ≤ N.kernel v a
  util : N.m.role T.P.u = .utility 0
  leaves : ∀ v w, N.m.role v = .utility 0 → ¬ N.g.Edge v w
  dec : N.m.role d = .decision 0

/-- what the observations say the bit at the end of the trail is -/
def told (T : Bet) (a : Assign) : Bool := T.wires.read a (.sig (.main 0)) ^^ T.P.seen (fun i => T.wires.read a (.sig i)) T.P.n

/-- bet on what the observations say if the flag is up, else do not bet -/
def plan (T : Bet) (d : Node) (a : Assign) : Outcome :=
  T.wires.enc (T.wires.here d (fun i => if i = .bet 0 then T.wires.read a (.flag T.k) else T.told a))

namespace Stakes

variable {N : Net}

theorem bn_prob (h : Stakes N T M d) : N.bn.Prob := Net.bn_prob h.usable.good h.usable.normalised

theorem d_mem (h : Stakes N T M d) : d ∈ N.g.nodes := h.usable.roles.nodes d (Or.inl (decisions_role.2 ⟨0, h.dec⟩))

theorem d_ne (h : Stakes N T M d) : d ≠ T.P.u := by
  intro e
  have := h.dec
  rw [e, h.util] at this
  simp at this

theorem obeys (h : Stakes N T M d) {a : Assign} (ha : N.InDom a) {v : Node} (hv : v ∈ N.g.nodes) (hvd : v ≠ d) (hvu : v ≠ T.P.u) (hk : 0 < N.kernel v a) :
    T.wires.R v a := by
  have := (h.kern v hv hvd a ha).1 hk
  unfold R at this
  rwa [if_neg hvu] at this

/-- the bits follow the rules -/
theorem runs (h : Stakes N T M d) {a : Assign} (ha : N.InDom a) {i : Pin} (hi : i ∈ T.cells) (hd : T.node i ≠ d) (hk : 0 < N.kernel (T.node i) a) :
    T.coin i ∨ T.wires.read a i = T.rule i (T.wires.read a) :=
  (h.obeys ha (h.ok.nodes h.usable.good.wf.edgeNodes hi) hd (h.ok.node_ne hi) hk).2 i hi rfl

theorem flags (h : Stakes N T M d) {a : Assign} (ha : N.bn.Possible a) : ∀ j ≤ T.k, T.wires.read a (.flag j) = T.wires.read a (.flag 0) := by
  intro j
  induction j with
  | zero => intro _; rfl
  | succ j ih =>
    intro hj
    have hn : T.node (.flag (j + 1)) ≠ d := fun e => by simpa using (h.ok.atD (flag_mem hj)).1 e
    rcases h.runs ha.1 (flag_mem hj) hn (ha.2 _ (h.ok.nodes h.usable.good.wf.edgeNodes (flag_mem hj))) with q | q
    · exact absurd q (Nat.succ_ne_zero j)
    · rw [q]; exact ih (by omega)

theorem bets (h : Stakes N T M d) {a : Assign} (ha : N.bn.Possible a) :
    ∀ j ≤ T.P.m, T.wires.read a (.bet j) = T.wires.read a (.bet 0) ∧ T.wires.read a (.guess j) = T.wires.read a (.guess 0) := by
  intro j
  induction j with
  | zero => intro _; exact ⟨rfl, rfl⟩
  | succ j ih =>
    intro hj
    have hn : T.node (.bet (j + 1)) ≠ d := fun e => by simpa using (h.ok.atD (bet_mem hj)).1 e
    have hn' : T.node (.guess (j + 1)) ≠ d := fun e => by simpa using (h.ok.atD (guess_mem hj)).1 e
    constructor
    · rcases h.runs ha.1 (bet_mem hj) hn (ha.2 _ (h.ok.nodes h.usable.good.wf.edgeNodes (bet_mem hj))) with q | q
      · exact absurd q (Nat.succ_ne_zero j)
      · rw [q]; exact (ih (by omega)).1
    · rcases h.runs ha.1 (guess_mem hj) hn' (ha.2 _ (h.ok.nodes h.usable.good.wf.edgeNodes (guess_mem hj))) with q | q
      · exact absurd q (Nat.succ_ne_zero j)
      · rw [q]; exact (ih (by omega)).2

theorem sig_ne (h : T.Ok g d) {c : Cell} (hc : c ∈ T.P.trailCells) : T.node (.sig c) ≠ d := fun e => by
  have := (h.atD (sig_mem hc)).1 e
  simp at this

/-- with the flag up the observations tell the bit -/
theorem open_told (h : Stakes N T M d) {a : Assign} (ha : N.bn.Possible a) (hf : T.wires.read a (.flag 0) = true) :
    T.wires.read a (.sig (.main T.P.n)) = T.told a := by
  have hr : T.P.Runs true (fun i => T.wires.read a (.sig i)) := by
    intro i hi
    rcases h.runs ha.1 (sig_mem hi) (sig_ne h.ok hi) (ha.2 _ (h.ok.nodes h.usable.good.wf.edgeNodes (sig_mem hi))) with q | q
    · exact Or.inl q
    · right
      show T.wires.read a (.sig i) = _
      rw [q]
      show (_ && (_ || T.wires.read a (.flag (T.k - 1)))) = _
      rw [h.flags ha _ (by omega), hf]
      simp
  have := T.P.signal hr (by unfold Plan.gateOpen; simp [h.ok.gateless])
  rw [T.P.total_seen hr] at this
  exact this

/-- with the flag down nothing arrives at the start of the trail -/
theorem closed_start (h : Stakes N T M d) {a : Assign} (ha : N.bn.Possible a) (hf : T.wires.read a (.flag 0) = false) :
    T.wires.read a (.sig (.main 0)) = false := by
  have hi : Cell.main 0 ∈ T.P.trailCells := Plan.mem_trailCells.2 (Or.inl ⟨0, by omega, rfl⟩)
  rcases h.runs ha.1 (sig_mem hi) (sig_ne h.ok hi) (ha.2 _ (h.ok.nodes h.usable.good.wf.edgeNodes (sig_mem hi))) with q | q
  · have q' : T.P.left 0 = false ∧ T.P.right 0 = false := q
    have := q'.2
    simp [Plan.right, h.ok.back, Nat.pos_of_ne_zero h.ok.long] at this
  · rw [q]
    show (_ && (decide (Cell.main 0 ≠ Cell.main 0) || T.wires.read a (.flag (T.k - 1)))) = _
    rw [h.flags ha _ (by omega), hf]
    simp

theorem pays (h : Stakes N T M d) {a : Assign} (ha : N.bn.Possible a) :
    (((N.m.agentUtilities.get? 0).getD []).map a).sum = T.pay M (T.wires.read a) := by
  have hval : ∀ v, N.m.role v = .utility 0 → a v = if v = T.P.u then T.pay M (T.wires.read a) else 0 := by
    intro v hv
    have hn : v ∈ N.g.nodes := h.usable.roles.nodes v (Or.inr (Dict.mem_keys.2 ⟨0, (role_utility h.usable.roles).1 hv⟩))
    have hvd : v ≠ d := by rintro rfl; rw [h.dec] at hv; simp at hv
    have hR := (h.kern v hn hvd a ha.1).1 (ha.2 v hn)
    unfold R at hR
    split
    · rename_i e; rwa [if_pos e] at hR
    · rename_i e
      rw [if_neg e] at hR
      rw [hR.1]
      refine Wiring.enc_false _ (fun i hi => ?_)
      unfold Wiring.here
      have : T.wires.node i ≠ v := by
        intro q
        obtain ⟨w, hw⟩ := h.ok.child hi
        exact h.leaves v w hv (q ▸ hw)
      simp [this]
  have hm := fun v => mem_utils h.usable (agent := 0) (u := v)
  unfold utils at hm
  have hnd : ((N.m.agentUtilities.get? 0).getD []).Nodup := utils_nodup h.usable.roles 0
  generalize hl : (N.m.agentUtilities.get? 0).getD [] = l at hm hnd ⊢
  generalize T.pay M (T.wires.read a) = c at hval ⊢
  have e : l.map a = l.map (fun v => if v = T.P.u then c else 0) := List.map_congr_left (fun v hv => hval v ((hm v).1 hv))
  rw [e]
  have hu : T.P.u ∈ l := (hm _).2 h.util
  have key : ∀ (l : List Node), l.Nodup → (l.map (fun v => if v = T.P.u then c else 0)).sum = if T.P.u ∈ l then c else 0 := by
    intro l
    induction l with
    | nil => simp
    | cons v l ih =>
      intro hn
      obtain ⟨n1, n2⟩ := List.nodup_cons.1 hn
      simp only [List.map_cons, List.sum_cons, ih n2, List.mem_cons]
      by_cases e : v = T.P.u
      · subst e; simp [n1]
      · simp [e, Ne.symm e]
  rw [key l hnd, if_pos hu]

/-- every world is possible if `d` plays along -/
theorem play (h : Stakes N T M d) (γ : Nat → Bool) (fl s : Bool) {c : Outcome} (hc : c ∈ N.dom d)
    (hpos : 0 < N.kernel d (Assign.upd (T.wires.assign (T.world γ fl s false false)) d c)) :
    ∃ a, N.bn.Possible a ∧ a d = c ∧ N.kernel d a = N.kernel d (Assign.upd (T.wires.assign (T.world γ fl s false false)) d c) ∧
      ∀ i ∈ T.cells, T.wires.read a i = T.world γ fl s (T.wires.bit (.guess 0) c) (T.wires.bit (.bet 0) c) i := by
  set b := T.wires.bit (.guess 0) c with hb
  set e := T.wires.bit (.bet 0) c with he
  set β := T.world γ fl s b e with hβ
  let a : Assign := fun v => if v = d then c else if v = T.P.u then T.pay M β else T.wires.assign β v
  have had : a d = c := by simp [a]
  have hread : ∀ i ∈ T.cells, T.wires.read a i = β i := by
    intro i hi
    by_cases hd : T.node i = d
    · have e1 : T.wires.read a i = T.wires.bit i c := by
        show T.wires.bit i (a (T.node i)) = _
        rw [hd, had]
      rw [e1]
      rcases (h.ok.atD hi).1 hd with rfl | rfl <;> rfl
    · rw [← Wiring.read_assign (W := T.wires) (β := β) hi]
      show T.wires.bit i (a (T.node i)) = T.wires.bit i (T.wires.assign β (T.node i))
      simp only [a, hd, if_false, h.ok.node_ne hi]
  have hin : N.InDom a := by
    intro v hv
    by_cases e : v = d
    · subst e; rw [had]; exact hc
    · rw [h.dom v hv]
      unfold Bet.dom
      by_cases eu : v = T.P.u
      · subst eu; simp only [a, e, if_false, if_true]; exact pay_mem _
      · simp only [a, e, if_false, eu]; exact Wiring.assign_dom
  have hkd : N.kernel d a = N.kernel d (Assign.upd (T.wires.assign (T.world γ fl s false false)) d c) := by
    refine kernel_depends h.usable.good h.d_mem _ _ (fun u hu => ?_)
    rcases hu with rfl | hu
    · simp [a]
    · have hne : u ≠ d := by rintro rfl; exact h.usable.good.wf.acyclic _ (TransGen.single hu)
      have hnu : u ≠ T.P.u := by rintro rfl; exact h.ok.leaf _ hu
      rw [Assign.upd_ne _ _ hne]
      simp only [a, hne, if_false, hnu]
      unfold Wiring.assign
      refine Wiring.here_congr (fun i hi hn => ?_)
      rcases mem_cells.1 hi with ⟨c, hcc, rfl⟩ | ⟨j, hj, rfl⟩ | ⟨j, hj, rfl⟩ | ⟨j, hj, rfl⟩
      · cases c <;> rfl
      · rfl
      · exact absurd rfl ((h.ok.placed.plain h.ok.acyc hu (Plan.guess_mem hj) hn).1 j)
      · exact absurd rfl ((h.ok.placed.plain h.ok.acyc hu (Plan.guess_mem hj) hn).1 j)
  refine ⟨a, ⟨hin, fun v hv => ?_⟩, had, hkd, hread⟩
  by_cases ed : v = d
  · subst ed
    show 0 < N.kernel v a
    rw [hkd]; exact hpos
  · refine (h.kern v hv ed a hin).2 ?_
    unfold R
    by_cases eu : v = T.P.u
    · rw [if_pos eu, pay_congr hread]
      subst eu
      simp [a, ed]
    · rw [if_neg eu]
      refine Wiring.R_of_read h.ok.local hread (by simp only [a, ed, eu, if_false]) (fun i hi _ => ?_)
      exact h.ok.world_rule γ fl s b e hi

/-- some outcome of `d` is played in every context -/
theorem some_play (h : Stakes N T M d) (a : Assign) (ha : ∀ v ∈ N.g.nodes, v ≠ d → v ≠ T.P.u → a v ∈ N.dom v) :
    ∃ c ∈ N.dom d, 0 < N.kernel d (Assign.upd a d c) := by
  let a1 : Assign := fun v => if v = d then T.wires.enc (fun _ => false) else if v = T.P.u then 0 else a v
  have hin0 : N.InDom a1 := fun v hv => by
    by_cases e : v = d
    · subst e
      rw [h.dom v hv]
      unfold Bet.dom
      rw [if_neg h.d_ne]
      simp only [a1, if_true]
      exact T.wires.enc_dom _
    · by_cases eu : v = T.P.u
      · subst eu; rw [h.dom _ hv]; unfold Bet.dom; simp [a1, e]
      · simp only [a1, e, eu, if_false]; exact ha v hv e eu
  have hk : ∀ c, N.kernel d (Assign.upd a1 d c) = N.kernel d (Assign.upd a d c) := by
    intro c
    refine kernel_depends h.usable.good h.d_mem _ _ (fun u hu => ?_)
    rcases hu with rfl | hu
    · simp
    · have hne : u ≠ d := by rintro rfl; exact h.usable.good.wf.acyclic _ (TransGen.single hu)
      have hnu : u ≠ T.P.u := by rintro rfl; exact h.ok.leaf _ hu
      rw [Assign.upd_ne _ _ hne, Assign.upd_ne _ _ hne]
      simp [a1, hne, hnu]
  by_contra hcon
  push Not at hcon
  have hsum := (h.usable.normalised d h.d_mem a1 hin0).2
  rw [List.map_congr_left (fun c _ => hk c)] at hsum
  have : ∀ (l : List Outcome), (∀ x ∈ l, N.kernel d (Assign.upd a d x) ≤ 0) → (l.map (fun x => N.kernel d (Assign.upd a d x))).sum ≤ 0 := by
    intro l
    induction l with
    | nil => simp
    | cons x l ih =>
      intro hl
      simp only [List.map_cons, List.sum_cons]
      have := ih (fun y hy => hl y (by simp [hy]))
      have := hl x (by simp)
      linarith
  have := this _ hcon
  rw [hsum] at this
  linarith

/-- the flag can be up -/
theorem exists_open (h : Stakes N T M d) : ∃ a, N.bn.Possible a ∧ T.wires.read a (.flag 0) = true := by
  obtain ⟨c, hc, hpos⟩ := h.some_play (T.wires.assign (T.world (fun _ => false) true false false false)) (fun v hv _ e => by
    rw [h.dom v hv]; unfold Bet.dom; rw [if_neg e]; exact Wiring.assign_dom)
  obtain ⟨a, h1, _, _, h4⟩ := h.play _ _ _ hc hpos
  exact ⟨a, h1, by rw [h4 _ (flag_mem (Nat.zero_le _))]; rfl⟩

/-- what is read depends on nodes only -/
theorem read_depends (h : Stakes N T M d) {i : Pin} (hi : i ∈ T.cells) {a b : Assign} (hab : ∀ v ∈ N.g.nodes, a v = b v) :
    T.wires.read a i = T.wires.read b i := by
  show T.wires.bit i (a (T.node i)) = T.wires.bit i (b (T.node i))
  rw [hab _ (h.ok.nodes h.usable.good.wf.edgeNodes hi)]

/-- the flag is up -/
def up (T : Bet) (a : Assign) : Bool := T.wires.read a (.flag 0)

/-- a bet with the flag down, and its success -/
def risky (T : Bet) (good : Bool) (a : Assign) : Bool :=
  !T.wires.read a (.flag 0) && T.wires.read a (.bet 0) && ((T.wires.read a (.sig (.main T.P.n)) == T.wires.read a (.guess 0)) == good)

theorem up_depends (h : Stakes N T M d) : DependsOn (up T) (· ∈ N.g.nodes) := fun a b hab => h.read_depends (flag_mem (Nat.zero_le _)) hab

theorem risky_depends (h : Stakes N T M d) (good : Bool) : DependsOn (risky T good) (· ∈ N.g.nodes) := fun a b hab => by
  unfold risky
  rw [h.read_depends (flag_mem (Nat.zero_le _)) hab, h.read_depends (bet_mem (Nat.zero_le _)) hab, h.read_depends (main_mem (le_refl _)) hab,
    h.read_depends (guess_mem (Nat.zero_le _)) hab]

theorem pay_eq (h : Stakes N T M d) {a : Assign} (ha : N.bn.Possible a) : T.pay M (T.wires.read a) =
    if T.wires.read a (.bet 0) then (if T.wires.read a (.sig (.main T.P.n)) == T.wires.read a (.guess 0) then M + 1 else 0) else M := by
  unfold pay
  rw [(h.bets ha _ (le_refl _)).1, (h.bets ha _ (le_refl _)).2]

/-- a good bet with the flag down can be turned into a bad one -/
theorem flip (h : Stakes N T M d) {a : Assign} (ha : N.bn.Possible a) (hg : risky T true a = true) :
    ∃ a', N.bn.Possible a' ∧ risky T false a' = true ∧ N.kernel d a' = N.kernel d a := by
  simp only [risky, Bool.and_eq_true, Bool.not_eq_true', beq_true, beq_iff_eq] at hg
  obtain ⟨⟨hf, hb⟩, hw⟩ := hg
  let γ : Nat → Bool := fun p => T.wires.read a (.sig (T.P.landing p))
  -- the signal that makes the guess wrong
  let s : Bool := (!T.wires.read a (.guess 0)) ^^ tot T.P γ T.P.n
  have hcol : T.P.col T.P.n = false := by simp [Plan.col]
  have hctx : N.kernel d (Assign.upd (T.wires.assign (T.world γ false s false false)) d (a d)) = N.kernel d a := by
    refine kernel_depends h.usable.good h.d_mem _ _ (fun u hu => ?_)
    rcases hu with rfl | hu
    · simp
    · have hne : u ≠ d := by rintro rfl; exact h.usable.good.wf.acyclic _ (TransGen.single hu)
      have hnu : u ≠ T.P.u := by rintro rfl; exact h.ok.leaf _ hu
      have hun := (h.usable.good.wf.edgeNodes _ _ hu).1
      rw [Assign.upd_ne _ _ hne]
      exact (h.ok.context (fun j hj => by rw [h.flags ha j hj, hf]) (h.closed_start ha hf) s false false hu (h.obeys ha.1 hun hne hnu (ha.2 _ hun)).1).symm
  obtain ⟨a', h1, h2, h3, h4⟩ := h.play γ false s (ha.1 d h.d_mem) (by rw [hctx]; exact ha.2 d h.d_mem)
  refine ⟨a', h1, ?_, h3.trans hctx⟩
  have eg : T.wires.bit (.guess 0) (a d) = T.wires.read a (.guess 0) := by
    show _ = T.wires.bit _ (a (T.P.act 0)); rw [h.ok.placed.act0]
  have eb : T.wires.bit (.bet 0) (a d) = T.wires.read a (.bet 0) := by
    show _ = T.wires.bit _ (a (T.P.act 0)); rw [h.ok.placed.act0]
  have hmain : T.world γ false s (T.wires.read a (.guess 0)) (T.wires.read a (.bet 0)) (.sig (.main T.P.n)) = !T.wires.read a (.guess 0) := by
    show (if T.P.col T.P.n then _ else (s ^^ tot T.P γ T.P.n) && (decide (T.P.n ≠ 0) || false)) = _
    rw [hcol, decide_eq_true h.ok.long]
    simp [s]
  unfold risky
  rw [h4 _ (flag_mem (Nat.zero_le _)), h4 _ (bet_mem (Nat.zero_le _)), h4 _ (main_mem (le_refl _)), h4 _ (guess_mem (Nat.zero_le _)), eg, eb, hmain]
  show (!false && T.wires.read a (.bet 0) && (((!T.wires.read a (.guess 0)) == T.wires.read a (.guess 0)) == false)) = true
  rw [hb]
  cases T.wires.read a (.guess 0) <;> rfl

theorem EU_W (h : Stakes N T M d) : N.EU 0 = N.bn.W (fun a => T.pay M (T.wires.read a)) := by
  rw [EU_eq h.usable]
  exact BN.W_possible h.bn_prob (fun a ha => h.pays ha)

/-- what the rule can be worth -/
theorem EU_le (h : Stakes N T M d) (hM : 0 < M) : N.EU 0 ≤ M + N.bn.W (fun a => if up T a then 1 else 0) +
    (N.bn.W (fun a => if risky T true a then 1 else 0) + (-M) * N.bn.W (fun a => if risky T false a then 1 else 0)) := by
  have hB := h.bn_prob
  rw [h.EU_W, ← BN.W_mul_const, ← BN.W_const hB M, ← BN.W_add, ← BN.W_add, ← BN.W_add]
  rw [BN.W_const hB M]
  refine BN.W_le_possible hB (fun a ha => ?_)
  rw [h.pay_eq ha]
  unfold up risky
  have hop := h.open_told ha
  cases T.wires.read a (.flag 0) <;> cases T.wires.read a (.bet 0) <;> cases T.wires.read a (.sig (.main T.P.n)) <;> cases T.wires.read a (.guess 0) <;>
    simp <;> linarith

/-- nobody who plays well bets with the flag down, and everybody who does bets with the flag up -/
theorem best (h : Stakes N T M d) (hM : (T.size : Rat) ^ (2 * N.g.nodes.length) < M)
    (hbest : M + N.bn.W (fun a => if up T a then 1 else 0) ≤ N.EU 0) {a : Assign} (ha : N.bn.Possible a) :
    T.wires.read a (.bet 0) = T.wires.read a (.flag 0) := by
  have hB := h.bn_prob
  have hs0 : 0 < T.size := by unfold size; positivity
  have hsp : (0 : Rat) < (T.size : Rat) ^ (2 * N.g.nodes.length) := by positivity
  have hM0 : 0 < M := lt_trans hsp hM
  have hle := h.EU_le hM0
  have hrare := BN.rare hB (d := d) h.d_mem hs0 (fun v hv => by show (N.dom v).length ≤ _; rw [h.dom v hv]; exact dom_length v)
    (fun v hv hvd a ha => h.low v hv hvd a ha.1 (ha.2 v hv)) (F := risky T true) (G := risky T false) (h.risky_depends false)
    (fun a ha hg => h.flip ha hg)
  have hn : ∀ g, 0 ≤ N.bn.W (fun a => if risky T g a then 1 else 0) := fun g => BN.W_nonneg hB (fun a _ => by split <;> norm_num)
  have hbad : N.bn.W (fun a => if risky T false a then 1 else 0) = 0 := by
    by_contra hc
    have hp := lt_of_le_of_ne (hn false) (Ne.symm hc)
    have := mul_lt_mul_of_pos_right hM hp
    have e : N.bn.g.nodes.length = N.g.nodes.length := rfl
    rw [e] at hrare
    linarith
  rw [hbad] at hrare hle
  have hgood : N.bn.W (fun a => if risky T true a then 1 else 0) = 0 := le_antisymm (by linarith) (hn true)
  have hno : ∀ g, ∀ a, N.bn.Possible a → risky T g a = false := by
    intro g a ha
    by_contra hc
    have hc' : risky T g a = true := by simpa using hc
    have := BN.W_pos hB (f := fun a => if risky T g a then 1 else 0) (fun a _ => by split <;> norm_num)
      (fun x y hxy => by simp only [h.risky_depends g x y hxy]) ha (by simp [hc'])
    cases g
    · rw [hbad] at this; exact lt_irrefl _ this
    · rw [hgood] at this; exact lt_irrefl _ this
  cases hf : T.wires.read a (.flag 0) with
  | false =>
    by_contra hb
    have hb' : T.wires.read a (.bet 0) = true := by simpa using hb
    have := hno (T.wires.read a (.sig (.main T.P.n)) == T.wires.read a (.guess 0)) a ha
    simp [risky, hf, hb'] at this
  | true =>
    by_contra hb
    have hb' : T.wires.read a (.bet 0) = false := by simpa using hb
    have hlt := BN.W_pos hB (f := fun a => (M + (if up T a then 1 else 0)) + (-1) * T.pay M (T.wires.read a)) (fun a ha => by
        have h1 := hno true a ha
        have h2 := hno false a ha
        rw [h.pay_eq ha]
        unfold up
        unfold risky at h1 h2
        revert h1 h2
        cases T.wires.read a (.flag 0) <;> cases T.wires.read a (.bet 0) <;> cases T.wires.read a (.sig (.main T.P.n)) <;>
          cases T.wires.read a (.guess 0) <;> simp <;> linarith)
      (fun x y hxy => by simp only [h.up_depends x y hxy, pay_congr (M := M) (fun i hi => h.read_depends hi hxy)]) ha (by
        rw [h.pay_eq ha]
        unfold up
        rw [hf, hb']
        simp)
    rw [BN.W_add, BN.W_add, BN.W_mul_const, BN.W_const hB, ← h.EU_W] at hlt
    linarith

theorem told_depends (h : T.Ok g d) {a b : Assign} (hab : ∀ v, g.Edge v d → a v = b v) : T.told a = T.told b := by
  unfold told
  have h1 : T.wires.read a (.sig (.main 0)) = T.wires.read b (.sig (.main 0)) := by
    show T.wires.bit _ (a (T.P.w 0)) = T.wires.bit _ (b (T.P.w 0))
    rw [hab _ h.placed.root]
  rw [h1, T.P.seen_congr (fun c hc => ?_)]
  show T.wires.bit _ (a (T.P.node (T.P.landing c))) = T.wires.bit _ (b (T.P.node (T.P.landing c)))
  rw [T.P.landing_node h.placed.ok hc, hab _ (h.placed.ok.land c hc)]

theorem plan_depends (h : T.Ok g d) : DependsOn (T.plan d) (fun v => g.Edge v d) := fun a b hab => by
  unfold plan
  rw [told_depends h hab]
  have : T.wires.read a (.flag T.k) = T.wires.read b (.flag T.k) := by
    show T.wires.bit _ (a (T.f T.k)) = T.wires.bit _ (b (T.f T.k))
    rw [h.arrive, hab _ h.placed.root]
  rw [this]

/-- betting when the flag is up is worth it -/
theorem wise (h : Stakes N T M d) (hp : ∀ a, N.bn.Possible a → a d = T.plan d a) :
    N.EU 0 = M + N.bn.W (fun a => if up T a then 1 else 0) := by
  have hB := h.bn_prob
  rw [h.EU_W, ← BN.W_const hB M, ← BN.W_add, BN.W_const hB M]
  refine BN.W_possible hB (fun a ha => ?_)
  have hbit : ∀ i, i = Pin.guess 0 ∨ i = Pin.bet 0 → T.wires.read a i = if i = .bet 0 then T.wires.read a (.flag T.k) else T.told a := by
    intro i hi
    have hic : i ∈ T.cells := by
      rcases hi with rfl | rfl
      · exact guess_mem (Nat.zero_le _)
      · exact bet_mem (Nat.zero_le _)
    have hid : T.node i = d := (h.ok.atD hic).2 hi
    have : T.wires.read a i = T.wires.bit i (a d) := by
      show T.wires.bit i (a (T.node i)) = _; rw [hid]
    rw [this, hp a ha]
    unfold plan
    rw [Wiring.bit_enc hic]
    unfold Wiring.here
    show (decide (T.node i = d) && _) = _
    simp [hid]
  have e1 := hbit _ (Or.inl rfl)
  have e2 := hbit _ (Or.inr rfl)
  rw [if_neg (by simp)] at e1
  rw [if_pos rfl, h.flags ha _ (le_refl _)] at e2
  rw [h.pay_eq ha, e2, e1]
  unfold up
  cases hf : T.wires.read a (.flag 0) with
  | false => simp
  | true => rw [h.open_told ha hf]; simp

/-- with the controlled node held at zero nobody who plays well bets -/
theorem held (h : Stakes N T M d) (hquiet : ∀ a, N.bn.Possible a → T.wires.read a (.bet 0) = T.wires.read a (.flag 0))
    (h0 : (0 : Rat) ∈ N.dom (T.f 0)) : N.PDo [(T.f 0, 0)] (fun a => T.wires.bit (.bet 0) (a d)) = 0 := by
  have hxn : T.f 0 ∈ N.g.nodes := h.ok.nodes h.usable.good.wf.edgeNodes (flag_mem (Nat.zero_le _))
  have hB := doBN_prob h.usable.good h.usable.normalised (int := [(T.f 0, 0)]) (by simp) (by simpa using h0)
  rw [PDo_eq_W (by simpa using hxn)]
  refine BN.W_impossible hB (fun a ha => ?_)
  have hset : a (T.f 0) = 0 := by
    have := ha.2 (T.f 0) hxn
    change 0 < (if T.f 0 ∈ [T.f 0] then (if ∀ p ∈ [((T.f 0, 0) : Node × Outcome)], p.1 = T.f 0 → a (T.f 0) = p.2 then (1 : Rat) else 0) else _) at this
    rw [if_pos (by simp)] at this
    by_contra hc
    rw [if_neg (fun q => hc (q (T.f 0, 0) (by simp) rfl))] at this
    exact lt_irrefl _ this
  have hk : ∀ v ∈ N.g.nodes, v ≠ T.f 0 → 0 < N.kernel v a := by
    intro v hv hvx
    have := ha.2 v hv
    change 0 < (if v ∈ [T.f 0] then _ else N.kernel v a) at this
    rwa [if_neg (by simpa using hvx)] at this
  have hin : N.InDom a := fun v hv => ha.1 v hv
  have hz : ∀ i, T.node i = T.f 0 → T.wires.read a i = false := by
    intro i hi
    show T.wires.bit i (a (T.node i)) = false
    rw [hi, hset]
    simp [Wiring.bit]
  have hfl : ∀ j ≤ T.k, T.wires.read a (.flag j) = false := by
    intro j
    induction j with
    | zero => intro _; exact hz _ rfl
    | succ j ih =>
      intro hj
      by_cases e : T.node (.flag (j + 1)) = T.f 0
      · exact hz _ e
      · have hn : T.node (.flag (j + 1)) ≠ d := fun e => by simpa using (h.ok.atD (flag_mem hj)).1 e
        rcases h.runs hin (flag_mem hj) hn (hk _ (h.ok.nodes h.usable.good.wf.edgeNodes (flag_mem hj)) e) with q | q
        · exact absurd q (Nat.succ_ne_zero j)
        · rw [q]; exact ih (by omega)
  have hm0 : T.wires.read a (.sig (.main 0)) = false := by
    by_cases e : T.node (.sig (.main 0)) = T.f 0
    · exact hz _ e
    · have hi : Cell.main 0 ∈ T.P.trailCells := Plan.mem_trailCells.2 (Or.inl ⟨0, by omega, rfl⟩)
      rcases h.runs hin (sig_mem hi) (sig_ne h.ok hi) (hk _ (h.ok.nodes h.usable.good.wf.edgeNodes (sig_mem hi)) e) with q | q
      · have q' : T.P.left 0 = false ∧ T.P.right 0 = false := q
        have := q'.2
        simp [Plan.right, h.ok.back, Nat.pos_of_ne_zero h.ok.long] at this
      · rw [q]
        show (_ && (decide (Cell.main 0 ≠ Cell.main 0) || T.wires.read a (.flag (T.k - 1)))) = _
        rw [hfl _ (by omega)]
        simp
  let γ : Nat → Bool := fun p => T.wires.read a (.sig (T.P.landing p))
  have hctx : N.kernel d (Assign.upd (T.wires.assign (T.world γ false false false false)) d (a d)) = N.kernel d a := by
    refine kernel_depends h.usable.good h.d_mem _ _ (fun u hu => ?_)
    rcases hu with rfl | hu
    · simp
    · have hne : u ≠ d := by rintro rfl; exact h.usable.good.wf.acyclic _ (TransGen.single hu)
      have hnu : u ≠ T.P.u := by rintro rfl; exact h.ok.leaf _ hu
      have hun := (h.usable.good.wf.edgeNodes _ _ hu).1
      rw [Assign.upd_ne _ _ hne]
      refine (h.ok.context hfl hm0 false false false hu ?_).symm
      by_cases ex : u = T.f 0
      · subst ex
        rw [hset]
        refine (Wiring.enc_false _ (fun i hi => ?_)).symm
        unfold Wiring.here
        by_cases e : T.wires.node i = T.f 0
        · rw [hz i e]; simp
        · simp [e]
      · exact (h.obeys hin hun hne hnu (hk u hun ex)).1
  have hdx : d ≠ T.f 0 := fun e => h.ok.start e.symm
  obtain ⟨a', h1, h2, _, h4⟩ := h.play γ false false (hin d h.d_mem) (by rw [hctx]; exact hk d h.d_mem hdx)
  have := hquiet a' h1
  rw [h4 _ (flag_mem (Nat.zero_le _)), h4 _ (bet_mem (Nat.zero_le _))] at this
  have this' : T.wires.bit (.bet 0) (a d) = false := this
  simp [this']

/-- everybody who plays well responds -/
theorem responds (h : Stakes N T M d) (hM : (T.size : Rat) ^ (2 * N.g.nodes.length) < M)
    (hbest : M + N.bn.W (fun a => if up T a then 1 else 0) ≤ N.EU 0) (h0 : (0 : Rat) ∈ N.dom (T.f 0)) :
    N.PDo [(T.f 0, 0)] (fun a => T.wires.bit (.bet 0) (a d)) ≠ N.P (fun a => T.wires.bit (.bet 0) (a d)) := by
  rw [h.held (fun a ha => h.best hM hbest ha) h0, P_eq_W]
  obtain ⟨a, h1, h2⟩ := h.exists_open
  refine ne_of_lt (BN.W_pos h.bn_prob (fun a _ => by split <;> norm_num) (fun x y hxy => by simp only [hxy d h.d_mem]) h1 ?_)
  have e := h.best hM hbest h1
  have e2 : T.wires.read a (.bet 0) = T.wires.bit (.bet 0) (a d) := by
    show T.wires.bit _ (a (T.P.act 0)) = _; rw [h.ok.placed.act0]
  rw [e2, h2] at e
  simp [e]

end Stakes
end Bet
end Verif

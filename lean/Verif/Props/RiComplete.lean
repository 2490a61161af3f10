import Verif.Lemmas.Joint
import Verif.Lemmas.Stakes
import Verif.Props.RiMeaning
import Verif.Props.VoiComplete

/-!
# Property C93: the criterion for response incentives is complete
-/

namespace Verif

open Graph Relation Macid Net

/-- Some intervention on `x` changes, under every optimal policy, the probability of some event about the decision `d`. -/
def AlwaysResponds (cid : Net) (d x : Node) : Prop :=
  ∃ (v : Outcome) (E : Outcome → Bool), ∀ n, n.Usable → OnlyRules cid cid.m.decisions n → cid.IsMaxEU 0 (n.EU 0) →
    n.IntOk [(x, v)] ∧ n.PDo [(x, v)] (fun a => E (a d)) ≠ n.P (fun a => E (a d))

theorem OneDecision.decisions {net : Net} {d : Node} (h : OneDecision net d) (e : Node) : e ∈ net.m.decisions ↔ e = d := by
  rw [decisions_role]
  constructor
  · rintro ⟨b, q⟩; exact ((h.dec e b).1 q).1
  · rintro rfl; exact ⟨0, h.isDec⟩

theorem Allows.low {g : Graph} {dom : Node → List Outcome} {R : Node → Assign → Prop} {v : Node} {a : Assign} (hp : 0 < spread dom R v a) {L : Nat}
    (hL : (dom v).length ≤ L) : 1 / (L : Rat) ≤ spread dom R v a := by
  classical
  unfold spread at hp ⊢
  split at hp
  · rename_i q
    rw [if_pos q]
    have h1 : ((dom v).filter (fun x => decide (R v (Assign.upd a v x)))).length ≤ L := le_trans (List.length_filter_le _ _) hL
    have h0 : 0 < ((dom v).filter (fun x => decide (R v (Assign.upd a v x)))).length := by
      rw [List.length_pos_iff_exists_mem]
      exact ⟨a v, by rw [List.mem_filter]; exact ⟨q.2, by rw [Assign.upd_self]; simpa using q.1⟩⟩
    exact one_div_le_one_div_of_le (by exact_mod_cast h0) (by exact_mod_cast h1)
  · exact absurd hp (lt_irrefl _)

/-- the betting game -/
theorem bet_responds {net : Net} {d : Node} (h : OneDecision net d) {T : Bet} (hT : T.Ok net.g d) (hu : net.m.role T.P.u = .utility 0) :
    ∃ rels cid, net.addCpds rels = (cid, .ok ()) ∧ cid.m = net.m ∧ cid.Usable ∧ AlwaysResponds cid d (T.f 0) := by
  have hw := h.roles.wf
  let M : Rat := (T.size : Rat) ^ (2 * net.g.nodes.length) + 1
  have hM : (T.size : Rat) ^ (2 * net.g.nodes.length) < M := by simp only [M]; linarith
  have hM0 : 0 < M := by simp only [M]; positivity
  have hA := hT.allows (M := M) hw
  obtain ⟨rels, cid, k1, k2, _, _, _, k6, _, k8, k9⟩ := Net.parameterise h.fresh hw (dom := T.dom M) (σ := spread (T.dom M) (T.R M)) (free := (· = d))
    (fun v => Bet.dom_sorted hM0 v) (fun v => Bet.dom_ne v) (fun v hv => hA.rule hv _)
  have hU := k9 h.roles h.base h.staffed
  have hg : cid.g = net.g := by show cid.m.g = net.m.g; rw [k2]
  have hdc : ∀ e, e ∈ cid.m.decisions ↔ e = d := by rw [k2]; exact h.decisions
  have hst : ∀ n, n.Usable → OnlyRules cid cid.m.decisions n → Bet.Stakes n T M d := by
    intro n h1 h2
    have hng : n.g = net.g := h2.g.trans hg
    have hk : ∀ v ∈ n.g.nodes, v ≠ d → ∀ a, n.InDom a → n.kernel v a = spread (T.dom M) (T.R M) v a := by
      intro v hv hvd a ha
      rw [h2.kernel (fun q => hvd ((hdc v).1 q)), k8 v (hng ▸ hv) hvd a ((h2.inDom a).1 ha)]
    refine ⟨h1, by rw [hng]; exact hT, fun v hv => by rw [h2.dom, k6 v (hng ▸ hv)], fun v hv hvd a ha => ?_, fun v hv hvd a ha hp => ?_,
      by rw [h2.m, k2]; exact hu, fun v w q => by rw [hng]; rw [h2.m, k2] at q; exact h.leaf v w 0 q, by rw [h2.m, k2]; exact h.isDec⟩
    · rw [hk v hv hvd a ha]
      refine hA.pos (hng ▸ hv) ?_
      have := ha v hv
      rwa [h2.dom, k6 v (hng ▸ hv)] at this
    · rw [hk v hv hvd a ha] at hp ⊢
      exact Allows.low (g := net.g) hp (Bet.dom_length v)
  have hself := hst cid hU (.rfl' _ _)
  -- the rule that bets when the flag is up
  obtain ⟨nw, w1, w2, w3⟩ := realize1 hU (d := d) (hg ▸ h.node) (σ := fun a => if a d = T.plan d a then 1 else 0)
    (BN.isRule_point (B := cid.bn) (hg ▸ hw.acyclic : cid.g.Acyclic) (dom_props hU.good (hg ▸ h.node)).1 (c := T.plan d)
      (Bet.Stakes.plan_depends (hg ▸ hT : T.Ok cid.g d)) (fun a => by
        show T.plan d a ∈ cid.dom d
        rw [k6 d h.node]
        unfold Bet.dom
        rw [if_neg hself.d_ne]
        exact T.wires.enc_dom _))
  have w2' : OnlyRules cid cid.m.decisions nw := w2.congr (fun w => by rw [hdc]; simp)
  have hsw := hst nw w1 w2'
  have hwise := hsw.wise (fun a ha => by
    have := ha.2 d hsw.d_mem
    change 0 < nw.kernel d a at this
    rw [w3 a ((w2.inDom a).1 ha.1)] at this
    by_contra hc
    rw [if_neg hc] at this
    exact lt_irrefl _ this)
  refine ⟨rels, cid, k1, k2, hU, 0, T.wires.bit (.bet 0), fun n n1 n2 n3 => ?_⟩
  have hsn := hst n n1 n2
  have hng : n.g = net.g := n2.g.trans hg
  have hf0 : T.f 0 ∈ net.g.nodes := hT.nodes hw.edgeNodes (Bet.flag_mem (Nat.zero_le _))
  have hfu : T.f 0 ≠ T.P.u := hT.node_ne (Bet.flag_mem (Nat.zero_le _))
  have h0 : (0 : Rat) ∈ n.dom (T.f 0) := by
    rw [n2.dom, k6 _ hf0]
    unfold Bet.dom
    rw [if_neg hfu, ← Wiring.enc_false T.wires (β := fun _ => false) (fun _ _ => rfl)]
    exact T.wires.enc_dom _
  have hdom : n.dom (T.f 0) = T.wires.dom := by rw [n2.dom, k6 _ hf0]; unfold Bet.dom; rw [if_neg hfu]
  refine ⟨⟨by simp, fun p hp => ?_⟩, hsn.responds (by rw [hng]; exact hM) ?_ h0⟩
  · rw [List.mem_singleton] at hp
    subst hp
    exact ⟨hng ▸ hf0, h0, Or.inl (by rw [hdom]; exact T.wires.dom_sorted.imp (fun h => le_of_lt h))⟩
  · have hb := n3.bound nw w1 w2'
    rw [hwise] at hb
    -- the probability of the flag is the same for all rules
    have hnd : ¬ cid.g.DescEq d (T.f 0) := by
      intro q
      rw [hg] at q
      have hwalk : ∀ j ≤ T.k, net.g.DescEq (T.f 0) (T.f j) := by
        intro j
        induction j with
        | zero => intro _; exact ReflTransGen.refl
        | succ j ih => intro hj; exact (ih (by omega)).tail (cut_edge.1 (hT.walk j (by omega))).1
      have := hwalk T.k (le_refl _)
      rw [hT.arrive] at this
      exact hw.acyclic d (TransGen.tail' (q.trans this) hT.placed.root)
    have hP := hself.bn_prob
    have heq : ∀ N, N.Usable → OnlyRules cid cid.m.decisions N →
        N.bn.W (fun a => if Bet.Stakes.up T a then 1 else 0) = cid.bn.W (fun a => if Bet.Stakes.up T a then 1 else 0) := by
      intro N hN1 hN2
      have hPN := Net.bn_prob hN1.good hN1.normalised
      have eb : N.bn = ⟨cid.g, cid.dom, N.kernel⟩ := by unfold Net.bn; rw [hN2.g, hN2.dom]
      rw [eb] at hPN ⊢
      refine BN.W_upstream (k := cid.kernel) hP hPN (K := (· = d)) (fun v hv hvd a _ => hN2.kernel (fun q => hvd ((hdc v).1 q)) a) (fun x y hxy => ?_)
      have : Bet.Stakes.up T x = Bet.Stakes.up T y := by
        show T.wires.bit _ (x (T.f 0)) = T.wires.bit _ (y (T.f 0))
        rw [hxy (T.f 0) ⟨hg ▸ hf0, by rintro _ rfl; exact hnd⟩]
      simp only [this]
    rw [heq nw w1 w2'] at hb
    rw [heq n n1 n2]
    exact hb

/-! ## The other case: the observation reaches the utility directly -/

/-- a way from `f 0` to the utility `u` past the observation `f k` -/
structure Chain (g : Graph) (d : Node) (n k m : Nat) (f act : Nat → Node) (u : Node) : Prop where
  walk : ∀ j < n, (CutGraph g [d]).Edge (f j) (f (j + 1))
  start : f 0 ≠ d
  seen : k ≤ n
  obs : g.Edge (f k) d
  acts : ∀ j < m, (CutGraph g [d]).Edge (act j) (act (j + 1))
  act0 : act 0 = d
  pay : (CutGraph g [d]).Edge (act m) u
  take : (CutGraph g [d]).Edge (f n) u

def chainPlan (n m : Nat) (f act : Nat → Node) (u : Node) : Plan := ⟨n, f, fun _ => true, fun _ => 0, fun p _ => f p, 0, f, m, act, u⟩

namespace Chain

variable {g : Graph} {d : Node} {n k m : Nat} {f act : Nat → Node} {u : Node}

theorem col (p : Nat) : (chainPlan n m f act u).col p = false := by simp [chainPlan, Plan.col]

theorem ok (h : Chain g d n k m f act u) : (chainPlan n m f act u).Ok (CutGraph g [d]) (fun _ => False) :=
  ⟨fun p hp => by rw [if_pos (show (chainPlan n m f act u).fwd p = true from rfl)]; exact h.walk p hp, fun p q => by rw [col] at q; simp at q, fun p q => by rw [col] at q; simp at q,
    fun p q => by rw [col] at q; simp at q, fun _ _ _ _ q => q⟩

theorem game (h : Chain g d n k m f act u) : (chainPlan n m f act u).Game (CutGraph g [d]) :=
  ⟨fun j hj => absurd hj (Nat.not_lt_zero j), fun q => absurd rfl q, h.acts, h.pay, h.take⟩

theorem off (h : Chain g d n k m f act u) {j : Nat} (hj : j ≤ n) : f j ≠ d := by
  by_cases h0 : j = 0
  · subst h0; exact h.start
  · have := (cut_edge.1 (h.walk (j - 1) (by omega))).2
    rwa [show j - 1 + 1 = j by omega] at this

theorem cell {i : Cell} (hi : i ∈ (chainPlan n m f act u).allCells) : (∃ p ≤ n, i = .main p) ∨ (∃ j ≤ m, i = .guess j) ∨ i = .win := by
  rcases Plan.mem_allCells.1 hi with q | q
  · rcases Plan.mem_trailCells.1 q with q | ⟨p, j, hc, _⟩
    · exact Or.inl q
    · rw [col] at hc; simp at hc
  · rcases Plan.mem_gameCells.1 q with ⟨j, hj, _⟩ | q | q
    · exact absurd hj (Nat.not_lt_zero j)
    · exact Or.inr (Or.inl q)
    · exact Or.inr (Or.inr q)

theorem child (h : Chain g d n k m f act u) {i : Cell} (hi : i ∈ (chainPlan n m f act u).allCells) :
    i = .win ∨ ∃ v, g.Edge ((chainPlan n m f act u).node i) v := by
  rcases cell hi with ⟨p, hp, rfl⟩ | ⟨j, hj, rfl⟩ | rfl
  · right
    by_cases e : p = n
    · subst e; exact ⟨u, (cut_edge.1 h.take).1⟩
    · exact ⟨_, (cut_edge.1 (h.walk p (by omega))).1⟩
  · right
    by_cases e : j = m
    · subst e; exact ⟨u, (cut_edge.1 h.pay).1⟩
    · exact ⟨_, (cut_edge.1 (h.acts j (by omega))).1⟩
  · exact Or.inl rfl

theorem atD (h : Chain g d n k m f act u) {i : Cell} (hi : i ∈ (chainPlan n m f act u).allCells) :
    (chainPlan n m f act u).node i = d ↔ i = .guess 0 := by
  rcases cell hi with ⟨p, hp, rfl⟩ | ⟨j, hj, rfl⟩ | rfl
  · have : f p ≠ d := h.off hp
    show f p = d ↔ _
    simp [this]
  · show act j = d ↔ _
    by_cases h0 : j = 0
    · subst h0; simp [h.act0]
    · have := (cut_edge.1 (h.acts (j - 1) (by omega))).2
      rw [show j - 1 + 1 = j by omega] at this
      simp [this, h0]
  · show u = d ↔ _
    simp [(cut_edge.1 h.pay).2]

theorem arena (h : Chain g d n k m f act u) {net N : Net} (ho : OneDecision net d) (hg : g = net.g) (hu : net.m.role u = .utility 0)
    (hN : Follows net d ((chainPlan n m f act u).wires true) N) : Arena N (chainPlan n m f act u) true d := by
  subst hg
  refine ⟨hN.usable, fun v hv => hN.dom v (hN.g ▸ hv), fun v hv => hN.kern v (hN.g ▸ hv), by rw [hN.same]; exact hu, fun i hi q => ?_,
    by rw [hN.same]; exact ho.isDec, ((chainPlan n m f act u).local_game h.ok h.game true).mono (fun u v e => by rw [hN.g]; exact (cut_edge.1 e).1), fun i hi => ?_,
    fun i hi => h.atD hi⟩
  · rw [hN.same] at q
    rcases h.child hi with e | ⟨v, e⟩
    · exact e
    · exact absurd e (ho.leaf _ v 0 q)
  · rw [hN.g]
    rcases h.child hi with rfl | ⟨v, hv⟩
    · exact (ho.roles.wf.edgeNodes _ _ (cut_edge.1 h.pay).1).2
    · exact (ho.roles.wf.edgeNodes _ _ hv).1

theorem passes {N : Net} (hA : Arena N (chainPlan n m f act u) true d) {a : Assign} (ha : N.bn.Possible a) :
    ∀ j ≤ n, ((chainPlan n m f act u).wires true).read a (.main j) = ((chainPlan n m f act u).wires true).read a (.main 0) := by
  intro j
  induction j with
  | zero => intro _; rfl
  | succ j ih =>
    intro hj
    rcases hA.runs ha (Plan.main_mem hj) with q | q
    · exact absurd q.1 (by simp [Plan.left, chainPlan])
    · rw [q, ← ih (by omega)]
      simp [Plan.rule, Plan.sum, Plan.left, Plan.right, chainPlan]

theorem unseen (β : Cell → Bool) (p : Nat) : (chainPlan n m f act u).seen β p = false := by
  induction p with
  | zero => rfl
  | succ p ih => simp [Plan.seen, ih, col]

/-- who always wins repeats what is at the start -/
theorem repeats {N : Net} (hA : Arena N (chainPlan n m f act u) true d) (hE : (chainPlan n m f act u).prize ≤ N.EU 0) {a : Assign} (ha : N.bn.Possible a) :
    ((chainPlan n m f act u).wires true).read a (.guess 0) = ((chainPlan n m f act u).wires true).read a (.main 0) := by
  have hwin : ((chainPlan n m f act u).wires true).read a .win = true := by
    by_contra hc
    have : N.EU 0 < (chainPlan n m f act u).prize := by
      rw [EU_eq hA.usable]
      refine BN.W_lt hA.bn_prob (fun a ha => ?_) (fun x y hxy => ?_) ha ?_
      · rw [hA.pays ha]
        split
        · exact le_refl _
        · exact le_of_lt (Plan.prize_pos _)
      · congr 1
        apply List.map_congr_left
        intro u hu
        have := (mem_utils hA.usable (agent := 0) (u := u)).1 hu
        exact hxy u (hA.usable.roles.nodes u (Or.inr (Dict.mem_keys.2 ⟨0, (role_utility hA.usable.roles).1 this⟩)))
      · rw [hA.pays ha, if_neg hc]
        exact Plan.prize_pos _
    exact absurd hE (not_le.2 this)
  rcases hA.runs ha Plan.win_mem with q | q
  · exact absurd q (by simp [Plan.coin])
  · rw [hwin] at q
    have q' : true = (((chainPlan n m f act u).wires true).read a (.main n) == ((chainPlan n m f act u).wires true).read a (.guess m)) := q
    have e2 : ((chainPlan n m f act u).wires true).read a (.guess m) = ((chainPlan n m f act u).wires true).read a (.guess 0) := hA.guesses ha
    rw [passes hA ha n (le_refl _), e2] at q'
    exact (eq_of_beq q'.symm).symm

theorem reaches (h : Chain g d n k m f act u) {j : Nat} (hj : j ≤ n) : g.DescEq (f 0) (f j) := by
  induction j with
  | zero => exact ReflTransGen.refl
  | succ j ih => exact (ih (by omega)).tail (cut_edge.1 (h.walk j (by omega))).1

theorem below (h : Chain g d n k m f act u) {j : Nat} (hj : j ≤ m) : g.DescEq d (act j) := by
  induction j with
  | zero => rw [h.act0]; exact ReflTransGen.refl
  | succ j ih => exact (ih (by omega)).tail (cut_edge.1 (h.acts j (by omega))).1

/-- only the first bit is at the start -/
theorem first (h : Chain g d n k m f act u) (hac : g.Acyclic) (hleaf : ∀ v, ¬ g.Edge u v) {i : Cell} (hi : i ∈ (chainPlan n m f act u).allCells)
    (e : (chainPlan n m f act u).node i = f 0) : i = .main 0 := by
  rcases cell hi with ⟨p, hp, rfl⟩ | ⟨j, hj, rfl⟩ | rfl
  · by_cases h0 : p = 0
    · rw [h0]
    · exfalso
      have e' : f p = f 0 := e
      have h1 := h.reaches (j := p - 1) (by omega)
      have h2 := (cut_edge.1 (h.walk (p - 1) (by omega))).1
      rw [show p - 1 + 1 = p by omega, e'] at h2
      exact hac _ (TransGen.tail' h1 h2)
  · exfalso
    have e' : act j = f 0 := e
    have h1 := h.below hj
    rw [e'] at h1
    exact hac d (TransGen.tail' (h1.trans (h.reaches h.seen)) h.obs)
  · exfalso
    have e' : u = f 0 := e
    have := h.child (Plan.main_mem (P := chainPlan n m f act u) (p := 0) (Nat.zero_le _))
    rcases this with q | ⟨v, q⟩
    · simp at q
    · exact hleaf v (e' ▸ q)

/-- holding the start at a bit is like the bit coming up by itself -/
theorem held (h : Chain g d n k m f act u) {N : Net} (hg : N.g = g) (hleaf : ∀ v, ¬ g.Edge u v) (hA : Arena N (chainPlan n m f act u) true d) {t : Bool} {a : Assign}
    (ha : (N.doBN [(f 0, ((chainPlan n m f act u).wires true).enc (((chainPlan n m f act u).wires true).here (f 0) (fun _ => t)))]).Possible a) :
    N.bn.Possible a ∧ ((chainPlan n m f act u).wires true).read a (.main 0) = t := by
  set W := (chainPlan n m f act u).wires true with hW
  have hx : f 0 ∈ N.g.nodes := hA.nodes _ (Plan.main_mem (P := chainPlan n m f act u) (p := 0) (Nat.zero_le _))
  have hset : a (f 0) = W.enc (W.here (f 0) (fun _ => t)) := by
    have := ha.2 (f 0) hx
    change 0 < (if f 0 ∈ [f 0] then (if ∀ p ∈ [((f 0, W.enc (W.here (f 0) (fun _ => t))) : Node × Outcome)], p.1 = f 0 → a (f 0) = p.2 then (1 : Rat) else 0) else _) at this
    rw [if_pos (by simp)] at this
    by_contra hc
    rw [if_neg (fun q => hc (q (f 0, W.enc (W.here (f 0) (fun _ => t))) (by simp) rfl))] at this
    exact lt_irrefl _ this
  have hread : ∀ i ∈ W.cells, W.node i = f 0 → W.read a i = t := by
    intro i hi e
    show W.bit i (a (W.node i)) = t
    rw [e, hset, Wiring.bit_enc hi]
    simp [Wiring.here, e]
  have hin : N.InDom a := fun v hv => ha.1 v hv
  refine ⟨⟨hin, fun v hv => ?_⟩, hread _ (Plan.main_mem (P := chainPlan n m f act u) (p := 0) (Nat.zero_le _)) rfl⟩
  by_cases e : v = f 0
  · subst e
    refine (hA.kern _ hv (fun q => h.start q) a hin).2 ⟨?_, fun i hi e => ?_⟩
    · rw [hset]
      exact Wiring.here_congr (fun i hi e => (hread i hi e).symm)
    · left
      rw [h.first (hg ▸ hA.usable.good.wf.acyclic) hleaf hi e]
      show _ ∧ _
      simp [Plan.left, Plan.right, chainPlan]
  · have := ha.2 v hv
    change 0 < (if v ∈ [f 0] then _ else N.kernel v a) at this
    rwa [if_neg (by simpa using e)] at this

end Chain

/-- the guessing game -/
theorem chain_responds {net : Net} {d : Node} (h : OneDecision net d) {n k m : Nat} {f act : Nat → Node} {u : Node} (hC : Chain net.g d n k m f act u)
    (hu : net.m.role u = .utility 0) :
    ∃ rels cid, net.addCpds rels = (cid, .ok ()) ∧ cid.m = net.m ∧ cid.Usable ∧ AlwaysResponds cid d (f 0) := by
  have hw := h.roles.wf
  set W := (chainPlan n m f act u).wires true with hW
  have hl : W.Local net.g := ((chainPlan n m f act u).local_game hC.ok hC.game true).mono (fun u v e => (cut_edge.1 e).1)
  obtain ⟨rels, cid, k1, k2, _, _, _, k6, _, k8, k9⟩ := Net.allowing h.fresh hw (free := (· = d)) (fun _ => W.dom_sorted)
    (fun _ => W.dom_ne) (Wiring.allows hw hl)
  have hU := k9 h.roles h.base h.staffed
  have hg : cid.g = net.g := by show cid.m.g = net.m.g; rw [k2]
  have hdc : ∀ e, e ∈ cid.m.decisions ↔ e = d := by rw [k2]; exact h.decisions
  have hfol : ∀ N, N.Usable → OnlyRules cid cid.m.decisions N → Arena N (chainPlan n m f act u) true d := by
    intro N h1 h2
    refine hC.arena h rfl hu ⟨h1, by rw [h2.m, k2], fun v hv => by rw [h2.dom, k6 v hv], fun v hv hvd a ha => ?_⟩
    rw [h2.kernel (fun q => hvd ((hdc v).1 q))]
    exact k8 v hv hvd a ((h2.inDom a).1 ha)
  -- the rule that repeats what it sees
  let c : Assign → Outcome := fun a => W.enc (W.here d (fun _ => W.read a (.main k)))
  obtain ⟨nw, w1, w2, w3⟩ := realize1 hU (d := d) (hg ▸ h.node) (σ := fun a => if a d = c a then 1 else 0)
    (BN.isRule_point (B := cid.bn) (hg ▸ hw.acyclic : cid.g.Acyclic) (dom_props hU.good (hg ▸ h.node)).1 (c := c)
      (fun a b hab => by
        have : W.read a (.main k) = W.read b (.main k) := by
          show W.bit _ (a (f k)) = W.bit _ (b (f k))
          rw [hab (f k) (hg ▸ hC.obs : cid.g.Edge (f k) d)]
        simp only [c, this]) (fun a => by
        show c a ∈ cid.dom d
        rw [k6 d h.node]
        exact W.enc_dom _))
  have w2' : OnlyRules cid cid.m.decisions nw := w2.congr (fun w => by rw [hdc]; simp)
  have hAw := hfol nw w1 w2'
  have hg0 : Cell.guess 0 ∈ W.cells := Plan.guess_mem (P := chainPlan n m f act u) (Nat.zero_le _)
  have hwin := hAw.wins (fun a ha => by
    have := ha.2 d (w2.g ▸ hg ▸ h.node : d ∈ nw.g.nodes)
    change 0 < nw.kernel d a at this
    rw [w3 a ((w2.inDom a).1 ha.1)] at this
    have had : a d = c a := by
      by_contra hc
      rw [if_neg hc] at this
      exact lt_irrefl _ this
    rw [Chain.unseen, Bool.xor_false]
    show W.bit (.guess 0) (a (act 0)) = _
    rw [hC.act0, had, Wiring.bit_enc hg0, ← Chain.passes hAw ha k hC.seen]
    show (decide (act 0 = d) && _) = _
    simp [hC.act0]
    rfl)
  have hx : f 0 ∈ net.g.nodes := by
    have := hAw.nodes _ (Plan.main_mem (P := chainPlan n m f act u) (p := 0) (Nat.zero_le _))
    rw [w2.g, hg] at this
    exact this
  refine ⟨rels, cid, k1, k2, hU, W.enc (W.here (f 0) (fun _ => false)), W.bit (.guess 0), fun N n1 n2 n3 => ?_⟩
  have hA := hfol N n1 n2
  have hNg : N.g = net.g := n2.g.trans hg
  have hE : (chainPlan n m f act u).prize ≤ N.EU 0 := by
    have := n3.bound nw w1 w2'
    rwa [hwin] at this
  have hdom : N.dom (f 0) = W.dom := by rw [n2.dom, k6 _ hx]
  have hint : ∀ t : Bool, N.IntOk [(f 0, W.enc (W.here (f 0) (fun _ => t)))] := by
    intro t
    refine ⟨by simp, fun p hp => ?_⟩
    rw [List.mem_singleton] at hp
    subst hp
    exact ⟨hNg ▸ hx, by rw [hdom]; exact W.enc_dom _, Or.inl (by rw [hdom]; exact W.dom_sorted.imp (fun h => le_of_lt h))⟩
  have hB : ∀ t : Bool, (N.doBN [(f 0, W.enc (W.here (f 0) (fun _ => t)))]).Prob := fun t =>
    doBN_prob n1.good n1.normalised (hint t).1 (fun p hp => ((hint t).2 p hp).2.1)
  have hleaf : ∀ v, ¬ net.g.Edge u v := fun v => h.leaf u v 0 hu
  have key : ∀ (t : Bool) a, (N.doBN [(f 0, W.enc (W.here (f 0) (fun _ => t)))]).Possible a → N.bn.Possible a ∧ W.bit (.guess 0) (a d) = t := by
    intro t a ha
    obtain ⟨q1, q2⟩ := hC.held hNg hleaf hA ha
    refine ⟨q1, ?_⟩
    have := Chain.repeats hA hE q1
    rw [q2] at this
    rw [← this]
    show _ = W.bit (.guess 0) (a (act 0))
    rw [hC.act0]
  refine ⟨hint false, ?_⟩
  have h0 : N.PDo [(f 0, W.enc (W.here (f 0) (fun _ => false)))] (fun a => W.bit (.guess 0) (a d)) = 0 := by
    rw [PDo_eq_W (fun p hp => ((hint false).2 p hp).1)]
    exact BN.W_impossible (hB false) (fun a ha => by simp [(key false a ha).2])
  rw [h0, P_eq_W]
  obtain ⟨a, ha⟩ := BN.exists_possible (hB true)
  obtain ⟨q1, q2⟩ := key true a ha
  exact ne_of_lt (BN.W_pos hA.bn_prob (fun a _ => by split <;> norm_num) (fun x y hxy => by simp only [hxy d (hNg ▸ h.node : d ∈ N.g.nodes)]) q1 (by simp [q2]))

/-! ## C93 -/

/-- a node above a requisite observation -/
theorem requisite_responds {net : Net} {d : Node} (h : OneDecision net d) {x w : Node} (hxd : x ≠ d)
    (hxw : ReflTransGen (CutGraph net.g [d]).Edge x w) (hw : net.m.Requisite d w) :
    ∃ rels cid, net.addCpds rels = (cid, .ok ()) ∧ cid.m = net.m ∧ cid.Usable ∧ AlwaysResponds cid d x := by
  classical
  have hac := h.roles.wf.acyclic
  obtain ⟨hwd, a, u, ra, ru, hdu, Z, hZ, hD⟩ := hw
  have ha : a = 0 := ((h.dec d a).1 ra).2
  subst ha
  have hleaf : ∀ v, ¬ net.g.Edge u v := fun v => h.leaf u v 0 ru
  obtain ⟨P, hP, h0, hh, hu, hclear⟩ := Plan.ofRequisite hac hwd hdu hleaf hZ hD
  subst hu
  have base : ∀ Q : Plan, Q.Placed net.g d → Q.u = P.u → Q.h = 0 → (∀ c, Q.col c = true → ∀ j < Q.len c, ¬ net.g.Edge (Q.path c j) d) →
      Q.n ≠ 0 → Q.fwd 0 = false → ReflTransGen (CutGraph net.g [d]).Edge x (Q.w 0) →
      ∃ rels cid, net.addCpds rels = (cid, .ok ()) ∧ cid.m = net.m ∧ cid.Usable ∧ AlwaysResponds cid d x := by
    intro Q hQ hu hh hcl hn hf hr
    obtain ⟨k, f, f0, fk, fs⟩ := exists_walk hr
    have := bet_responds h (T := ⟨Q, k, f⟩) ⟨hQ, hh, hcl, hn, hf, fs, fk, by show f 0 ≠ d; rw [f0]; exact hxd, hac, by show ∀ v, ¬ net.g.Edge Q.u v; rw [hu]; exact hleaf⟩
      (by show net.m.role Q.u = _; rw [hu]; exact ru)
    have e : (⟨Q, k, f⟩ : Bet).f 0 = x := f0
    rwa [e] at this
  by_cases hall : ∀ j < P.n, P.fwd j = true
  · obtain ⟨k, f, f0, fk, fs⟩ := exists_walk hxw
    have hstep : ∀ j < P.n, (CutGraph net.g [d]).Edge (P.w j) (P.w (j + 1)) := fun j hj => by
      have := hP.ok.step j hj
      rwa [if_pos (hall j hj)] at this
    let F : Nat → Node := fun j => if j ≤ k then f j else P.w (j - k)
    have hF0 : F 0 = x := by simp [F, f0]
    have hFk : F k = w := by simp [F, fk]
    have hFn : F (k + P.n) = P.w P.n := by
      by_cases e : P.n = 0
      · simp [F, e, fk, h0]
      · simp [F, e]
    have := chain_responds h (n := k + P.n) (k := k) (m := P.m) (f := F) (act := P.act) (u := P.u)
      ⟨fun j hj => ?_, by rw [hF0]; exact hxd, by omega, by rw [hFk]; exact hwd, hP.game.acts, hP.act0, hP.game.pay, by rw [hFn]; exact hP.game.take⟩ ru
    · rwa [hF0] at this
    · by_cases e : j < k
      · simp only [F, show j ≤ k by omega, show j + 1 ≤ k by omega, if_true]; exact fs j e
      · have := hstep (j - k) (by omega)
        simp only [F, show ¬ j + 1 ≤ k by omega, if_false]
        rw [show j + 1 - k = j - k + 1 by omega]
        by_cases e2 : j = k
        · subst e2; simp only [le_refl, if_true]; rw [fk, ← h0]; simpa using this
        · simp only [show ¬ j ≤ k by omega, if_false]; exact this
  · push Not at hall
    have hex : ∃ j, j < P.n ∧ P.fwd j ≠ true := hall
    obtain ⟨hpn, hpf⟩ := Nat.find_spec hex
    have hmin : ∀ j < Nat.find hex, P.fwd j = true := by
      intro j hj
      by_contra hc
      exact Nat.find_min hex hj ⟨by omega, hc⟩
    generalize Nat.find hex = p at hpn hpf hmin
    by_cases p0 : p = 0
    · subst p0
      exact base P hP rfl hh hclear (by omega) (by simpa using hpf) (by rw [h0]; exact hxw)
    · have hcol : P.col p = true := by
        simp only [Plan.col, Bool.and_eq_true, decide_eq_true_eq, Bool.not_eq_true']
        exact ⟨⟨p0, hpn⟩, hmin _ (by omega), by simpa using hpf⟩
      obtain ⟨q1, q2, q3, q4⟩ := hP.switched hac hcol (hclear p hcol)
      refine base _ q1 rfl rfl (fun c hc j hj => ?_) q3 q4 ?_
      · exact hclear _ ((P.switched_col hcol).1 hc).2 j hj
      · rw [q2]
        refine hxw.trans ?_
        rw [← h0]
        refine (Plan.forward hP (by omega) hmin).trans ?_
        rw [← hP.ok.start p hcol]
        have : ∀ j ≤ P.len p, ReflTransGen (CutGraph net.g [d]).Edge (P.path p 0) (P.path p j) := by
          intro j
          induction j with
          | zero => intro _; exact ReflTransGen.refl
          | succ j ih => intro hj; exact (ih (by omega)).tail (hP.ok.fall p hcol j (by omega))
        exact this _ (le_refl _)

/-- a path to the decision in the requisite graph ends with a requisite observation -/
theorem ri_path {net : Net} {d : Node} {H : Graph} (hH : ∀ u v, H.Edge u v ↔ net.g.Edge u v ∧ (v = d → net.m.Requisite d u))
    {x : Node} (hxd : x ≠ d) (hr : H.DescEq x d) : ∃ w, ReflTransGen (CutGraph net.g [d]).Edge x w ∧ net.m.Requisite d w := by
  have key : ∀ {y}, H.DescEq x y → ReflTransGen (CutGraph net.g [d]).Edge x y ∨
      ∃ w, ReflTransGen (CutGraph net.g [d]).Edge x w ∧ net.m.Requisite d w := by
    intro y hy
    induction hy with
    | refl => exact Or.inl ReflTransGen.refl
    | @tail b c _ e ih =>
      rcases ih with ih | ih
      · obtain ⟨q1, q2⟩ := (hH b c).1 e
        by_cases hc : c = d
        · exact Or.inr ⟨b, ih, q2 hc⟩
        · exact Or.inl (ih.tail (cut_edge.2 ⟨q1, hc⟩))
      · exact Or.inr ih
  rcases key hr with q | q
  · rcases ReflTransGen.cases_tail q with q | ⟨b, _, q⟩
    · exact absurd q.symm hxd
    · exact absurd rfl (cut_edge.1 q).2
  · exact q

theorem admitsRi_one {net : Net} {d : Node} (ha : net.Analysable) (hn : NamesOk net.g) (h1 : net.m.agents.length ≤ 1)
    (hdec : ∀ e b, net.m.role e = .decision b ↔ e = d ∧ b = 0) (pick : Pick) (tpick : List Node → Nat) {setOrd : ListOrder}
    (hset : ∀ l, (setOrd l).Perm l) {x : Node} (hx : x ∈ net.g.nodes) (hd : d ∈ net.g.nodes) :
    ∃ b, admitsRi pick tpick setOrd net d x = .ok b ∧
      (b = true ↔ x ≠ d ∧ ∃ w, ReflTransGen (CutGraph net.g [d]).Edge x w ∧ net.m.Requisite d w) := by
  have hrec : net.m.Recalls := fun a ds hds => recall_single (d := d) (fun e he => ((hdec e a).1 ((hds e).1 he)).1)
  obtain ⟨rg, g1, _, g3⟩ := C51_single_decision ha pick tpick hset ((hdec d 0).2 ⟨rfl, rfl⟩) (fun e b q => ((hdec e b).1 q).1)
  obtain ⟨rg', b, order, e1, _, _, e2, e3⟩ := C54_admits_ri ha hn pick tpick hset h1 hrec hx hd
  rw [g1] at e1
  cases e1
  refine ⟨b, e2, e3.trans (and_congr_right (fun hxd => ⟨?_, ?_⟩))⟩
  · rintro ⟨p, hp⟩
    exact ri_path g3 hxd (descEq_iff_path.2 ⟨p, hp⟩)
  · rintro ⟨w, h1, h2⟩
    have h3 : ReflTransGen rg.g.Edge x w := ReflTransGen.mono (fun a b q => (g3 a b).2 ⟨(cut_edge.1 q).1, fun e => absurd e (cut_edge.1 q).2⟩) _ _ h1
    exact descEq_iff_path.1 (h3.tail ((g3 w d).2 ⟨h2.1, fun _ => h2⟩))

/-- **C93** If `admits_ri` is True for the node `x`, the diagram can be given CPDs under which every optimal policy responds to `x`: an
intervention on `x` changes the distribution of the decision. -/
theorem C93_ri_complete {net : Net} {d : Node} (h : OneDecision net d) {pick : Pick} {tpick : List Node → Nat} {setOrd : ListOrder}
    (hset : ∀ l, (setOrd l).Perm l) {x : Node} (hx : x ∈ net.g.nodes) (hv : admitsRi pick tpick setOrd net d x = .ok true) :
    ∃ rels cid, net.addCpds rels = (cid, .ok ()) ∧ cid.m = net.m ∧ cid.Usable ∧ AlwaysResponds cid d x := by
  obtain ⟨b, e1, e2⟩ := admitsRi_one h.analysable h.names h.agents h.dec pick tpick hset hx h.node
  rw [hv] at e1
  obtain ⟨hxd, w, h1, h2⟩ := e2.1 (Except.ok.inj e1).symm
  exact requisite_responds h hxd h1 h2

/-- **C93** So `admits_ri` is True for a node other than the decision exactly if the diagram can be given CPDs under which every optimal policy
responds to the node. -/
theorem C93_ri_iff {net : Net} {d : Node} (h : OneDecision net d) {pick : Pick} {tpick : List Node → Nat} {setOrd : ListOrder}
    (hset : ∀ l, (setOrd l).Perm l) {x : Node} (hx : x ∈ net.g.nodes) (hxd : x ≠ d) :
    admitsRi pick tpick setOrd net d x = .ok true ↔
      ∃ rels cid, net.addCpds rels = (cid, .ok ()) ∧ cid.m = net.m ∧ cid.Usable ∧ AlwaysResponds cid d x := by
  refine ⟨C93_ri_complete h hset hx, ?_⟩
  rintro ⟨rels, cid, k1, k2, k3, v, E, hall⟩
  obtain ⟨b, e1, e2⟩ := admitsRi_one h.analysable h.names h.agents h.dec pick tpick hset hx h.node
  cases b with
  | true => exact e1
  | false =>
    exfalso
    have hg : cid.g = net.g := by show cid.m.g = net.m.g; rw [k2]
    obtain ⟨b', e1', e2'⟩ := admitsRi_one k3.analysable (by rw [hg]; exact h.names) (by rw [k2]; exact h.agents) (by rw [k2]; exact h.dec) pick tpick hset
      (x := x) (by rw [hg]; exact hx) (by rw [hg]; exact h.node)
    have hb' : b' = false := by
      cases b' with
      | false => rfl
      | true =>
        have := e2'.1 rfl
        rw [hg, k2] at this
        exact absurd (e2.2 this) (by simp)
    subst hb'
    have hrec : cid.m.Recalls := fun a ds hds => recall_single (d := d) (fun e he => ((h.dec e a).1 (by have := (hds e).1 he; rwa [k2] at this)).1)
    obtain ⟨n, n1, n2, n3, n4⟩ := C87_no_response k3 (by rw [hg]; exact h.names) (pick := pick) (tpick := tpick) hset (by rw [k2]; exact h.agents) hrec (a := 0) (by
      rw [k2]
      refine (h.staffed.both 0).2 ?_
      obtain ⟨l, hl, _⟩ := (h.roles.dec.iff d 0).1 (role_decision.1 h.isDec)
      exact Dict.mem_keys.2 ⟨l, hl⟩)
    obtain ⟨q1, q2⟩ := hall n n1 n2 n3
    refine q2 (n4 x v q1 _ (fun a b hab => ?_))
    rw [hab d (Or.inl ⟨by rw [k2]; exact (h.decisions d).2 rfl, Ne.symm hxd, e1'⟩)]

/-- the hypotheses of `C93_ri_complete` are met: the decision must respond to `C`, and so to `X`, `Y` and `V` above it -/
example : OneDecision exColliderNet "D" ∧ "V" ∈ exColliderNet.g.nodes ∧
    admitsRi (fun _ => 0) (fun _ => 0) id exColliderNet "D" "C" = .ok true ∧ admitsRi (fun _ => 0) (fun _ => 0) id exColliderNet "D" "V" = .ok true ∧
    admitsRi (fun _ => 0) (fun _ => 0) id exColliderNet "D" "U" = .ok false :=
  ⟨exCollider_one, by decide, by decide +kernel, by decide +kernel, by decide +kernel⟩

end Verif

import Verif.Lemmas.Rely
import Verif.Lemmas.Do
import Verif.Lemmas.Realize
import Verif.Lemmas.Prospect

/-!
# Two CPDs of one node that are told apart by a node that its mechanism is d-connected to
-/

namespace Verif

open Graph Relation Net

theorem withParent_edge {g : Graph} {n v a b : Node} : (g.withParent n v).Edge a b ↔ (a = n ∧ b = v) ∨ g.Edge a b := by
  simp [Edge, withParent]

namespace Plan

/-- the cells of the trail other than the first -/
def rest (P : Plan) : List Cell := P.trailCells.filter (fun i => decide (i ≠ .main 0))

/-- the wiring of the real nodes; the imaginary parent holds `s` -/
def tuned (P : Plan) (s : Bool) : Wiring Cell := ⟨P.rest, P.node, P.coin, fun i β => P.rule true i (fix s β)⟩

theorem mem_rest {P : Plan} {i : Cell} : i ∈ P.rest ↔ i ∈ P.trailCells ∧ i ≠ .main 0 := by
  simp [rest]

/-- the plan runs from an imaginary parent of `v` to another node -/
structure Tuning (P : Plan) (g : Graph) (n v : Node) (Obs : Node → Prop) : Prop where
  ok : P.Ok (g.withParent n v) Obs
  start : P.w 0 = n
  once : ∀ p ≤ P.n, P.w p = n → p = 0
  gate : P.h = 0
  far : P.n ≠ 0
  wf : g.WF
  fresh : n ∉ g.nodes
  vn : v ∈ g.nodes
  real : ∀ z, Obs z → z ∈ g.nodes

namespace Tuning

variable {P : Plan} {g : Graph} {n v : Node} {Obs : Node → Prop}

theorem noIn (h : P.Tuning g n v Obs) {a : Node} (e : (g.withParent n v).Edge a n) : False := by
  rcases withParent_edge.1 e with ⟨_, q⟩ | q
  · exact h.fresh (q ▸ h.vn)
  · exact h.fresh (h.wf.edgeNodes _ _ q).2

theorem node_ne (h : P.Tuning g n v Obs) {i : Cell} (hi : i ∈ P.rest) : P.node i ≠ n := by
  obtain ⟨hi, h0⟩ := mem_rest.1 hi
  intro e
  rcases mem_trailCells.1 hi with ⟨p, hp, rfl⟩ | ⟨p, j, hc, hj, rfl⟩
  · exact h0 (by rw [h.once p hp e])
  · have := h.ok.fall p hc j hj
    have e' : P.path p (j + 1) = n := e
    rw [e'] at this
    exact h.noIn this

theorem node_mem (h : P.Tuning g n v Obs) {i : Cell} (hi : i ∈ P.rest) : P.node i ∈ g.nodes := by
  have hne := h.node_ne hi
  obtain ⟨hi, h0⟩ := mem_rest.1 hi
  have hE : ∀ {a b}, (g.withParent n v).Edge a b → (a ≠ n → a ∈ g.nodes) ∧ b ∈ g.nodes := by
    intro a b q
    rcases withParent_edge.1 q with ⟨q1, rfl⟩ | q
    · exact ⟨fun q => absurd q1 q, h.vn⟩
    · exact ⟨fun _ => (h.wf.edgeNodes _ _ q).1, (h.wf.edgeNodes _ _ q).2⟩
  rcases mem_trailCells.1 hi with ⟨p, hp, rfl⟩ | ⟨p, j, hc, hj, rfl⟩
  · have hp0 : p ≠ 0 := fun q => h0 (by rw [q])
    have := h.ok.step (p - 1) (by omega)
    rw [show p - 1 + 1 = p by omega] at this
    split at this
    · exact (hE this).2
    · exact (hE this).1 hne
  · exact (hE (h.ok.fall p hc j hj)).2

theorem big (h : P.Tuning g n v Obs) : (P.wiring P.trailCells true).Local (g.withParent n v) := P.local_trail h.ok h.gate true

theorem loc (h : P.Tuning g n v Obs) (s : Bool) : (P.tuned s).Local g := by
  refine ⟨fun i hi hc β β' hβ => ?_⟩
  refine h.big.loc i (mem_rest.1 hi).1 hc _ _ (fun j hj e => ?_)
  unfold fix
  split
  · rfl
  · rename_i hj0
    have hj' : j ∈ P.rest := mem_rest.2 ⟨hj, hj0⟩
    refine hβ j hj' (e.imp (fun q => ?_) id)
    exact (withParent_edge.1 q).resolve_left (fun q => h.node_ne hj' q.1)

/-- only the cells at `v` look at the imaginary cell -/
theorem blind (h : P.Tuning g n v Obs) {i : Cell} (hi : i ∈ P.rest) (hv : P.node i ≠ v) (hc : ¬ P.coin i) (s s' : Bool) (β : Cell → Bool) :
    P.rule true i (fix s β) = P.rule true i (fix s' β) := by
  refine h.big.loc i (mem_rest.1 hi).1 hc _ _ (fun j hj e => ?_)
  unfold fix
  split
  · rename_i hj0
    exfalso
    subst hj0
    have e' : (g.withParent n v).Edge (P.w 0) (P.node i) ∨ (P.w 0 = P.node i ∧ P.coin (.main 0)) := e
    rw [h.start] at e'
    rcases e' with q | q
    · rcases withParent_edge.1 q with q | q
      · exact hv q.2
      · exact h.fresh (h.wf.edgeNodes _ _ q).1
    · exact h.node_ne hi q.1.symm
  · rfl

theorem R_iff (h : P.Tuning g n v Obs) {w : Node} (hw : w ≠ v) (s s' : Bool) (a : Assign) : (P.tuned s).R w a ↔ (P.tuned s').R w a := by
  have key : ∀ s s', (P.tuned s).R w a → (P.tuned s').R w a := by
    intro s s' ⟨h1, h2⟩
    refine ⟨h1, fun i hi e => ?_⟩
    by_cases hc : P.coin i
    · exact Or.inl hc
    · right
      have e' : P.node i = w := e
      refine ((h2 i hi e).resolve_left hc).trans ?_
      exact h.blind hi (by rw [e']; exact hw) hc s s' _
  exact ⟨key s s', key s' s⟩

theorem main0 (h : P.Tuning g n v Obs) : P.coin (.main 0) := by
  refine ⟨by simp [left], ?_⟩
  cases hr : P.right 0 with
  | false => rfl
  | true =>
    exfalso
    have := right_edge h.ok hr
    rw [h.start] at this
    exact h.noIn this

theorem landing_rest (_ : P.Tuning g n v Obs) {p : Nat} (hp : P.col p = true) : P.landing p ∈ P.rest := by
  refine mem_rest.2 ⟨landing_mem hp, ?_⟩
  unfold landing
  split
  · simp only [ne_eq, Cell.main.injEq]
    rintro rfl
    rw [P.not_col_zero] at hp
    simp at hp
  · simp

theorem end_rest (h : P.Tuning g n v Obs) : Cell.main P.n ∈ P.rest :=
  mem_rest.2 ⟨mem_trailCells.2 (Or.inl ⟨_, le_refl _, rfl⟩), by simpa using h.far⟩

/-- there are no cells at observed nodes without parents in `g` -/
theorem vacant (h : P.Tuning g n v Obs) {i : Cell} (hi : i ∈ P.rest) (ho : Obs (P.node i)) (hp : ∀ u, ¬ g.Edge u (P.node i)) : False := by
  have hE : ∀ {a}, (g.withParent n v).Edge a (P.node i) → a = n := by
    intro a q
    rcases withParent_edge.1 q with q | q
    · exact q.1
    · exact absurd q (hp a)
  obtain ⟨hi, h0⟩ := mem_rest.1 hi
  rcases mem_trailCells.1 hi with ⟨p, hp', rfl⟩ | ⟨p, j, hc, hj, rfl⟩
  · have hp0 : p ≠ 0 := fun q => h0 (by rw [q])
    cases hc : P.col p with
    | false => exact h.ok.free p hp0 hp' hc ho
    | true =>
      rw [col_eq] at hc
      simp only [Bool.and_eq_true] at hc
      have hlt : p < P.n := by
        have := hc.2
        unfold right at this
        simp only [Bool.and_eq_true, decide_eq_true_eq] at this
        exact this.1
      have := h.once (p + 1) (by omega) (hE (right_edge h.ok hc.2))
      omega
  · have e := hE (h.ok.fall p hc j hj)
    by_cases hj0 : j = 0
    · rw [hj0, h.ok.start p hc] at e
      have hpn : p ≤ P.n := by
        have := hc
        unfold col at this
        simp only [Bool.and_eq_true, decide_eq_true_eq] at this
        omega
      have := h.once p hpn e
      rw [this, P.not_col_zero] at hc
      simp at hc
    · have := h.ok.fall p hc (j - 1) (by omega)
      rw [show j - 1 + 1 = j by omega, e] at this
      exact h.noIn this

/-- the world in which the signal is `s` obeys the wiring -/
theorem solves (h : P.Tuning g n v Obs) (s : Bool) : (P.tuned s).Solves (P.world true s false) := by
  have hfix : Plan.fix s (P.world true s false) = P.world true s false := by
    funext i
    unfold Plan.fix
    split
    · rename_i q; subst q; simp [Plan.world, P.not_col_zero]
    · rfl
  intro i hi
  have := P.world_rule (op := true) (Or.inl rfl) s false (i := i) (fun p j q => by
    subst q
    rcases Plan.mem_trailCells.1 (mem_rest.1 hi).1 with ⟨_, _, q⟩ | ⟨p', j', hc', _, q⟩
    · simp at q
    · simp only [Cell.down.injEq] at q; rw [q.1]; exact hc')
  refine this.imp id (fun q => ?_)
  show _ = P.rule true i (Plan.fix s _)
  rw [hfix]; exact q

/-- at the observed nodes the two worlds look alike -/
theorem alike (h : P.Tuning g n v Obs) {z : Node} (hz : Obs z) (s s' : Bool) :
    (P.tuned true).assign (P.world true s false) z = (P.tuned true).assign (P.world true s' false) z :=
  P.world_alike h.ok P.rest hz (fun _ e => h.fresh (by rw [← h.start, ← e]; exact h.real z hz)) (fun i hi => Or.inl (mem_rest.1 hi).1)
    (fun i hi _ => by rcases Plan.mem_trailCells.1 (mem_rest.1 hi).1 with ⟨q, _, rfl⟩ | ⟨q, k, _, _, rfl⟩ <;> simp) s false s' false

/-- what the last node shows, given the observed nodes -/
theorem shows (h : P.Tuning g n v Obs) {s : Bool} {a : Assign} (ha : ∀ i ∈ P.rest, P.coin i ∨ (P.tuned true).read a i = P.rule true i (fix s ((P.tuned true).read a)))
    (hz : ∀ z, Obs z → a z = (P.tuned true).assign (P.world true false false) z) : (P.tuned true).read a (.main P.n) = s := by
  set β := (P.tuned true).read a with hβ
  have hne : ∀ i ∈ P.rest, fix s β i = β i := fun i hi => by
    unfold fix; rw [if_neg (mem_rest.1 hi).2]
  have hruns : P.Runs true (fix s β) := by
    intro i hi
    by_cases h0 : i = .main 0
    · rw [h0]; exact Or.inl h.main0
    · have hi' : i ∈ P.rest := mem_rest.2 ⟨hi, h0⟩
      rw [hne i hi']
      exact ha i hi'
  have key := P.signal hruns (by simp [Plan.gateOpen, h.gate])
  have hs : P.total (fix s β) P.n = false := by
    rw [P.total_seen hruns, P.seen_congr (β' := fun _ => false), P.seen_false]
    intro c hc
    have hl := h.landing_rest hc
    rw [hne _ hl, hβ]
    have := Wiring.read_assign (W := P.tuned true) (β := P.world true false false) (i := P.landing c) hl
    have e : (P.tuned true).read a (P.landing c) = (P.tuned true).read ((P.tuned true).assign (P.world true false false)) (P.landing c) := by
      unfold Wiring.read
      show (P.tuned true).bit _ (a (P.node _)) = (P.tuned true).bit _ ((P.tuned true).assign _ (P.node _))
      rw [P.landing_node h.ok hc, hz _ (h.ok.land c hc)]
    rw [e, this]
    unfold Plan.landing
    split <;> simp [Plan.world]
  rw [hs, Bool.xor_false, hne _ h.end_rest] at key
  rw [key]
  simp [fix]

end Tuning

end Plan

/-- `M` is wired according to the plan, with `s` at the imaginary parent -/
structure Tuned (M : Net) (P : Plan) (s : Bool) : Prop where
  usable : M.Usable
  dom : ∀ w ∈ M.g.nodes, M.dom w = (P.tuned true).dom
  kern : ∀ w ∈ M.g.nodes, ∀ a, M.InDom a → (0 < M.kernel w a ↔ (P.tuned s).R w a)

/-- the observed and the fixed nodes have the values that they have without a signal -/
def Plan.quiet (P : Plan) : Assign := (P.tuned true).assign (P.world true false false)

def Plan.held (P : Plan) (I : List Node) : List (Node × Outcome) := I.map (fun i => (i, P.quiet i))

theorem Plan.held_keys (P : Plan) (I : List Node) : (P.held I).map (·.1) = I := by
  unfold Plan.held
  rw [List.map_map]
  exact List.map_id _

namespace Tuned

variable {M : Net} {P : Plan} {s : Bool} {n v y : Node} {Z I : List Node}

theorem quiet_dom (h : Tuned M P s) {w : Node} (hw : w ∈ M.g.nodes) : P.quiet w ∈ M.dom w := by
  rw [h.dom w hw]; exact Wiring.assign_dom

theorem intOk (h : Tuned M P s) (hI : I ⊆ M.g.nodes) (hn : I.Nodup) : M.IntOk (P.held I) := by
  refine ⟨by rw [P.held_keys]; exact hn, fun p hp => ?_⟩
  obtain ⟨i, hi, rfl⟩ := List.mem_map.1 hp
  refine ⟨hI hi, h.quiet_dom (hI hi), Or.inl ?_⟩
  show (M.dom i).Pairwise _
  rw [h.dom i (hI hi)]
  exact (Wiring.dom_sorted _).imp le_of_lt

theorem prob (h : Tuned M P s) (hI : I ⊆ M.g.nodes) (hn : I.Nodup) : (M.doBN (P.held I)).Prob :=
  doBN_prob h.usable.good h.usable.normalised (h.intOk hI hn).1 (fun p hp => ((h.intOk hI hn).2 p hp).2.1)

/-- the world with the signal may happen -/
theorem may (h : Tuned M P s) (hT : P.Tuning (CutGraph M.g I) n v (· ∈ Z ++ I)) :
    (M.doBN (P.held I)).Possible ((P.tuned true).assign (P.world true s false)) := by
  have hin : M.InDom ((P.tuned true).assign (P.world true s false)) := fun w hw => by
    rw [h.dom w hw]; exact Wiring.assign_dom
  refine ⟨hin, fun w hw => ?_⟩
  show 0 < (if w ∈ (P.held I).map (·.1) then (if ∀ p ∈ P.held I, p.1 = w → (P.tuned true).assign (P.world true s false) w = p.2 then (1 : Rat) else 0)
    else M.kernel w ((P.tuned true).assign (P.world true s false)))
  split
  · rename_i hwI
    rw [P.held_keys] at hwI
    rw [if_pos]
    · norm_num
    · intro p hp e
      obtain ⟨i, hi, rfl⟩ := List.mem_map.1 hp
      simp only at e
      subst e
      exact hT.alike (List.mem_append.2 (Or.inr hwI)) s false
  · exact (h.kern w hw _ hin).2 (Wiring.R_assign (hT.loc s) (hT.solves s) w)

/-- the last node shows the signal -/
theorem shows (h : Tuned M P s) (hT : P.Tuning (CutGraph M.g I) n v (· ∈ Z ++ I)) {a : Assign}
    (ha : (M.doBN (P.held I)).Possible a) (hz : ∀ z ∈ Z, a z = P.quiet z) : (P.tuned true).read a (.main P.n) = s := by
  have hI : ∀ i ∈ I, i ∈ M.g.nodes → a i = P.quiet i := by
    intro i hi hn
    have := ha.2 i hn
    change 0 < (if i ∈ (P.held I).map (·.1) then (if ∀ p ∈ P.held I, p.1 = i → a i = p.2 then (1 : Rat) else 0) else M.kernel i a) at this
    rw [if_pos (by rw [P.held_keys]; exact hi)] at this
    by_contra hc
    rw [if_neg (fun q => hc (q (i, P.quiet i) (List.mem_map.2 ⟨i, hi, rfl⟩) rfl))] at this
    exact lt_irrefl _ this
  refine hT.shows (fun i hi => ?_) (fun z hz' => ?_)
  · have hn : P.node i ∈ M.g.nodes := hT.node_mem hi
    by_cases hiI : P.node i ∈ I
    · exfalso
      exact hT.vacant hi (List.mem_append.2 (Or.inr hiI)) (fun u q => (mem_cutGraph.1 q).2 hiI)
    · have := ha.2 (P.node i) hn
      change 0 < (if P.node i ∈ (P.held I).map (·.1) then _ else M.kernel (P.node i) a) at this
      rw [if_neg (by rw [P.held_keys]; exact hiI)] at this
      exact ((h.kern _ hn a ha.1).1 this).2 i hi rfl
  · rcases List.mem_append.1 hz' with q | q
    · exact hz z q
    · exact hI z q (hT.real z hz')

theorem never (h : Tuned M P true) (hT : P.Tuning (CutGraph M.g I) n v (· ∈ Z ++ I)) (hI : I ⊆ M.g.nodes) (hn : I.Nodup) (hy : P.w P.n = y) :
    M.PDo (P.held I) (fun a => decide (a y = P.quiet y ∧ ∀ z ∈ Z, a z = P.quiet z)) = 0 := by
  rw [PDo_eq_W (fun p hp => ((h.intOk hI hn).2 p hp).1)]
  refine BN.W_impossible (h.prob hI hn) (fun a ha => ?_)
  rw [if_neg]
  simp only [decide_eq_true_eq, not_and]
  intro hay haz
  have h1 := h.shows hT ha haz
  have h2 := Wiring.read_assign (W := P.tuned true) (β := P.world true false false) (i := .main P.n) hT.end_rest
  have e : (P.tuned true).read a (.main P.n) = (P.tuned true).read P.quiet (.main P.n) := by
    unfold Wiring.read
    show (P.tuned true).bit _ (a (P.w P.n)) = (P.tuned true).bit _ (P.quiet (P.w P.n))
    rw [hy, hay]
  rw [h1] at e
  rw [show P.quiet = (P.tuned true).assign (P.world true false false) from rfl, h2] at e
  simp [Plan.world] at e

theorem sees (h : Tuned M P s) (hT : P.Tuning (CutGraph M.g I) n v (· ∈ Z ++ I)) (hI : I ⊆ M.g.nodes) (hn : I.Nodup) (hZ : Z ⊆ M.g.nodes) :
    0 < M.PDo (P.held I) (fun a => decide (∀ z ∈ Z, a z = P.quiet z)) := by
  rw [PDo_eq_W (fun p hp => ((h.intOk hI hn).2 p hp).1)]
  refine BN.W_pos (h.prob hI hn) (fun a _ => by split <;> norm_num) (fun a b hab => ?_) (h.may hT) ?_
  · have : (∀ z ∈ Z, a z = P.quiet z) ↔ ∀ z ∈ Z, b z = P.quiet z := forall₂_congr (fun z hz => by rw [hab z (hZ hz)])
    simp only [this]
  · rw [if_pos (by simp only [decide_eq_true_eq]; exact fun z hz => hT.alike (List.mem_append.2 (Or.inl hz)) s false)]; norm_num

theorem perhaps (h : Tuned M P false) (hT : P.Tuning (CutGraph M.g I) n v (· ∈ Z ++ I)) (hI : I ⊆ M.g.nodes) (hn : I.Nodup) (hZ : Z ⊆ M.g.nodes)
    (hy : y ∈ M.g.nodes) : 0 < M.PDo (P.held I) (fun a => decide (a y = P.quiet y ∧ ∀ z ∈ Z, a z = P.quiet z)) := by
  rw [PDo_eq_W (fun p hp => ((h.intOk hI hn).2 p hp).1)]
  refine BN.W_pos (h.prob hI hn) (fun a _ => by split <;> norm_num) (fun a b hab => ?_) (h.may hT) ?_
  · have : (∀ z ∈ Z, a z = P.quiet z) ↔ ∀ z ∈ Z, b z = P.quiet z := forall₂_congr (fun z hz => by rw [hab z (hZ hz)])
    simp only [hab y hy, this]
  · rw [if_pos (by simp only [decide_eq_true_eq]; exact ⟨rfl, fun _ _ => rfl⟩)]; norm_num

end Tuned

/-- the two networks: they differ in the CPD of `v` only -/
theorem regimes {net : Net} (hf : net.Fresh) (hc : net.m.Consistent) (hb : net.base = Macid.new ∨ net.base = Macid.newCid) (hst : net.Staffed)
    {I Z : List Node} {n v y : Node} (hv : v ∈ net.g.nodes) (hy : y ∈ net.g.nodes) (hn : n ∉ net.g.nodes) (hI : I ⊆ net.g.nodes) (hZ : Z ⊆ net.g.nodes)
    (hD : ((CutGraph net.g I).withParent n v).DConn n y (Z ++ I)) :
    ∃ rels N N' P, net.addCpds rels = (N, .ok ()) ∧ N.m = net.m ∧ OnlyRules N [v] N' ∧ P.Tuning (CutGraph net.g I) n v (· ∈ Z ++ I) ∧ P.w P.n = y ∧
      Tuned N P true ∧ Tuned N' P false := by
  classical
  have hw := hc.wf
  have hw' := cutGraph_wf hw I
  obtain ⟨-, hyZ, p, hp, ha⟩ := hD
  obtain ⟨P, hP, h0, hlast, hlen, hget, -, hh⟩ := Plan.ofPath (withParent_wf hw' hn hv).acyclic hp ha (fun _ => hyZ) (Obs := (· ∈ Z ++ I))
    (fun v _ hv => hv) (fun v ⟨z, hz, hd⟩ => ⟨z, hz, hd⟩)
  have hyn : y ≠ n := by rintro rfl; exact hn hy
  have hT : P.Tuning (CutGraph net.g I) n v (· ∈ Z ++ I) := by
    refine ⟨hP, h0, fun j hj e => ?_, hh, fun e => ?_, hw', hn, hv, fun z hz => ?_⟩
    · have e1 := hget j hj
      have e2 := hget 0 (by omega)
      rw [e, ← h0] at e1
      exact (List.getElem?_inj (by omega) hp.2.2.2).1 (e1.trans e2.symm)
    · rw [e, h0] at hlast; exact hyn hlast.symm
    · rcases List.mem_append.1 hz with q | q
      · exact hZ q
      · exact hI q
  have hloc : ∀ s, (P.tuned s).Local net.g := fun s => (hT.loc s).mono (fun u v q => (mem_cutGraph.1 q).1)
  have hA := fun s => Wiring.allows hw (hloc s)
  obtain ⟨rels, N, e1, e2, _, hG, _, hdom, _, hker, hus⟩ := parameterise hf hw (dom := fun _ => (P.tuned true).dom)
    (σ := spread (fun _ => (P.tuned true).dom) (P.tuned true).R) (free := fun _ => False) (fun _ => Wiring.dom_sorted _) (fun _ => Wiring.dom_ne _)
    (fun w hw' => (hA true).rule hw' _)
  have hU := hus hc hb hst
  have hg : N.g = net.g := by show N.m.g = net.m.g; rw [e2]
  have hrule : N.bn.IsRule v (spread (fun _ => (P.tuned false).dom) (P.tuned false).R v) := by
    have := (hA false).rule hv (fun _ _ => 0)
    refine ⟨fun x y hxy => this.scope x y (fun w hw' => hxy w (by show w = v ∨ N.g.Edge w v; rw [hg]; exact hw')), fun x hx => ?_, fun x hx => ?_⟩
    · have e := this.norm x (fun p hp => ?_)
      · show ((N.dom v).map _).sum = 1
        rw [hdom v hv]
        exact e
      · have := hx p (by show N.g.Edge p v; rw [hg]; exact hp)
        change x p ∈ N.dom p at this
        rw [hdom p (hw.edgeNodes _ _ hp).1] at this
        exact this
    · refine this.nonneg x (fun p hp => ?_)
      have := hx p (by
        rcases hp with q | q
        · exact Or.inl q
        · exact Or.inr (by show N.g.Edge p v; rw [hg]; exact q))
      change x p ∈ N.dom p at this
      rw [hdom p (by
        rcases hp with rfl | q
        · exact hv
        · exact (hw.edgeNodes _ _ q).1)] at this
      exact this
  obtain ⟨N', hU', hO, hk'⟩ := realize1 hU (by rw [hg]; exact hv) hrule
  have hpos : ∀ s, ∀ w ∈ net.g.nodes, ∀ x, N.InDom x → (0 < spread (fun _ => (P.tuned s).dom) (P.tuned s).R w x ↔ (P.tuned s).R w x) := by
    intro s w hw' x hx
    refine (hA s).pos hw' ?_
    have := hx w (by rw [hg]; exact hw')
    rw [hdom w hw'] at this
    exact this
  refine ⟨rels, N, N', P, e1, e2, hO, hT, hlast, ⟨hU, fun w hw' => hdom w (by rw [← hg]; exact hw'), fun w hw' x hx => ?_⟩,
    ⟨hU', fun w hw' => ?_, fun w hw' x hx => ?_⟩⟩
  · rw [hg] at hw'
    rw [hker w hw' (fun q => q) x hx]
    exact hpos true w hw' x hx
  · rw [hO.g, hg] at hw'
    rw [hO.dom, hdom w hw']
  · rw [hO.g, hg] at hw'
    have hx' := (hO.inDom x).1 hx
    by_cases e : w = v
    · subst e
      rw [hk' x hx']
      exact hpos false w hw' x hx'
    · rw [hO.kernel (by simpa using e), hker w hw' (fun q => q) x hx', hpos true w hw' x hx']
      exact hT.R_iff e true false x

end Verif
